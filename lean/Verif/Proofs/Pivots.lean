import Verif.Spec.Pivots
import Verif.Proofs.Reach
import Verif.Proofs.Lu
import Verif.Spec.Check2

/-
The Faugère-Lachartre searches give acyclic matchings.
-/

namespace Spasm

open Finset Relation

theorem Matching.qinvOk {A : Csr} {pinv qinv : Array Int} (h : Matching A pinv qinv) :
    QinvOk A qinv := ⟨by rw [h.qsize], h.q_lt⟩

/-- Making column `j` pivotal on row `i` creates no cycle if no other column of row `i` leads
to `j`. -/
theorem PAcyclic.insert {A : Csr} {qinv : Array Int} {i j : Nat} (h : PAcyclic A qinv)
    (hj : qinv.g j < 0)
    (hno : ∀ c, A.InRow i c → c ≠ j → ¬ ReflTransGen (PEdge A qinv) c j) :
    PAcyclic A (qinv.upd j (i : Int)) := by
  set E : Nat → Nat → Prop := fun a b => PEdge A qinv a b ∧ b ≠ a with hE
  set E' : Nat → Nat → Prop := fun a b => PEdge A (qinv.upd j (i : Int)) a b ∧ b ≠ a with hE'
  have old : ∀ a b, a ≠ j → E' a b → E a b := by
    intro a b ha ⟨⟨h1, h2⟩, h3⟩
    rw [g_upd_ne _ _ _ _ ha] at h1 h2
    exact ⟨⟨h1, h2⟩, h3⟩
  have new : ∀ a b, E a b → E' a b := by
    intro a b ⟨⟨h1, h2⟩, h3⟩
    have ha : a ≠ j := by rintro rfl; omega
    exact ⟨⟨by rw [g_upd_ne _ _ _ _ ha]; exact h1, by rw [g_upd_ne _ _ _ _ ha]; exact h2⟩, h3⟩
  have toj : ∀ b, ReflTransGen E' b j → ReflTransGen E b j := by
    intro b hb
    induction hb using ReflTransGen.head_induction_on with
    | refl => exact .refl
    | @head b c hbc _ ih =>
      by_cases hbj : b = j
      · rw [hbj]
      · exact .head (old _ _ hbj hbc) ih
  have split : ∀ a b, TransGen E' a b → TransGen E a b ∨
      (ReflTransGen E' a j ∧ ∃ c, E' j c ∧ ReflTransGen E' c b) := by
    intro a b hab
    induction hab with
    | single hab =>
      rename_i b
      by_cases ha : a = j
      · right; rw [ha] at hab ⊢; exact ⟨.refl, b, hab, .refl⟩
      · left; exact .single (old _ _ ha hab)
    | tail hab hbc ih =>
      rename_i b c
      rcases ih with ih | ⟨h1, d, h2, h3⟩
      · by_cases hb : b = j
        · right
          rw [hb] at hbc ih
          exact ⟨(TransGen.mono new _ _ ih).to_reflTransGen, c, hbc, .refl⟩
        · left; exact ih.tail (old _ _ hb hbc)
      · right; exact ⟨h1, d, h2, h3.tail hbc⟩
  intro c hc hcyc
  rcases split c c hcyc with h1 | ⟨h1, d, h2, h3⟩
  · exact h c hc h1
  · have hdj := toj d (h3.trans h1)
    have hin : A.InRow i d := by
      have h4 := h2.1.2
      by_cases hs : j < qinv.size
      · rw [g_upd_eq _ _ _ hs] at h4; simpa using h4
      · exfalso
        have h5 := h2.1.1
        rw [g_upd, if_neg (fun hh => hs hh.2)] at h5
        omega
    exact hno d hin h2.2 (ReflTransGen.mono (fun a b hab => And.left hab) _ _ hdj)

theorem pivCount_upd {m : Nat} {qinv : Array Int} (hs : qinv.size = m) {j i : Nat} (hj : j < m) :
    pivCount m (qinv.upd j (i : Int)) = pivCount m qinv + (if 0 ≤ qinv.g j then 0 else 1) := by
  unfold pivCount
  have hiff : ∀ c, 0 ≤ (qinv.upd j (i : Int)).g c ↔ (c = j ∨ 0 ≤ qinv.g c) := by
    intro c
    by_cases hc : c = j
    · rw [hc, g_upd_eq _ _ _ (by omega)]; simp
    · rw [g_upd_ne _ _ _ _ hc]; simp [hc]
  by_cases h : 0 ≤ qinv.g j
  · rw [if_pos h, Nat.add_zero]
    congr 1
    ext c
    simp only [mem_filter, mem_range, hiff]
    constructor
    · rintro ⟨h1, rfl | h2⟩
      · exact ⟨h1, h⟩
      · exact ⟨h1, h2⟩
    · rintro ⟨h1, h2⟩; exact ⟨h1, Or.inr h2⟩
  · rw [if_neg h, ← card_insert_of_notMem (a := j) (by simp; omega)]
    congr 1
    ext c
    simp only [mem_filter, mem_range, hiff, mem_insert]
    constructor
    · rintro ⟨h1, rfl | h2⟩
      · left; rfl
      · right; exact ⟨h1, h2⟩
    · rintro (rfl | ⟨h1, h2⟩)
      · exact ⟨hj, Or.inl rfl⟩
      · exact ⟨h1, Or.inr h2⟩

theorem register_pivot_spec {A : Csr} (hA : A.WF) {pinv qinv : Array Int}
    (hM : Matching A pinv qinv) {i j : Nat} (hi : i < A.n) (hp : pinv.g i = -1)
    (hin : A.InRow i j) :
    Ok (register_pivot i j pinv qinv) (fun r => Matching A r.2.1 r.2.2 ∧
      r.2.2 = qinv.upd j (i : Int) ∧
      (∀ k, k < A.n → r.2.1.g k =
        if k = i then (j : Int) else if qinv.g j = k then -1 else pinv.g k) ∧
      pivCount A.m r.2.2 = pivCount A.m qinv + r.1 ∧
      (qinv.g j < 0 → r.1 = 1)) := by
  have hj : j < A.m := hA.inRow_lt hi hin
  have e1 := hM.psize
  have e2 := hM.qsize
  have e3 := hM.q_ge j hj
  have e4 := hM.q_lt j hj
  have hcnt := pivCount_upd e2 (i := i) hj
  -- the final arrays form a matching
  have key : ∀ P : Array Int, P.size = A.n → (∀ k, k < A.n → P.g k =
        if k = i then (j : Int) else if qinv.g j = k then -1 else pinv.g k) →
      Matching A P (qinv.upd j (i : Int)) := by
    intro P hPs hPg
    have ne : ∀ k, k < A.n → k ≠ i → 0 ≤ pinv.g k → qinv.g j ≠ k → (pinv.g k).toNat ≠ j := by
      intro k hk _ h0 hq e
      have := hM.qp k hk h0
      rw [e] at this; exact hq this
    refine ⟨hPs, by simpa using e2, ?_, ?_, ?_, ?_, ?_, ?_, ?_⟩
    · intro k hk
      have := hM.p_ge k hk
      rw [hPg k hk]; split
      · omega
      · split <;> omega
    · intro k hk
      have := hM.p_lt k hk
      rw [hPg k hk]; split
      · omega
      · split <;> omega
    · intro c hc
      have := hM.q_ge c hc
      by_cases hcj : c = j
      · rw [hcj, g_upd_eq _ _ _ (by omega)]; omega
      · rw [g_upd_ne _ _ _ _ hcj]; exact this
    · intro c hc
      have := hM.q_lt c hc
      by_cases hcj : c = j
      · rw [hcj, g_upd_eq _ _ _ (by omega)]; omega
      · rw [g_upd_ne _ _ _ _ hcj]; exact this
    · intro k hk
      rw [hPg k hk]
      by_cases h1 : k = i
      · rw [if_pos h1]
        intro _
        rw [Int.toNat_natCast, g_upd_eq _ _ _ (by omega), h1]
      · rw [if_neg h1]
        by_cases h2 : qinv.g j = k
        · rw [if_pos h2]; intro h; omega
        · rw [if_neg h2]
          intro h0
          rw [g_upd_ne _ _ _ _ (ne k hk h1 h0 h2)]
          exact hM.qp k hk h0
    · intro c hc
      by_cases hcj : c = j
      · rw [hcj, g_upd_eq _ _ _ (by omega)]
        intro _
        rw [Int.toNat_natCast, hPg i hi, if_pos rfl]
      · rw [g_upd_ne _ _ _ _ hcj]
        intro h0
        have h1 := hM.q_lt c hc
        have h2 := hM.pq c hc h0
        rw [hPg _ (by omega)]
        have h3 : (qinv.g c).toNat ≠ i := by
          intro e; rw [e] at h2; omega
        have h4 : ¬ qinv.g j = ((qinv.g c).toNat : Nat) := by
          intro e
          have h5 := hM.pq j hj (by omega)
          have : (qinv.g j).toNat = (qinv.g c).toNat := by omega
          rw [this, h2] at h5
          omega
        rw [if_neg h3, if_neg h4, h2]
    · intro k hk
      rw [hPg k hk]
      by_cases h1 : k = i
      · rw [if_pos h1]
        intro _
        rw [Int.toNat_natCast, h1]; exact hin
      · rw [if_neg h1]
        by_cases h2 : qinv.g j = k
        · rw [if_pos h2]; intro h; omega
        · rw [if_neg h2]
          exact hM.ent k hk
  unfold register_pivot
  simp only [Ok_bind, Ok_rd, Ok_cassert]
  refine ⟨by omega, by omega, by simp [hp], ?_⟩
  rw [hp]
  simp only [ne_eq, not_true_eq_false, if_false]
  by_cases hq : qinv.g j = -1
  · simp only [hq, not_true_eq_false, if_false, Ok_bind, Ok_ok, Ok_wr]
    have hP : ∀ k, k < A.n → (pinv.upd i (j : Int)).g k =
        if k = i then (j : Int) else if qinv.g j = k then -1 else pinv.g k := by
      intro k hk
      by_cases h1 : k = i
      · rw [h1, g_upd_eq _ _ _ (by omega), if_pos rfl]
      · rw [g_upd_ne _ _ _ _ h1, if_neg h1, if_neg (by omega)]
    refine ⟨by omega, by omega, key _ (by simpa using e1) hP, trivial, ?_, ?_, ?_⟩
    · intro k hk; rw [hP k hk, hq]
    · rw [hcnt, if_neg (by omega)]
    · intro _; trivial
  · simp only [hq, not_false_eq_true, if_true, Ok_bind, Ok_rdI, Ok_cassert, Ok_wrI, Ok_ok, Ok_wr]
    have h0 : 0 ≤ qinv.g j := by omega
    have h1 := hM.pq j hj h0
    have h2 : (qinv.g j).toNat ≠ i := by intro e; rw [e] at h1; omega
    have hP : ∀ k, k < A.n → ((pinv.upd (qinv.g j).toNat (-1)).upd i (j : Int)).g k =
        if k = i then (j : Int) else if qinv.g j = k then -1 else pinv.g k := by
      intro k hk
      by_cases h3 : k = i
      · rw [h3, g_upd_eq _ _ _ (by simp; omega), if_pos rfl]
      · rw [g_upd_ne _ _ _ _ h3, if_neg h3]
        by_cases h4 : qinv.g j = k
        · rw [if_pos h4]
          have : k = (qinv.g j).toNat := by omega
          rw [this, g_upd_eq _ _ _ (by omega)]
        · rw [if_neg h4, g_upd_ne _ _ _ _ (by omega)]
    refine ⟨h0, by omega, by simp [h1], by simp; omega, h0, by omega, by simp; omega, by omega,
      key _ (by simpa using e1) hP, trivial, hP, ?_, ?_⟩
    · rw [hcnt, if_pos h0]
    · intro h; omega

/-- The leftmost column of a row. -/
theorem leftmost_spec {A : Csr} (hA : A.WF) (hx : 0 < A.p.g A.n → A.x.isSome = true)
    (hz : A.NoZero) {i : Nat} (hi : i < A.n) :
    Ok (leftmost A i) (fun j => (j = A.m + 1 ∧ A.p.g i = A.p.g (i + 1)) ∨
      (A.InRow i j ∧ ∀ c, A.InRow i c → j ≤ c)) := by
  have h1 := hA.row_le hi
  have h2 := hA.p_size
  unfold leftmost
  simp only [Ok_bind, Ok_rd]
  refine ⟨by omega, by omega, ?_⟩
  refine Ok_forRange_imp (I := fun px (j : Nat) => (j = A.m + 1 ∧ px = A.p.g i) ∨
    ((∃ t, A.p.g i ≤ t ∧ t < px ∧ A.j.g t = j) ∧ ∀ t, A.p.g i ≤ t → t < px → j ≤ A.j.g t))
    h1.1 ?_ ?_ ?_
  · left; exact ⟨rfl, rfl⟩
  · intro px j a1 a2 hI
    have hk := hA.row_lt hi a2
    have hk' := hA.p_nnz
    have hjm := hA.j_lt px hk
    obtain ⟨a, ha⟩ := Option.isSome_iff_exists.mp (hx (by omega))
    have hxs := hA.x_size a ha
    have hv := hz px hk
    unfold Csr.val at hv
    rw [ha] at hv
    simp only [rdX, ha, Ok_bind, Ok_deref_some, Ok_rd, Ok_cassert, Ok_ok]
    refine ⟨by omega, by simpa using hv, by omega, ?_⟩
    right
    rcases hI with ⟨b1, b2⟩ | ⟨⟨t, b1, b2, b3⟩, b4⟩
    · rw [if_pos (by omega)]
      refine ⟨⟨px, a1, by omega, rfl⟩, ?_⟩
      intro t t1 t2
      have : t = px := by omega
      rw [this]
    · by_cases hc : A.j.g px < j
      · rw [if_pos hc]
        refine ⟨⟨px, a1, by omega, rfl⟩, ?_⟩
        intro s s1 s2
        by_cases he : s = px
        · rw [he]
        · have := b4 s s1 (by omega); omega
      · rw [if_neg hc]
        refine ⟨⟨t, b1, by omega, b3⟩, ?_⟩
        intro s s1 s2
        by_cases he : s = px
        · rw [he]; omega
        · exact b4 s s1 (by omega)
  · rintro j (⟨b1, b2⟩ | ⟨⟨t, b1, b2, b3⟩, b4⟩)
    · left; exact ⟨b1, b2.symm⟩
    · right
      refine ⟨⟨t, b1, b2, b3⟩, ?_⟩
      rintro c ⟨s, s1, s2, rfl⟩
      exact b4 s s1 s2

/-- A matrix with entries has a row with entries, and this row a leftmost one. -/
theorem Csr.WF.exists_leftmost {A : Csr} (hA : A.WF) (h0 : 0 < A.p.g A.n) :
    ∃ i, i < A.n ∧ ∃ j, A.InRow i j ∧ ∀ c, A.InRow i c → j ≤ c := by
  classical
  have hne : ∃ i, i < A.n ∧ A.p.g i < A.p.g (i + 1) := by
    by_contra hno
    push Not at hno
    have : ∀ k, k ≤ A.n → A.p.g k = 0 := by
      intro k
      induction k with
      | zero => exact fun _ => hA.p_zero
      | succ k ih =>
        intro hk
        have := ih (by omega)
        have := hno k (by omega)
        omega
    have := this A.n (le_refl _)
    omega
  obtain ⟨i, hi, hlt⟩ := hne
  have hex : ∃ j, A.InRow i j := ⟨_, A.p.g i, le_refl _, hlt, rfl⟩
  exact ⟨i, hi, Nat.find hex, Nat.find_spec hex, fun c hc => Nat.find_min' hex hc⟩

/-- `spasm_find_FL_pivots`, started without pivots. -/
theorem find_FL_pivots_spec {A : Csr} (hA : A.WF) (hx : 0 < A.p.g A.n → A.x.isSome = true)
    (hz : A.NoZero) {pinv qinv : Array Int} (hps : pinv.size = A.n) (hqs : qinv.size = A.m)
    (hp : ∀ i, i < A.n → pinv.g i = -1) (hq : ∀ j, j < A.m → qinv.g j = -1) :
    Ok (find_FL_pivots A pinv qinv) (fun r => PivotSet A r.2.1 r.2.2 ∧
      r.1 = pivCount A.m r.2.2 ∧
      (∀ i, i < A.n → 0 ≤ r.2.1.g i → ∀ c, A.InRow i c → r.2.1.g i ≤ c) ∧
    (∀ k, k < A.n → ∀ j, A.InRow k j → (∀ c, A.InRow k c → j ≤ c) → 0 ≤ r.2.2.g j ∧
      A.p.g ((r.2.2.g j).toNat + 1) - A.p.g (r.2.2.g j).toNat ≤ A.p.g (k + 1) - A.p.g k)) := by
  unfold find_FL_pivots
  refine Ok_forRange_imp (I := fun i (s : Nat × Array Int × Array Int) =>
    Matching A s.2.1 s.2.2 ∧ s.1 = pivCount A.m s.2.2 ∧
    (∀ k, i ≤ k → k < A.n → s.2.1.g k = -1) ∧
    (∀ k, k < A.n → 0 ≤ s.2.1.g k → ∀ c, A.InRow k c → s.2.1.g k ≤ c) ∧
    (∀ k, k < i → ∀ j, A.InRow k j → (∀ c, A.InRow k c → j ≤ c) → 0 ≤ s.2.2.g j ∧
      A.p.g ((s.2.2.g j).toNat + 1) - A.p.g (s.2.2.g j).toNat ≤ A.p.g (k + 1) - A.p.g k))
    (Nat.zero_le _) ?_ ?_ ?_
  · refine ⟨⟨hps, hqs, ?_, ?_, ?_, ?_, ?_, ?_, ?_⟩, ?_, ?_, ?_, fun k hk => by omega⟩
    · intro i hi; rw [hp i hi]
    · intro i hi; rw [hp i hi]; omega
    · intro j hj; rw [hq j hj]
    · intro j hj; rw [hq j hj]; omega
    · intro i hi h; rw [hp i hi] at h; omega
    · intro j hj h; rw [hq j hj] at h; omega
    · intro i hi h; simp only at h; rw [hp i hi] at h; omega
    · unfold pivCount
      rw [eq_comm, card_eq_zero, filter_eq_empty_iff]
      intro j hj
      rw [mem_range] at hj
      simp only; rw [hq j hj]; omega
    · intro k _ hk; exact hp k hk
    · intro k hk h; simp only at h; rw [hp k hk] at h; omega
  · rintro i ⟨npiv, pinv, qinv⟩ - hi ⟨hM, hc, hn, hl, hw⟩
    simp only at hM hc hn hl hw ⊢
    rw [Ok_bind]
    refine (leftmost_spec hA hx hz hi).mono ?_
    rintro j (⟨hj, he⟩ | ⟨hin, hmin⟩)
    · rw [if_pos hj]
      refine ⟨hM, hc, fun k h1 h2 => hn k (by omega) h2, hl, fun k hk j hkj hmj => ?_⟩
      by_cases hki : k = i
      · obtain ⟨t, t1, t2, -⟩ := hkj
        rw [hki] at t1 t2; omega
      · exact hw k (by omega) j hkj hmj
    · have hj := hA.inRow_lt hi hin
      rw [if_neg (by omega)]
      simp only [Ok_bind, Ok_rd]
      have e2 := hM.qsize
      refine ⟨by omega, ?_⟩
      have hps := hA.p_size
      have fin : ∀ b : Bool, (b = true → qinv.g j = -1 ∨ A.p.g (i + 1) - A.p.g i <
          A.p.g ((qinv.g j).toNat + 1) - A.p.g (qinv.g j).toNat) →
          (b = false → qinv.g j ≠ -1 ∧ ¬ A.p.g (i + 1) - A.p.g i <
          A.p.g ((qinv.g j).toNat + 1) - A.p.g (qinv.g j).toNat) → Ok (if b = true then do
            let r ← register_pivot i j pinv qinv
            .ok (npiv + r.1, r.2.1, r.2.2)
          else .ok (npiv, pinv, qinv) : C (Nat × Array Int × Array Int)) (fun s =>
          Matching A s.2.1 s.2.2 ∧ s.1 = pivCount A.m s.2.2 ∧
          (∀ k, i + 1 ≤ k → k < A.n → s.2.1.g k = -1) ∧
          (∀ k, k < A.n → 0 ≤ s.2.1.g k → ∀ c, A.InRow k c → s.2.1.g k ≤ c) ∧
          (∀ k, k < i + 1 → ∀ j, A.InRow k j → (∀ c, A.InRow k c → j ≤ c) → 0 ≤ s.2.2.g j ∧
      A.p.g ((s.2.2.g j).toNat + 1) - A.p.g (s.2.2.g j).toNat ≤ A.p.g (k + 1) - A.p.g k)) := by
        intro b hb1 hb0
        have same : ∀ j', A.InRow i j' → (∀ c, A.InRow i c → j' ≤ c) → j' = j :=
          fun j' h1 h2 => le_antisymm (h2 j hin) (hmin j' h1)
        cases b
        · obtain ⟨n1, n2⟩ := hb0 rfl
          have := hM.q_ge j hj
          refine ⟨hM, hc, fun k h1 h2 => hn k (by omega) h2, hl, fun k hk j' hkj hmj => ?_⟩
          by_cases hki : k = i
          · rw [hki] at hkj hmj ⊢
            rw [same j' hkj hmj]
            exact ⟨by simp only; omega, by simp only; omega⟩
          · exact hw k (by omega) j' hkj hmj
        · rw [if_pos rfl, Ok_bind]
          refine (register_pivot_spec hA hM hi (hn i (le_refl _) hi) hin).mono ?_
          have old := hb1 rfl
          rintro ⟨r, P, Q⟩ ⟨g1, g2, g3, g4, -⟩
          simp only at g1 g2 g3 g4
          simp only [Ok_ok]
          refine ⟨g1, by omega, ?_, ?_, ?_⟩
          · intro k h1 h2
            rw [g3 k h2, if_neg (by omega)]
            split
            · rfl
            · exact hn k (by omega) h2
          · intro k hk
            rw [g3 k hk]
            by_cases h1 : k = i
            · rw [if_pos h1, h1]
              intro _ c hcc
              have := hmin c hcc; omega
            · rw [if_neg h1]
              split
              · intro h; omega
              · exact hl k hk
          · intro k hk j' hkj hmj
            rw [g2]
            by_cases hjj : j' = j
            · rw [hjj, g_upd_eq _ _ _ (by omega), Int.toNat_natCast]
              refine ⟨by omega, ?_⟩
              by_cases hki : k = i
              · rw [hki]
              · have := hw k (by omega) j' hkj hmj
                rw [hjj] at this
                omega
            · rw [g_upd_ne _ _ _ _ hjj]
              by_cases hki : k = i
              · rw [hki] at hkj hmj
                exact absurd (same j' hkj hmj) hjj
              · exact hw k (by omega) j' hkj hmj
      by_cases hqj : qinv.g j = -1
      · rw [if_pos hqj, Ok_bind, Ok_ok]
        exact fin true (fun _ => Or.inl hqj) (fun h => by cases h)
      · rw [if_neg hqj]
        have h0 := hM.q_ge j hj
        have h1 := hM.q_lt j hj
        simp only [Ok_bind, Ok_idx, row_weight, Ok_rd, Ok_ok]
        refine ⟨by omega, by omega, by omega, by omega, by omega, ?_⟩
        have := fin (decide (A.p.g (i + 1) - A.p.g i <
          A.p.g ((qinv.g j).toNat + 1) - A.p.g (qinv.g j).toNat))
          (fun h => Or.inr (by simpa using h)) (fun h => ⟨hqj, by simpa using h⟩)
        simpa using this
  · rintro ⟨npiv, pinv, qinv⟩ ⟨hM, hc, -, hl, hw⟩
    simp only at hM hc hl hw ⊢
    refine ⟨⟨hM, ?_⟩, hc, hl, hw⟩
    refine PAcyclic.of_rank hA hM.qinvOk (fun c => c) ?_
    rintro a b ha ⟨h1, h2⟩ hne
    have h3 := hM.q_lt a ha
    have h4 := hM.pq a ha h1
    have := hl (qinv.g a).toNat (by omega) (by omega) b h2
    omega

/-- `obstruct` clears `w` on the columns of row `i`. -/
theorem obstruct_spec {A : Csr} (hA : A.WF) {i : Nat} (hi : i < A.n) {w : Array Int}
    (hw : w.size = A.m) :
    Ok (obstruct A i w) (fun w' => w'.size = A.m ∧
      (∀ c, c < A.m → (w'.g c ≠ 0 ↔ w.g c ≠ 0 ∧ ¬ A.InRow i c))) := by
  have h1 := hA.row_le hi
  have h2 := hA.p_size
  unfold obstruct
  simp only [Ok_bind, Ok_rd]
  refine ⟨by omega, by omega, ?_⟩
  refine Ok_forRange_imp (I := fun px (w' : Array Int) => w'.size = A.m ∧
    (∀ c, c < A.m → (w'.g c ≠ 0 ↔ w.g c ≠ 0 ∧ ∀ t, A.p.g i ≤ t → t < px → A.j.g t ≠ c)))
    h1.1 ?_ ?_ ?_
  · refine ⟨hw, fun c _ => ?_⟩
    constructor
    · intro h; exact ⟨h, fun t a b => by omega⟩
    · intro h; exact h.1
  · rintro px w' a1 a2 ⟨b1, b2⟩
    have hk := hA.row_lt hi a2
    have hk' := hA.p_nnz
    have hjm := hA.j_lt px hk
    simp only [Ok_bind, Ok_rd, Ok_wr]
    refine ⟨by omega, by omega, by simpa using b1, ?_⟩
    intro c hc
    by_cases hcj : c = A.j.g px
    · rw [hcj, g_upd_eq _ _ _ (by omega)]
      constructor
      · intro h; exact absurd rfl h
      · rintro ⟨-, h⟩; exact absurd rfl (h px a1 (by omega))
    · rw [g_upd_ne _ _ _ _ hcj, b2 c hc]
      constructor
      · rintro ⟨h, h'⟩
        refine ⟨h, fun t t1 t2 => ?_⟩
        by_cases he : t = px
        · rw [he]; exact fun e => hcj e.symm
        · exact h' t t1 (by omega)
      · rintro ⟨h, h'⟩
        exact ⟨h, fun t t1 t2 => h' t t1 (by omega)⟩
  · rintro w' ⟨b1, b2⟩
    refine ⟨b1, fun c hc => ?_⟩
    rw [b2 c hc]
    constructor
    · rintro ⟨h, h'⟩
      refine ⟨h, ?_⟩
      rintro ⟨t, t1, t2, t3⟩
      exact h' t t1 t2 t3
    · rintro ⟨h, h'⟩
      exact ⟨h, fun t t1 t2 t3 => h' ⟨t, t1, t2, t3⟩⟩

/-- A column that does not occur in pivotal rows can be made pivotal. -/
theorem PivotSet.free_column {A : Csr} {pinv qinv : Array Int}
    (hP : PivotSet A pinv qinv) {i j : Nat} (hj : j < A.m)
    (hfree : ∀ k, k < A.n → 0 ≤ pinv.g k → ¬ A.InRow k j) (hA : A.WF) (hi : i < A.n) :
    ∀ c, A.InRow i c → c ≠ j → ¬ ReflTransGen (PEdge A qinv) c j := by
  intro c hc hne hr
  have hlt : ∀ a b, a < A.m → ReflTransGen (PEdge A qinv) a b → b < A.m := by
    intro a b ha hab
    induction hab with
    | refl => exact ha
    | tail _ hE ih =>
      have h0 := hE.1
      have h1 := hP.q_lt _ ih
      exact hA.inRow_lt (by omega) hE.2
  rcases hr.cases_tail with h | ⟨b, h1, h2⟩
  · exact hne h.symm
  · have hb := hlt c b (hA.inRow_lt hi hc) h1
    have h0 := h2.1
    have h3 := hP.q_lt b hb
    have h4 := hP.pq b hb h0
    exact hfree (qinv.g b).toNat (by omega) (by omega) h2.2

/-- `spasm_find_FL_column_pivots`, from any set of pivots. -/
theorem find_FL_column_pivots_spec {A : Csr} (hA : A.WF) {pinv qinv : Array Int}
    (hP : PivotSet A pinv qinv) :
    Ok (find_FL_column_pivots A pinv qinv) (fun r => PivotSet A r.2.1 r.2.2 ∧
      pivCount A.m r.2.2 = pivCount A.m qinv + r.1 ∧
      (∀ i, i < A.n → 0 ≤ pinv.g i → r.2.1.g i = pinv.g i)) := by
  unfold find_FL_column_pivots
  have hps := hP.psize
  simp only [Ok_bind]
  -- obstructed columns
  refine Ok_forRange_imp (I := fun i (w : Array Int) => w.size = A.m ∧
    ∀ c, c < A.m → w.g c ≠ 0 → ∀ k, k < i → 0 ≤ pinv.g k → ¬ A.InRow k c) (Nat.zero_le _) ?_ ?_ ?_
  · exact ⟨by simp, fun c _ _ k hk => by omega⟩
  · rintro i w - hi ⟨h1, h2⟩
    rw [Ok_bind, Ok_rd]
    refine ⟨by omega, ?_⟩
    by_cases hp : pinv.g i < 0
    · rw [if_pos hp]
      refine ⟨h1, fun c hc hw k hk h0 => ?_⟩
      by_cases he : k = i
      · rw [he] at h0; omega
      · exact h2 c hc hw k (by omega) h0
    · rw [if_neg hp]
      refine (obstruct_spec hA hi h1).mono ?_
      rintro w' ⟨g1, g2⟩
      refine ⟨g1, fun c hc hw k hk h0 => ?_⟩
      obtain ⟨g3, g4⟩ := (g2 c hc).mp hw
      by_cases he : k = i
      · rw [he]; exact g4
      · exact h2 c hc g3 k (by omega) h0
  rintro w0 ⟨hw0, hw0'⟩
  -- search
  set J : FLc → Prop := fun s => PivotSet A s.pinv s.qinv ∧ s.w.size = A.m ∧
    (∀ c, c < A.m → s.w.g c ≠ 0 → ∀ k, k < A.n → 0 ≤ s.pinv.g k → ¬ A.InRow k c) ∧
    pivCount A.m s.qinv = pivCount A.m qinv + s.npiv ∧
    (∀ k, k < A.n → 0 ≤ pinv.g k → s.pinv.g k = pinv.g k) with hJ
  refine Ok_forRange_imp (I := fun _ (s : FLc) => J s) (Nat.zero_le _) ?_ ?_ ?_
  · exact ⟨hP, hw0, fun c hc hw k hk => hw0' c hc hw k hk, by simp, fun k _ _ => rfl⟩
  · rintro i s - hi hJs
    have hss := hJs.1.psize
    rw [Ok_bind, Ok_rd]
    refine ⟨by omega, ?_⟩
    by_cases hp : s.pinv.g i ≥ 0
    · rw [if_pos hp]; exact hJs
    · rw [if_neg hp]
      have h1 := hA.row_le hi
      have h2 := hA.p_size
      simp only [Ok_bind, Ok_rd]
      refine ⟨by omega, by omega, ?_⟩
      refine (Ok_forBrk (I := fun _ (s' : FLc) => J s' ∧ s'.pinv.g i < 0)
        (B := fun _ (s' : FLc) => J s') h1.1 ⟨hJs, by omega⟩ ?_).mono ?_
      · rintro px s' a1 a2 ⟨hJ', hn⟩
        obtain ⟨j1, j2, j3, j4, j5⟩ := hJ'
        have hk := hA.row_lt hi a2
        have hk' := hA.p_nnz
        have hjm := hA.j_lt px hk
        have hin : A.InRow i (A.j.g px) := ⟨px, a1, a2, rfl⟩
        have hqs := j1.qsize
        simp only [Ok_bind, Ok_rd]
        refine ⟨by omega, by omega, ?_⟩
        by_cases hw : s'.w.g (A.j.g px) = 0
        · rw [if_pos hw]; exact ⟨⟨j1, j2, j3, j4, j5⟩, hn⟩
        · rw [if_neg hw, Ok_bind, Ok_rd]
          refine ⟨by omega, ?_⟩
          by_cases hq : s'.qinv.g (A.j.g px) ≥ 0
          · rw [if_pos hq]; exact ⟨⟨j1, j2, j3, j4, j5⟩, hn⟩
          · rw [if_neg hq, Ok_bind]
            have hge := j1.p_ge i hi
            refine (register_pivot_spec hA j1.toMatching hi (by omega) hin).mono ?_
            rintro ⟨r, P, Q⟩ ⟨g1, g2, g3, g4, -⟩
            simp only at g1 g2 g3 g4
            rw [Ok_bind]
            refine (obstruct_spec hA hi j2).mono ?_
            rintro w' ⟨o1, o2⟩
            have hqge := j1.q_ge (A.j.g px) hjm
            have g3' : ∀ k, k < A.n → P.g k = if k = i then ((A.j.g px : Nat) : Int) else s'.pinv.g k := by
              intro k hk
              rw [g3 k hk, if_neg (by omega : ¬ s'.qinv.g (A.j.g px) = k)]
            simp only [Ok_ok]
            refine ⟨⟨g1, ?_⟩, o1, ?_, by simp only; omega, ?_⟩
            · simp only; rw [g2]
              exact j1.acyclic.insert (by omega)
                (j1.free_column hjm (j3 _ hjm hw) hA hi)
            · intro c hc hcw k hk h0
              obtain ⟨o3, o4⟩ := (o2 c hc).mp hcw
              simp only at h0
              rw [g3' k hk] at h0
              by_cases he : k = i
              · rw [he]; exact o4
              · rw [if_neg he] at h0
                exact j3 c hc o3 k hk h0
            · intro k hk h0
              simp only
              rw [g3' k hk]
              have := j5 k hk h0
              by_cases he : k = i
              · exfalso; rw [he] at this h0; omega
              · rw [if_neg he]; exact this
      · rintro ⟨t, s'⟩ (⟨-, -, h⟩ | ⟨-, h⟩)
        · exact h
        · exact h.1
  · rintro s ⟨j1, -, -, j4, j5⟩
    exact ⟨j1, j4, j5⟩

end Spasm
