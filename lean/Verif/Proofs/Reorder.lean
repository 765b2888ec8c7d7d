import Verif.Proofs.Pivots

/-
`spasm_pivots_reorder` puts the pivotal rows first, in topological order.
-/

namespace Spasm

open Finset Relation

theorem lt_of_inj_missing {f : Nat → Nat} {k n i : Nat} (hi : i < n)
    (hlt : ∀ a, a < k → f a < n ∧ f a ≠ i)
    (hinj : ∀ a b, a < k → b < k → f a = f b → a = b) : k < n := by
  have := Finset.card_le_card_of_injOn (s := range k) (t := (range n).erase i) f ?_ ?_
  · rw [card_erase_of_mem (mem_range.mpr hi), card_range, card_range] at this; omega
  · intro a ha
    rw [mem_coe, mem_range] at ha
    rw [mem_coe, mem_erase, mem_range]
    exact ⟨(hlt a ha).2, (hlt a ha).1⟩
  · intro a ha b hb hf
    rw [mem_coe, mem_range] at ha hb
    exact hinj a b ha hb hf

/-- As many pivotal rows as pivotal columns. -/
theorem Matching.card_rows {A : Csr} {pinv qinv : Array Int} (hM : Matching A pinv qinv) :
    ((range A.n).filter fun i => 0 ≤ pinv.g i).card = pivCount A.m qinv := by
  unfold pivCount
  apply Finset.card_bij (fun i _ => (pinv.g i).toNat)
  · intro i hi
    rw [mem_filter, mem_range] at hi ⊢
    have h1 := hM.p_lt i hi.1
    have h2 := hM.qp i hi.1 hi.2
    exact ⟨by omega, by omega⟩
  · intro i hi k hk h
    rw [mem_filter, mem_range] at hi hk
    have h1 := hM.qp i hi.1 hi.2
    have h2 := hM.qp k hk.1 hk.2
    rw [h] at h1; omega
  · intro j hj
    rw [mem_filter, mem_range] at hj
    have h1 := hM.q_lt j hj.1
    have h2 := hM.pq j hj.1 hj.2
    refine ⟨(qinv.g j).toNat, ?_, by omega⟩
    rw [mem_filter, mem_range]
    exact ⟨by omega, by omega⟩

theorem Matching.nonpiv_card {A : Csr} {pinv qinv : Array Int} (hM : Matching A pinv qinv) :
    pivCount A.m qinv + ((range A.n).filter fun i => pinv.g i = -1).card = A.n := by
  rw [← hM.card_rows]
  have h := Finset.card_filter_add_card_filter_not (s := range A.n) (p := fun i => 0 ≤ pinv.g i)
  rw [card_range] at h
  have : ((range A.n).filter fun i => pinv.g i = -1) = (range A.n).filter fun i => ¬ 0 ≤ pinv.g i := by
    apply filter_congr
    intro i hi
    have := hM.p_ge i (mem_range.mp hi)
    omega
  rw [this]; exact h

/-- `spasm_pivots_reorder`. -/
theorem pivots_reorder_spec (jk : Junk) {A : Csr} (hA : A.WF) {pinv qinv : Array Int}
    (hP : PivotSet A pinv qinv) {npiv : Nat} (hnp : npiv = pivCount A.m qinv) {p : Array Nat}
    (hps : p.size = A.n) :
    Ok (pivots_reorder jk A pinv qinv npiv p) (fun p' => PivotOrder A pinv npiv p') := by
  have hM := hP.toMatching
  have e1 := hP.psize
  have e2 := hP.qsize
  unfold pivots_reorder
  simp only [Ok_bind]
  -- topological sort
  refine Ok_forRange_imp (I := fun j (s : Dfs) => RInv A qinv (fun _ => True) s ∧
    ∀ c, c < j → 0 ≤ qinv.g c → s.marks.g c ≠ 0) (Nat.zero_le _) ?_ ?_ ?_
  · refine ⟨⟨by simp, by simp, by simp, le_refl _, ?_, ?_, ?_, ?_, ?_, ?_⟩, ?_⟩
    · intro t h1 h2; simp only at h1; omega
    · intro t u h1 h2; simp only at h1; omega
    · intro j hj
      simp only
      rw [g_mkArr _ _ _ hj]
      constructor
      · intro h; exact absurd rfl h
      · rintro ⟨t, h1, h2, -⟩; omega
    · intro t h1 h2; simp only at h1; omega
    · intro _ t h1 h2; simp only at h1; omega
    · intro t h1 h2; trivial
    · intro c hc; omega
  · rintro j s - hj ⟨hI, hm⟩
    rw [Ok_bind, Ok_rd]
    refine ⟨by omega, ?_⟩
    have hge := hP.q_ge j hj
    by_cases hq : qinv.g j = -1
    · rw [if_pos hq]
      refine ⟨hI, fun c hc h0 => ?_⟩
      by_cases he : c = j
      · rw [he] at h0; omega
      · exact hm c (by omega) h0
    · rw [if_neg hq]
      have hms := hI.ms
      rw [Ok_bind, Ok_rd]
      refine ⟨by omega, ?_⟩
      by_cases hmj : s.marks.g j = 0
      · rw [if_pos hmj]
        refine (dfs_spec hA hM.qinvOk (fun _ _ _ _ => trivial) hI hj trivial hmj).mono ?_
        rintro s' ⟨d1, d2, d3, d4, d5, d6, d7⟩
        refine ⟨d1, fun c hc h0 => ?_⟩
        by_cases he : c = j
        · rw [he]; exact d7
        · obtain ⟨u, u1, u2, u3⟩ := (hI.marks c (by omega)).mp (hm c (by omega) h0)
          exact (d1.marks c (by omega)).mpr ⟨u, by omega, u2, by rw [d6 u u1 u2]; exact u3⟩
      · rw [if_neg hmj]
        refine ⟨hI, fun c hc h0 => ?_⟩
        by_cases he : c = j
        · rw [he]; exact hmj
        · exact hm c (by omega) h0
  rintro s ⟨hI, hm⟩
  have hxs := hI.xs
  -- pivotal rows
  refine Ok_forRange_imp (I := fun px (t : Nat × Array Nat) => t.2.size = A.n ∧
    ∃ τ : Nat → Nat, (∀ a, a < t.1 → s.top ≤ τ a ∧ τ a < px ∧ 0 ≤ qinv.g (s.xj.g (τ a)) ∧
        t.2.g a = (qinv.g (s.xj.g (τ a))).toNat) ∧
      (∀ a b, a < b → b < t.1 → τ a < τ b) ∧
      (∀ u, s.top ≤ u → u < px → 0 ≤ qinv.g (s.xj.g u) → ∃ a, a < t.1 ∧ τ a = u)) hI.top_le ?_ ?_ ?_
  · refine ⟨hps, fun _ => 0, ?_, ?_, ?_⟩
    · intro a ha; simp only at ha; omega
    · intro a b _ hb; simp only at hb; omega
    · intro u h1 h2; omega
  · rintro px ⟨k, P⟩ h1 h2 ⟨hPs, τ, t1, t2, t3⟩
    simp only at hPs t1 t2 t3
    have hjm := hI.lt px h1 h2
    have hge := hP.q_ge _ hjm
    have hlt := hP.q_lt _ hjm
    simp only [Ok_bind, Ok_rd]
    refine ⟨by omega, by omega, ?_⟩
    by_cases hq : qinv.g (s.xj.g px) = -1
    · rw [if_neg (by simpa using hq)]
      refine ⟨hPs, τ, ?_, t2, ?_⟩
      · intro a ha
        obtain ⟨a1, a2, a3⟩ := t1 a ha
        exact ⟨a1, by omega, a3⟩
      · intro u u1 u2 u3
        by_cases he : u = px
        · rw [he] at u3; omega
        · exact t3 u u1 (by omega) u3
    · rw [if_pos hq]
      have h0 : 0 ≤ qinv.g (s.xj.g px) := by omega
      have hpj := hP.pq _ hjm h0
      -- room for the new row
      have hinj : ∀ a b, a < k → b < k → P.g a = P.g b → a = b := by
        have key : ∀ a b, a < b → b < k → P.g a ≠ P.g b := by
          intro a b hab hb heq
          obtain ⟨a1, a2, a3, a4⟩ := t1 a (by omega)
          obtain ⟨b1, b2, b3, b4⟩ := t1 b hb
          have c1 := hP.pq _ (hI.lt _ a1 (by omega)) a3
          have c2 := hP.pq _ (hI.lt _ b1 (by omega)) b3
          rw [← a4, heq, b4, c2] at c1
          have := hI.inj _ _ a1 (by omega) b1 (by omega) (by omega : s.xj.g (τ a) = s.xj.g (τ b))
          have := t2 a b hab hb
          omega
        intro a b ha hb heq
        rcases Nat.lt_trichotomy a b with h | h | h
        · exact absurd heq (key a b h hb)
        · exact h
        · exact absurd heq.symm (key b a h ha)
      have hk : k < A.n := by
        refine lt_of_inj_missing (f := P.g) (i := (qinv.g (s.xj.g px)).toNat) (by omega) ?_ hinj
        intro a ha
        obtain ⟨a1, a2, a3, a4⟩ := t1 a ha
        have c1 := hP.pq _ (hI.lt _ a1 (by omega)) a3
        have c2 := hP.q_lt _ (hI.lt _ a1 (by omega))
        refine ⟨by rw [a4]; omega, ?_⟩
        rw [a4]
        intro e
        rw [e, hpj] at c1
        have := hI.inj _ _ a1 (by omega) h1 h2 (by omega : s.xj.g (τ a) = s.xj.g px)
        omega
      simp only [Ok_bind, Ok_idx, Ok_rd, Ok_cassert, Ok_wr, Ok_ok]
      refine ⟨h0, by omega, by simp [hpj], by omega, by simpa using hPs,
        fun a => if a = k then px else τ a, ?_, ?_, ?_⟩
      · intro a ha
        beta_reduce
        by_cases he : a = k
        · rw [if_pos he, he, g_upd_eq _ _ _ (by omega)]
          exact ⟨h1, by omega, h0, rfl⟩
        · rw [if_neg he, g_upd_ne _ _ _ _ he]
          obtain ⟨a1, a2, a3, a4⟩ := t1 a (by omega)
          exact ⟨a1, by omega, a3, a4⟩
      · intro a b hab hb
        beta_reduce
        by_cases he : b = k
        · rw [if_pos he, if_neg (by omega)]
          have := (t1 a (by omega)).2.1
          omega
        · rw [if_neg he, if_neg (by omega)]
          exact t2 a b hab (by omega)
      · intro u u1 u2 u3
        by_cases he : u = px
        · exact ⟨k, by omega, by beta_reduce; rw [if_pos rfl, he]⟩
        · obtain ⟨a, a1, a2⟩ := t3 u u1 (by omega) u3
          exact ⟨a, by omega, by beta_reduce; rw [if_neg (by omega)]; exact a2⟩
  rintro ⟨k, P⟩ ⟨hPs, τ, t1, t2, t3⟩
  simp only at hPs t1 t2 t3
  simp only [Ok_cassert]
  -- number of pivotal rows
  have hk : k = npiv := by
    rw [hnp]
    unfold pivCount
    rw [← card_range k]
    apply Finset.card_bij (fun a _ => s.xj.g (τ a))
    · intro a ha
      rw [mem_range] at ha
      obtain ⟨a1, a2, a3, a4⟩ := t1 a ha
      rw [mem_filter, mem_range]
      exact ⟨hI.lt _ a1 a2, a3⟩
    · intro a ha b hb heq
      rw [mem_range] at ha hb
      obtain ⟨a1, a2, -⟩ := t1 a ha
      obtain ⟨b1, b2, -⟩ := t1 b hb
      have := hI.inj _ _ a1 a2 b1 b2 heq
      rcases Nat.lt_trichotomy a b with h | h | h
      · have := t2 a b h hb; omega
      · exact h
      · have := t2 b a h ha; omega
    · intro j hj
      rw [mem_filter, mem_range] at hj
      obtain ⟨u, u1, u2, u3⟩ := (hI.marks j hj.1).mp (hm j hj.1 hj.2)
      obtain ⟨a, a1, a2⟩ := t3 u u1 u2 (by rw [u3]; exact hj.2)
      exact ⟨a, mem_range.mpr a1, by rw [a2, u3]⟩
  refine ⟨by simpa using hk, ?_⟩
  subst hk
  have hcol : ∀ a, a < k → P.g a < A.n ∧ pinv.g (P.g a) = (s.xj.g (τ a) : Int) := by
    intro a ha
    obtain ⟨a1, a2, a3, a4⟩ := t1 a ha
    have c1 := hP.pq _ (hI.lt _ a1 a2) a3
    have c2 := hP.q_lt _ (hI.lt _ a1 a2)
    rw [a4]
    exact ⟨by omega, c1⟩
  have hτinj : ∀ a b, a < k → b < k → s.xj.g (τ a) = s.xj.g (τ b) → a = b := by
    intro a b ha hb heq
    obtain ⟨a1, a2, -⟩ := t1 a ha
    obtain ⟨b1, b2, -⟩ := t1 b hb
    have := hI.inj _ _ a1 a2 b1 b2 heq
    rcases Nat.lt_trichotomy a b with h | h | h
    · have := t2 a b h hb; omega
    · exact h
    · have := t2 b a h ha; omega
  -- other rows
  have hcount : ∀ i, i < A.n → pinv.g i = -1 → True := fun _ _ _ => trivial
  refine Ok_forRange_imp (I := fun i (t : Nat × Array Nat) => t.2.size = A.n ∧ k ≤ t.1 ∧
    t.1 = k + ((range i).filter fun c => pinv.g c = -1).card ∧
    (∀ a, a < k → t.2.g a = P.g a) ∧
    (∀ a, k ≤ a → a < t.1 → t.2.g a < i ∧ pinv.g (t.2.g a) = -1) ∧
    (∀ a b, k ≤ a → a < b → b < t.1 → t.2.g a < t.2.g b)) (Nat.zero_le _) ?_ ?_ ?_
  · refine ⟨hPs, le_refl _, by simp, fun a _ => rfl, ?_, ?_⟩
    · intro a h1 h2; simp only at h2; omega
    · intro a b h1 h2 h3; simp only at h3; omega
  · rintro i ⟨l, R⟩ - hi ⟨hRs, hkl, hl, r1, r2, r3⟩
    simp only at hRs hkl hl r1 r2 r3
    rw [Ok_bind, Ok_rd]
    refine ⟨by omega, ?_⟩
    have hcs := card_filter_succ (fun c => pinv.g c = -1) i
    by_cases hp : pinv.g i = -1
    · rw [if_pos hp]
      simp only [Ok_bind, Ok_wr, Ok_ok]
      have hll : l < A.n := by
        have hc := hM.nonpiv_card
        have : ((range (i + 1)).filter fun c => pinv.g c = -1).card ≤
            ((range A.n).filter fun c => pinv.g c = -1).card :=
          card_le_card (filter_subset_filter _ (range_subset_range.mpr (by omega)))
        rw [if_pos hp] at hcs
        omega
      rw [if_pos hp] at hcs
      refine ⟨by omega, by simpa using hRs, by omega, by omega, ?_, ?_, ?_⟩
      · intro a ha; rw [g_upd_ne _ _ _ _ (by omega)]; exact r1 a ha
      · intro a h1 h2
        by_cases he : a = l
        · rw [he, g_upd_eq _ _ _ (by omega)]; exact ⟨by omega, hp⟩
        · rw [g_upd_ne _ _ _ _ he]
          have := r2 a h1 (by omega)
          exact ⟨by omega, this.2⟩
      · intro a b h1 h2 h3
        by_cases he : b = l
        · rw [he, g_upd_eq _ _ _ (by omega), g_upd_ne _ _ _ _ (by omega)]
          exact (r2 a h1 (by omega)).1
        · rw [g_upd_ne _ _ _ _ he, g_upd_ne _ _ _ _ (by omega)]
          exact r3 a b h1 h2 (by omega)
    · rw [if_neg hp]
      rw [if_neg hp] at hcs
      refine ⟨hRs, hkl, by simp only; omega, r1, ?_, r3⟩
      intro a h1 h2
      have := r2 a h1 h2
      simp only at this ⊢
      exact ⟨by omega, this.2⟩
  rintro ⟨l, R⟩ ⟨hRs, hkl, hl, r1, r2, r3⟩
  simp only at hRs hkl hl r1 r2 r3
  have hc := hM.nonpiv_card
  have hln : l = A.n := by omega
  simp only [Ok_cassert, Ok_ok]
  refine ⟨by simpa using hln, hRs, ⟨?_, ?_⟩, by omega, ?_, ?_, ?_⟩
  · intro a ha
    by_cases h : a < k
    · rw [r1 a h]; exact (hcol a h).1
    · exact (r2 a (by omega) (by omega)).1
  · intro a b ha hb heq
    by_cases h : a < k <;> by_cases h' : b < k
    · rw [r1 a h, r1 b h'] at heq
      have c1 := (hcol a h).2
      rw [heq, (hcol b h').2] at c1
      exact hτinj a b h h' (by omega)
    · rw [r1 a h] at heq
      have c1 := (hcol a h).2
      rw [heq, (r2 b (by omega) (by omega)).2] at c1
      omega
    · rw [r1 b h'] at heq
      have c1 := (hcol b h').2
      rw [← heq, (r2 a (by omega) (by omega)).2] at c1
      omega
    · rcases Nat.lt_trichotomy a b with hh | hh | hh
      · have := r3 a b (by omega) hh (by omega); omega
      · exact hh
      · have := r3 b a (by omega) hh (by omega); omega
  · intro a ha
    rw [r1 a ha, (hcol a ha).2]; omega
  · intro a h1 h2
    exact (r2 a h1 (by omega)).2
  · intro a b hab hb hin
    rw [r1 b hb, r1 a (by omega), (hcol a (by omega)).2, Int.toNat_natCast] at hin
    obtain ⟨a1, a2, a3, a4⟩ := t1 a (by omega)
    obtain ⟨b1, b2, b3, b4⟩ := t1 b hb
    rw [b4] at hin
    have hne : s.xj.g (τ a) ≠ s.xj.g (τ b) := fun e => by
      have := hτinj a b (by omega) hb e; omega
    obtain ⟨u, u1, u2, u3⟩ := hI.topo hP.acyclic (τ b) b1 b2 _ ⟨b3, hin⟩ hne
    have := hI.inj u (τ a) (by omega) u2 a1 a2 u3
    have := t2 a b hab hb
    omega

end Spasm
