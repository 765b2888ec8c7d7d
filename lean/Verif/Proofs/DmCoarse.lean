import Verif.Proofs.DmCollect
import Verif.Proofs.Transpose
import Verif.Proofs.CsrRows

namespace Spasm

open Finset

/-- `At` has the pattern of the transpose of `A`. -/
structure IsTr (A At : Csr) : Prop where
  wf : At.WF
  n : At.n = A.m
  m : At.m = A.n
  inRow : ∀ i j, i < A.n → j < A.m → (At.InRow j i ↔ A.InRow i j)

theorem transpose_isTr (jk : Junk) {A : Csr} (hA : A.WF) (keep : Bool) :
    Ok (transpose jk A keep) (IsTr A) := by
  refine (transpose_spec jk hA keep).mono ?_
  rintro T ⟨h1, h2, h3, h4, -⟩
  refine ⟨h1, h2, h3, ?_⟩
  intro i j hi hj
  rw [Csr.inRow_iff, Csr.inRow_iff, h4 j hj]
  constructor
  · rintro ⟨e, he, rfl⟩
    obtain ⟨i', hi', he'⟩ := List.mem_flatMap.mp he
    obtain ⟨e', he1, he2⟩ := List.mem_map.mp he'
    rw [List.mem_filter] at he1
    rw [← he2]
    exact ⟨e', he1.1, by simpa using he1.2⟩
  · rintro ⟨e, he, rfl⟩
    refine ⟨(i, if keep then e.2 else 1), List.mem_flatMap.mpr ⟨i, List.mem_range.mpr hi, ?_⟩, rfl⟩
    exact List.mem_map.mpr ⟨e, List.mem_filter.mpr ⟨he, by simp⟩, rfl⟩

theorem Matching.tr {A At : Csr} (hT : IsTr A At) {p qinv : Array Int} (h : Matching A p qinv) :
    Matching At qinv p := by
  refine ⟨by rw [hT.n]; exact h.qsize, by rw [hT.m]; exact h.psize, ?_, ?_, ?_, ?_, ?_, ?_, ?_⟩
  · intro j hj; exact h.q_ge j (by rw [← hT.n]; exact hj)
  · intro j hj; rw [hT.m]; exact h.q_lt j (by rw [← hT.n]; exact hj)
  · intro i hi; exact h.p_ge i (by rw [← hT.m]; exact hi)
  · intro i hi; rw [hT.n]; exact h.p_lt i (by rw [← hT.m]; exact hi)
  · intro j hj h0; exact h.pq j (by rw [← hT.n]; exact hj) h0
  · intro i hi h0; exact h.qp i (by rw [← hT.m]; exact hi) h0
  · intro j hj h0
    rw [hT.n] at hj
    have h1 := h.q_lt j hj
    have h2 := h.pq j hj h0
    rw [hT.inRow _ _ (by omega) hj]
    have := h.ent (qinv.g j).toNat (by omega) (by omega)
    rw [h2, Int.toNat_natCast] at this
    exact this

theorem Matching.untr {A At : Csr} (hT : IsTr A At) {p qinv : Array Int} (h : Matching At qinv p) :
    Matching A p qinv := by
  have hn := hT.n
  have hm := hT.m
  refine ⟨by rw [h.qsize]; exact hm, by rw [h.psize]; exact hn, ?_, ?_, ?_, ?_, ?_, ?_, ?_⟩
  · intro i hi; exact h.q_ge i (by omega)
  · intro i hi; have := h.q_lt i (by omega); omega
  · intro j hj; exact h.p_ge j (by omega)
  · intro j hj; have := h.p_lt j (by omega); omega
  · intro i hi h0; exact h.pq i (by omega) h0
  · intro j hj h0; exact h.qp j (by omega) h0
  · intro i hi h0
    have h1 := h.q_lt i (by omega)
    have h2 := h.pq i (by omega) h0
    rw [← hT.inRow _ _ hi (by omega)]
    have := h.ent (p.g i).toNat (by omega) (by omega)
    rw [h2, Int.toNat_natCast] at this
    exact this

/-- A closed set of rows gives a closed set of columns. -/
theorem MClosed.tr {A At : Csr} (hT : IsTr A At) {p qinv : Array Int}
    (h : Matching A p qinv) {W : Nat → Prop} (hW : MClosed A qinv W)
    (hun : ∀ i, i < A.n → p.g i < 0 → W i) :
    MClosed At p (fun j => j < A.m ∧ (qinv.g j < 0 ∨ ¬ W (qinv.g j).toNat)) ∧
    ∀ j, j < At.n → qinv.g j < 0 → j < A.m ∧ (qinv.g j < 0 ∨ ¬ W (qinv.g j).toNat) := by
  constructor
  · rintro j ⟨hj, hj'⟩
    refine ⟨by rw [hT.n]; exact hj, fun i hi => ?_⟩
    have hin : i < A.n := by rw [← hT.m]; exact hT.wf.inRow_lt (by rw [hT.n]; exact hj) hi
    rw [hT.inRow i j hin hj] at hi
    have hiW : ¬ W i := by
      intro hw
      obtain ⟨h1, h2⟩ := (hW i hw).2 j hi
      rcases hj' with h3 | h3
      · omega
      · exact h3 h2
    have h0 : 0 ≤ p.g i := by
      by_contra hn
      exact hiW (hun i hin (by omega))
    have h1 := h.p_lt i hin
    refine ⟨h0, by omega, Or.inr ?_⟩
    rw [h.qp i hin h0, Int.toNat_natCast]
    exact hiW
  · intro j hj hn
    exact ⟨by rw [← hT.n]; exact hj, Or.inl hn⟩

/-- The same, in the other direction. -/
theorem MClosed.untr {A At : Csr} (hA : A.WF) (hT : IsTr A At) {p qinv : Array Int}
    (h : Matching A p qinv) {W : Nat → Prop} (hW : MClosed At p W)
    (hun : ∀ j, j < At.n → qinv.g j < 0 → W j) :
    MClosed A qinv (fun i => i < A.n ∧ (p.g i < 0 ∨ ¬ W (p.g i).toNat)) ∧
    ∀ i, i < A.n → p.g i < 0 → i < A.n ∧ (p.g i < 0 ∨ ¬ W (p.g i).toNat) := by
  constructor
  · rintro i ⟨hi, hi'⟩
    refine ⟨hi, fun j hij => ?_⟩
    have hjm := hA.inRow_lt hi hij
    have hjW : ¬ W j := by
      intro hw
      obtain ⟨h1, h2⟩ := (hW j hw).2 i ((hT.inRow i j hi hjm).2 hij)
      rcases hi' with h3 | h3
      · omega
      · exact h3 h2
    have h0 : 0 ≤ qinv.g j := by
      by_contra hn
      exact hjW (hun j (by rw [hT.n]; exact hjm) (by omega))
    have h1 := h.q_lt j hjm
    refine ⟨h0, by omega, Or.inr ?_⟩
    rw [h.pq j hjm h0, Int.toNat_natCast]
    exact hjW
  · intro i hi hn
    exact ⟨hi, Or.inl hn⟩

theorem dm_matching_spec (jk : Junk) {A At : Csr} (hA : A.WF) (hT : IsTr A At) :
    Ok (dm_matching jk A At) (fun r => Matching A r.1 r.2 ∧
      ∃ W, MClosed A r.2 W ∧ ∀ i, i < A.n → r.1.g i < 0 → W i) := by
  unfold dm_matching
  by_cases hc : A.n < A.m
  · rw [if_pos hc, Ok_bind]
    refine (maximum_matching_closed jk hA (by simp) (by simp)).mono ?_
    rintro ⟨k, jm, im⟩ ⟨h1, -, h2⟩
    exact ⟨h1, h2⟩
  · rw [if_neg hc, Ok_bind]
    refine (maximum_matching_closed jk hT.wf (by simp [hT.n]) (by simp [hT.m])).mono ?_
    rintro ⟨k, im, jm⟩ ⟨h1, -, W, h2, h3⟩
    simp only at h1 h2 h3 ⊢
    have hM := h1.untr hT
    exact ⟨hM, _, MClosed.untr hA hT hM h2 h3⟩

/-- The coarse decomposition, for a given matching. -/
structure DmC (A At : Csr) (imatch jmatch : Array Int) (D : Dm) (c1 k1 k2 k3 : Nat) : Prop where
  p_size : D.p.size = A.n
  q_size : D.q.size = A.m
  perm_p : IsPerm D.p.g A.n
  perm_q : IsPerm D.q.g A.m
  rr : D.rr = #[0, (k1 : Int), (k2 : Int), (k3 : Int), (A.n : Int)]
  cc : D.cc = #[0, (c1 : Int), (c1 + k1 : Int), (c1 + k2 : Int), (A.m : Int)]
  le1 : k1 ≤ k2
  le2 : k2 ≤ k3
  le3 : k3 ≤ A.n
  c_k3 : c1 + k3 = A.m
  pq : ∀ t, t < k3 → (D.p.g t : Int) = imatch.g (D.q.g (c1 + t))
  un : ∀ t, k3 ≤ t → t < A.n → jmatch.g (D.p.g t) < 0
  unc : ∀ t, t < c1 → imatch.g (D.q.g t) < 0
  rch : ∀ t, t < A.n → (k2 ≤ t ↔ DmReach A imatch jmatch (D.p.g t))
  tch : ∀ t, t < A.m → (t < c1 + k1 ↔ DmReach At jmatch imatch (D.q.g t))

/-- The marks after both searches. -/
structure DmMarks (A At : Csr) (imatch jmatch wi wj : Array Int) : Prop where
  wi_size : wi.size = A.n + 6
  wj_size : wj.size = A.m + 6
  row0 : ∀ i, i < A.n → (wi.g i = 0 ↔ jmatch.g i < 0)
  col0 : ∀ j, j < A.m → (wj.g j = 0 ↔ imatch.g j < 0)
  col : ∀ j, j < A.m → 0 ≤ imatch.g j → wj.g j = 1 ∨ wj.g j = -1 ∨ wj.g j = 3
  c3 : ∀ j, j < A.m → 0 ≤ imatch.g j → (wj.g j = 3 ↔ DmReach A imatch jmatch (imatch.g j).toNat)
  c1 : ∀ j, j < A.m → 0 ≤ imatch.g j → (wj.g j = 1 ↔ DmReach At jmatch imatch j)

theorem DmMarks.of_bfs {A At : Csr} (hT : IsTr A At) {imatch jmatch : Array Int}
    (hM : Matching A jmatch imatch) {W : Nat → Prop} (hW : MClosed A imatch W)
    (hun : ∀ i, i < A.n → jmatch.g i < 0 → W i) {wi0 wj0 : Array Int} (hwi : wi0.size = A.n + 6)
    (hwj : wj0.size = A.m + 6) (hwi0 : ∀ i, i < A.n → wi0.g i = -1)
    (hwj0 : ∀ j, j < A.m → wj0.g j = -1) {s t : Bfs}
    (hs : BfsRes A imatch jmatch wi0 wj0 3 s) (ht : BfsRes At jmatch imatch s.wj s.wi 1 t) :
    DmMarks A At imatch jmatch t.wj t.wi := by
  obtain ⟨hW', hun'⟩ := hW.tr hT hM hun
  have hn := hT.n
  have hm := hT.m
  have hRT : ∀ j, j < A.m → 0 ≤ imatch.g j → DmReach A imatch jmatch (imatch.g j).toNat →
      ¬ DmReach At jmatch imatch j := by
    intro j hj h0 h1 h2
    rcases (h2.closed hW' hun').2 with h3 | h3
    · omega
    · exact h3 (h1.closed hW hun)
  have hjm : ∀ i, i < A.n → 0 ≤ jmatch.g i → (jmatch.g i).toNat < A.m ∧
      imatch.g (jmatch.g i).toNat = (i : Int) := by
    intro i hi h0
    have := hM.p_lt i hi
    exact ⟨by omega, hM.qp i hi h0⟩
  -- marks of the columns
  have hcol : ∀ j, j < A.m → 0 ≤ imatch.g j →
      (DmReach A imatch jmatch (imatch.g j).toNat ∧ ¬ DmReach At jmatch imatch j ∧ t.wi.g j = 3) ∨
      (DmReach At jmatch imatch j ∧ ¬ DmReach A imatch jmatch (imatch.g j).toNat ∧ t.wi.g j = 1) ∨
      (¬ DmReach A imatch jmatch (imatch.g j).toNat ∧ ¬ DmReach At jmatch imatch j ∧
        t.wi.g j = -1) := by
    intro j hj h0
    by_cases hR : DmReach A imatch jmatch (imatch.g j).toNat
    · left
      have hnT := hRT j hj h0 hR
      refine ⟨hR, hnT, ?_⟩
      rw [ht.wi_out j (by omega) hnT]
      exact hs.wj_in j hj h0 hR
    · right
      by_cases hT' : DmReach At jmatch imatch j
      · left
        exact ⟨hT', hR, ht.wi_in j (by omega) h0 hT'⟩
      · right
        refine ⟨hR, hT', ?_⟩
        rw [ht.wi_out j (by omega) hT', hs.wj_out j hj (fun h => hR h.2)]
        exact hwj0 j hj
  refine ⟨by rw [ht.wj_size, hs.wi_size]; exact hwi, by rw [ht.wi_size, hs.wj_size]; exact hwj,
    ?_, ?_, ?_, ?_, ?_⟩
  · intro i hi
    constructor
    · intro h
      by_contra hn'
      obtain ⟨h1, h2⟩ := hjm i hi (by omega)
      by_cases hT' : DmReach At jmatch imatch (jmatch.g i).toNat
      · rw [ht.wj_in i (by omega) (by omega) hT'] at h; omega
      · rw [ht.wj_out i (by omega) (fun h => hT' h.2)] at h
        by_cases hR : DmReach A imatch jmatch i
        · rw [hs.wi_in i hi (by omega) hR] at h; omega
        · rw [hs.wi_out i hi hR, hwi0 i hi] at h; omega
    · intro h
      rw [ht.wj_out i (by omega) (fun h' => by omega)]
      exact hs.wi_un i hi h
  · intro j hj
    constructor
    · intro h
      by_contra hn'
      rcases hcol j hj (by omega) with h1 | h1 | h1 <;> omega
    · intro h
      exact ht.wi_un j (by omega) h
  · intro j hj h0
    rcases hcol j hj h0 with h1 | h1 | h1
    · right; right; exact h1.2.2
    · left; exact h1.2.2
    · right; left; exact h1.2.2
  · intro j hj h0
    rcases hcol j hj h0 with h1 | h1 | h1
    · exact ⟨fun _ => h1.1, fun _ => h1.2.2⟩
    · exact ⟨fun h => by omega, fun h => absurd h h1.2.1⟩
    · exact ⟨fun h => by omega, fun h => absurd h h1.1⟩
  · intro j hj h0
    rcases hcol j hj h0 with h1 | h1 | h1
    · exact ⟨fun h => by omega, fun h => absurd h h1.2.1⟩
    · exact ⟨fun _ => h1.1, fun _ => h1.2.2⟩
    · exact ⟨fun h => by omega, fun h => absurd h h1.2.1⟩

theorem dm_collect_spec {A At : Csr} {imatch jmatch wi wj : Array Int}
    (hM : Matching A jmatch imatch) (hm : DmMarks A At imatch jmatch wi wj)
    (hTn : At.n = A.m) {p q : Array Nat} (hp : p.size = A.n) (hq : q.size = A.m) (D0 : Dm) :
    Ok (dm_collect A imatch wi wj p q #[0, 0, 0, 0, 0] #[0, 0, 0, 0, 0]) (fun r =>
      ∃ c1 k1 k2 k3, DmC A At imatch jmatch
        { D0 with p := r.1, q := r.2.1, cc := r.2.2.1, rr := r.2.2.2 } c1 k1 k2 k3) := by
  have hws := hm.wi_size
  have hwjs := hm.wj_size
  unfold dm_collect
  rw [Ok_bind]
  refine (collect_unmatched_spec (n := A.m) (wi := wj) (k := 0) (P := fun _ => False)
    (Listing.start hq fun x hx => hx) (fun x hx => hx.elim) (by omega) (by simp) rfl).mono ?_
  rintro ⟨q0, cc0⟩ ⟨c1, -, a1, -, a2, a3⟩
  simp only at a1 a2 a3 ⊢
  subst a3
  rw [Ok_bind]
  have hmk1 : ∀ mk : Int, mk ≠ 0 → ∀ x, x < A.m → wj.g x = mk → 0 ≤ imatch.g x := by
    intro mk h0 x hx h1
    by_contra hn
    have := (hm.col0 x hx).2 (by omega)
    omega
  refine (collect_matched_spec (p := p) (c1 := c1) (kr := 0) (set := 1) (mark := 1) hM (le_refl _) a1
    (Listing.start hp ?_) ?_ (hmk1 1 (by omega)) rfl (fun t ht => by omega) (by omega) ?_ ?_ ?_
    ?_).mono ?_
  · rintro x ⟨h1, h2, h3 | h3⟩
    · exact h3
    · have h4 := (hm.col0 _ h3.1).1 h3.2
      have h5 := hM.qp x h1 h2
      omega
  · rintro x (h | h)
    · exact h.elim
    · omega
  · simp
  · simp
  · rfl
  · rfl
  rintro ⟨p1, q1, cc1, rr1⟩ ⟨kc2, k1, b1, b2, b3, b4, b5, b6, b7, b8, b9, b10⟩
  simp only at b4 b5 b6 b7 b8 b9 b10 ⊢
  subst b9 b10 b3
  rw [Ok_bind]
  refine (collect_matched_spec (c1 := c1) (set := 2) (mark := -1) hM (by omega) b4 b5 ?_
    (hmk1 (-1) (by omega)) rfl b6 (by omega) ?_ ?_ ?_ ?_).mono ?_
  · rintro x ((h | h) | h)
    · exact h.elim
    · omega
    · omega
  · simp
  · simp
  · rfl
  · rfl
  rintro ⟨p2, q2, cc2, rr2⟩ ⟨kc3, k2, d1, d2, d3, d4, d5, d6, d7, d8, d9, d10⟩
  simp only at d4 d5 d6 d7 d8 d9 d10 ⊢
  subst d9 d10 d3
  rw [Ok_bind]
  refine (collect_matched_spec (c1 := c1) (set := 3) (mark := 3) hM (by omega) d4 d5 ?_
    (hmk1 3 (by omega)) rfl d6 (by omega) ?_ ?_ ?_ ?_).mono ?_
  · rintro x (((h | h) | h) | h)
    · exact h.elim
    · omega
    · omega
    · omega
  · simp
  · simp
  · rfl
  · rfl
  rintro ⟨p3, q3, cc3, rr3⟩ ⟨kc4, k3, e1, e2, e3, e4, e5, e6, e7, e8, e9, e10⟩
  simp only at e4 e5 e6 e7 e8 e9 e10 ⊢
  subst e9 e10 e3
  rw [Ok_bind]
  refine (collect_unmatched_spec (n := A.n) (set := 3) e5 ?_ (by omega) ?_ ?_).mono ?_
  · rintro x ⟨h1, h2, -⟩ h3
    have := (hm.row0 x h1).1 h3
    omega
  · simp
  · rfl
  rintro ⟨p4, rr4⟩ ⟨k4, f1, f2, f3, f4, f5⟩
  simp only at f2 f3 f4 f5 ⊢
  subst f5
  rw [Ok_ok]
  have hqfull : c1 + k3 = A.m := by
    refine e4.full ?_
    intro x hx
    by_cases h0 : imatch.g x < 0
    · exact Or.inl (Or.inl (Or.inl (Or.inr ⟨hx, (hm.col0 x hx).2 h0⟩)))
    · rcases hm.col x hx (by omega) with h | h | h
      · exact Or.inl (Or.inl (Or.inr ⟨hx, h⟩))
      · exact Or.inl (Or.inr ⟨hx, h⟩)
      · exact Or.inr ⟨hx, h⟩
  have hpfull : k4 = A.n := by
    refine f2.full ?_
    intro x hx
    by_cases h0 : jmatch.g x < 0
    · exact Or.inr ⟨hx, (hm.row0 x hx).2 h0⟩
    · left
      have h1 := hM.p_lt x hx
      have h2 := hM.qp x hx (by omega)
      refine ⟨hx, by omega, ?_⟩
      have h3 : (jmatch.g x).toNat < A.m := by omega
      rcases hm.col _ h3 (by omega) with h | h | h
      · exact Or.inl (Or.inl (Or.inr ⟨h3, h⟩))
      · exact Or.inl (Or.inr ⟨h3, h⟩)
      · exact Or.inr ⟨h3, h⟩
  subst hpfull
  have hq3lt : ∀ t, t < A.m → q3.g t < A.m := fun t ht => e4.lt t (by omega)
  -- marks by position
  have m0 : ∀ t, t < c1 → wj.g (q3.g t) = 0 := by
    intro t ht
    rw [e7 t (by omega), d7 t (by omega), b7 t (by omega)]
    exact a2 t (by omega) ht
  have m1 : ∀ t, c1 ≤ t → t < c1 + k1 → wj.g (q3.g t) = 1 := by
    intro t h1 h2
    rw [e7 t (by omega), d7 t (by omega)]
    exact b8 t h1 h2
  have m2 : ∀ t, c1 + k1 ≤ t → t < c1 + k2 → wj.g (q3.g t) = -1 := by
    intro t h1 h2
    rw [e7 t (by omega)]
    exact d8 t h1 h2
  have m3 : ∀ t, c1 + k2 ≤ t → t < c1 + k3 → wj.g (q3.g t) = 3 := fun t h1 h2 => e8 t h1 h2
  have hmat : ∀ t, c1 ≤ t → t < A.m → 0 ≤ imatch.g (q3.g t) := by
    intro t h1 h2
    by_contra hn
    have h0 := (hm.col0 _ (hq3lt t h2)).2 (by omega)
    by_cases g1 : t < c1 + k1
    · rw [m1 t h1 g1] at h0; omega
    · by_cases g2 : t < c1 + k2
      · rw [m2 t (by omega) g2] at h0; omega
      · rw [m3 t (by omega) (by omega)] at h0; omega
  have hunm : ∀ t, t < c1 → imatch.g (q3.g t) < 0 := fun t ht =>
    (hm.col0 _ (hq3lt t (by omega))).1 (m0 t ht)
  have hpq : ∀ t, t < k3 → (p4.g t : Int) = imatch.g (q3.g (c1 + t)) := by
    intro t ht
    rw [f3 t ht]; exact e6 t ht
  have hunp : ∀ t, k3 ≤ t → t < A.n → jmatch.g (p4.g t) < 0 := fun t h1 h2 =>
    (hm.row0 _ (f2.lt t h2)).1 (f4 t h1 h2)
  refine ⟨c1, k1, k2, k3, ?_⟩
  refine { p_size := f2.size, q_size := e4.size, perm_p := ⟨f2.lt, ?_⟩, perm_q := ⟨hq3lt, ?_⟩,
           rr := ?_, cc := ?_, le1 := d2, le2 := e2, le3 := f1, c_k3 := hqfull, pq := hpq,
           un := hunp, unc := hunm, rch := ?_, tch := ?_ }
  · intro i j hi hj he
    exact f2.injOn (by simpa using hi) (by simpa using hj) he
  · intro i j hi hj he
    exact e4.injOn (by simp; omega) (by simp; omega) he
  · rfl
  · show _ = #[(0 : Int), (c1 : Int), (c1 + k1 : Int), (c1 + k2 : Int), (A.m : Int)]
    rw [← hqfull]
    simp only [Nat.cast_add]
    rfl
  · intro t ht
    show k2 ≤ t ↔ DmReach A imatch jmatch (p4.g t)
    by_cases h3 : t < k3
    · have h0 := hmat (c1 + t) (by omega) (by omega)
      have hlt := hq3lt (c1 + t) (by omega)
      have hp' : (imatch.g (q3.g (c1 + t))).toNat = p4.g t := by rw [← hpq t h3]; simp
      have hc := hm.c3 _ hlt h0
      rw [hp'] at hc
      rw [← hc]
      constructor
      · intro h2; exact m3 _ (by omega) (by omega)
      · intro h2
        by_contra hn
        by_cases g1 : t < k1
        · rw [m1 (c1 + t) (by omega) (by omega)] at h2; omega
        · rw [m2 (c1 + t) (by omega) (by omega)] at h2; omega
    · exact ⟨fun _ => .base _ (f2.lt t ht) (hunp t (by omega) ht), fun _ => by omega⟩
  · intro t ht
    show t < c1 + k1 ↔ DmReach At jmatch imatch (q3.g t)
    by_cases h3 : t < c1
    · refine ⟨fun _ => ?_, fun _ => by omega⟩
      exact .base _ (by rw [hTn]; exact hq3lt t ht) (hunm t h3)
    · have h0 := hmat t (by omega) ht
      rw [← hm.c1 _ (hq3lt t ht) h0]
      constructor
      · intro h2; exact m1 _ (by omega) h2
      · intro h2
        by_contra hn
        by_cases g1 : t < c1 + k2
        · rw [m2 t (by omega) (by omega)] at h2; omega
        · rw [m3 t (by omega) (by omega)] at h2; omega

end Spasm
