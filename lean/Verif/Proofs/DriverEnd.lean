import Verif.Proofs.DriverFinish
import Verif.Props.Triplet
import Verif.Props.Csr

/-
The beginning and the end of the driver.
-/

namespace Spasm

open Finset

section
variable {q : ℕ}

/-- The echelon form does not depend on how much memory there is. -/
theorem Echelon.copy {U B : Csr} {qinv : Array Int} (h : Echelon q U qinv) (hB : B.WFV q) (hn : B.n = U.n)
    (hm : B.m = U.m) (hp : ∀ i, i ≤ U.n → B.p.g i = U.p.g i) (he : ∀ k, k < U.p.g U.n → B.ent k = U.ent k) :
    Echelon q B qinv := by
  have hj : ∀ k, k < U.p.g U.n → B.j.g k = U.j.g k := fun k hk => congrArg Prod.fst (he k hk)
  have hv : ∀ k, k < U.p.g U.n → B.val k = U.val k := fun k hk => congrArg Prod.snd (he k hk)
  have hlt : ∀ i, i < U.n → U.p.g i < U.p.g U.n := by
    intro i hi
    have h1 := h.ne i hi
    have := h.wfv.toWF.row_lt hi (k := U.p.g i) h1
    omega
  have hpv : ∀ i, i < U.n → B.pivot i = U.pivot i := by
    intro i hi
    unfold Csr.pivot
    rw [hp i (by omega)]
    exact hj _ (hlt i hi)
  refine ⟨hB, by rw [hm]; exact h.size, by rw [hm]; exact h.ge, by rw [hm, hn]; exact h.lt, ?_, ?_, ?_, ?_, ?_, ?_⟩
  · intro i hi
    rw [hn] at hi
    rw [hp i (by omega), hp (i + 1) (by omega)]; exact h.ne i hi
  · intro i hi
    rw [hn] at hi
    rw [hpv i hi]; exact h.piv i hi
  · intro j hj' h0
    rw [hm] at hj'
    have := h.lt j hj'
    rw [hpv _ (by omega)]; exact h.loc j hj' h0
  · intro i hi
    rw [hn] at hi
    rw [hp i (by omega), hv _ (hlt i hi)]; exact h.one i hi
  · intro i hi k h1 h2
    rw [hn] at hi
    rw [hp i (by omega)] at h1
    rw [hp (i + 1) (by omega)] at h2
    rw [hpv i hi, hj k (h.wfv.toWF.row_lt hi h2)]
    exact h.once i hi k h1 h2
  · intro i k hik hk
    rw [hn] at hk
    rw [hpv i (by omega)]
    rintro ⟨t, t1, t2, t3⟩
    rw [hp k (by omega)] at t1
    rw [hp (k + 1) (by omega)] at t2
    rw [hj t (h.wfv.toWF.row_lt hk t2)] at t3
    exact h.tri i k hik hk ⟨t, t1, t2, t3⟩

/-- `U` is trimmed. -/
theorem cleanup_U (jk : Junk) {U : Csr} {qinv : Array Int} (h : Echelon q U qinv) {m : Nat} (hm : U.m = m) :
    Ok (csr_resize jk U U.n m) (fun B => Ok (csr_realloc jk B (-1)) (fun B => Echelon q B qinv ∧
      B.n = U.n ∧ B.m = m ∧ (∀ i, i < U.n → B.entry q i = U.entry q i) ∧ ∀ i, i < U.n → B.row i = U.row i)) := by
  have hU := h.wfv.toWF
  refine ((C11_resize jk U hU U.n m (le_refl _) (by omega)).and (csr_resize_spec jk hU (le_refl _) (by omega))).mono ?_
  rintro B ⟨⟨a1, a2, a3, a4, -, a6, a7⟩, -, -, -, b4, b5, -, -, -, -, b10, -⟩
  refine ((C11_realloc jk B a1 (-1) (Or.inl (by omega))).and (csr_realloc_spec jk a1 (Or.inl (by omega)))).mono ?_
  rintro D ⟨⟨c1, c2, c3, c4, c5, -, c7⟩, -, -, -, d4, -, -, -, -, -, -, d11⟩
  have hent : ∀ i, i < U.n → D.entry q i = U.entry q i := by
    intro i hi
    ext c
    rw [c5 q i c (by omega), a6 q i c hi, if_pos hi]
  have hp : ∀ i, i ≤ U.n → D.p.g i = U.p.g i := by
    intro i hi
    rw [d4, b10 i hi]
  have hk : ∀ k, k < U.p.g U.n → D.ent k = U.ent k := by
    intro k hk
    rw [d11 k (by rw [a2, b10 _ (le_refl _)]; exact hk)]
    unfold Csr.ent Csr.val
    rw [b4, b5]
  refine ⟨h.copy (c7 q (a7 q h.wfv)) (by omega) (by omega) hp hk, by omega, by omega, hent, ?_⟩
  intro i hi
  unfold Csr.row
  rw [hp i (by omega), hp (i + 1) (by omega)]
  exact Csr.seg_congr fun k _ h2 => hk k (hU.row_lt hi h2)

/-- The rows are the same. -/
theorem nodup_congr {U B : Csr} (hn : B.n = U.n) (h : ∀ i, i < U.n → B.row i = U.row i) (hU : U.NoDup) : B.NoDup := by
  rw [nodup_row_iff] at hU ⊢
  intro i hi
  rw [hn] at hi
  rw [h i hi]; exact hU i hi

theorem rowsNonzero_congr {U B : Csr} (hn : B.n = U.n) (h : ∀ i, i < U.n → B.row i = U.row i) (hU : U.RowsNonzero) :
    B.RowsNonzero := by
  intro i hi
  rw [hn] at hi
  rw [h i hi]; exact hU i hi

/-- The row space of a matrix whose rows are the same. -/
theorem rowSpace_congr {U B : Csr} (hn : B.n = U.n) (h : ∀ i, i < U.n → B.entry q i = U.entry q i) :
    B.rowSpace q = U.rowSpace q := by
  unfold Csr.rowSpace
  rw [hn]
  exact spanOf_congr h

variable [Fact q.Prime] {A0 : Csr} {opts : Opts}

/-- `L` is put in its final form. -/
theorem echelonize_L_spec (jk : Junk) {f : Lu} {nr : Nat} (h : Held q opts A0 f nr) {U : Csr}
    (hU : Echelon q U f.qinv) (hn : U.n = f.U.n) (hm : U.m = f.U.m)
    (he : ∀ i, i < f.U.n → U.entry q i = f.U.entry q i) :
    Ok (echelonize_L jk opts { f with U := U }) (fun g => g.U = U ∧ g.qinv = f.qinv ∧ g.Ltmp = none ∧
      g.L.isSome = opts.L ∧ (opts.L = true → g.complete = opts.complete ∧ (g.U.n = 0 ∨ g.p.isSome = true)) ∧
      (nr = 0 → ∀ L, g.L = some L → IsFact q A0 L U g.qinv g.p opts.complete)) := by
  obtain ⟨h1, L, v, o, old, hP, h3, h4⟩ := h
  unfold echelonize_L
  by_cases hL : opts.L = true
  · rw [if_pos hL]
    rw [hL] at h3
    obtain ⟨Z, rfl⟩ := Option.isSome_iff_exists.1 h3
    obtain ⟨a, ha, has⟩ := hP.p_size rfl
    have hZ := hP.L Z rfl
    have hroom := hP.room
    cases hT : f.Ltmp with
    | none => rw [hT] at h4; cases h4
    | some T =>
    rw [hT] at h4
    simp only [Option.map_some] at h4
    have h5 := Option.some.inj h4
    simp only [Ok_bind, Ok_deref_some, ha]
    rw [hn, h5]
    have hW : ({ Z with m := f.U.n } : Triplet).WFV q :=
      ⟨⟨hZ.wfv.i_size, hZ.wfv.j_size, hZ.wfv.x_size, hZ.wfv.i_lt, fun k hk => (hZ.has _ _ ⟨k, hk, rfl, rfl⟩).1,
        hZ.wfv.field_ok⟩, hZ.wfv.good, hZ.wfv.has_x, hZ.wfv.bal⟩
    refine (C10_compress_partial jk q _ hW fun i j _ hh => (hZ.has i j hh).2).mono ?_
    rintro B ⟨b1, b2, b3, b4, b5, b6⟩
    rw [Ok_ok]
    simp only at b2 b3 b6
    have hpf : ∀ k, k < f.U.n → permFun (if f.U.n = 0 ∧ jk.null0 = true then none
        else some (reallocArr a f.U.n jk.nat)) k = permFun f.p k := by
      intro k hk
      rw [if_neg (by omega), ha]
      exact g_reallocArr _ _ _ _ hk (by omega)
    have hBe : ∀ i, i < A0.n → ∀ c, B.entry q i c = Z.sum q i c := by
      intro i hi c
      rw [b6 i c (by rw [hZ.n_eq]; exact hi)]
      rfl
    refine ⟨rfl, rfl, rfl, hL.symm, fun _ => ⟨rfl, ?_⟩, fun hnr L hLB => ?_⟩
    · simp only
      rw [hn]
      by_cases h0 : f.U.n = 0
      · exact .inl h0
      · rw [if_neg (by omega)]; exact .inr rfl
    simp only at hLB
    cases hLB
    subst hnr
    refine ⟨hU, hm.trans hP.m_eq, ?_, b1, b4, b2.trans hZ.n_eq, b3.trans hn.symm, ?_, ⟨?_, ?_, ?_⟩, ?_⟩
    · intro i hi
      have hmem : A0.entry q i ∈ U.rowSpace q := by
        rw [rowSpace_congr hn he]
        have := hP.span
        rw [spanOf_zero, sup_bot_eq] at this
        rw [this]
        exact mem_spanOf (f := fun i => A0.entry q i) hi
      obtain ⟨y, hy⟩ := mem_spanOf_iff.1 hmem
      exact ⟨y, fun c _ => (hy c).symm⟩
    · intro a' ha'
      simp only at ha'
      split at ha'
      · cases ha'
      · cases ha'; simp; omega
    · intro j hj
      rw [b3] at hj
      rw [hpf j hj, b2, hZ.n_eq]
      exact hZ.P_lt j hj
    · intro j hj
      rw [b3] at hj
      rw [hpf j hj, hBe _ (hZ.P_lt j hj)]
      exact hZ.diag j hj
    · intro j c hjc hc
      rw [b3] at hc
      rw [hpf j (by omega), hBe _ (hZ.P_lt j (by omega))]
      exact hZ.upper j c hjc hc
    · intro i hi hc c _
      rw [hn]
      rw [hZ.prod i hi ?_ c]
      · refine Finset.sum_congr rfl fun k hk => ?_
        rw [hBe i hi, he k (mem_range.1 hk)]
      · rcases hc with hc | ⟨j, hj, rfl⟩
        · exact .inr ⟨hc, fun t ht => by omega⟩
        · rw [hn] at hj
          exact .inl ⟨j, hj, (hpf j hj).symm⟩
  · have hL' : opts.L = false := by simpa using hL
    rw [if_neg hL, Ok_ok]
    rw [hL'] at h3
    refine ⟨rfl, rfl, ?_, ?_, fun e => absurd e hL, ?_⟩
    · cases L with
      | some _ => cases h3
      | none =>
        cases hT : f.Ltmp with
        | none => rfl
        | some _ => rw [hT] at h4; cases h4
    · simp only; rw [h1, hL']; rfl
    · intro _ L hL2
      simp only at hL2
      rw [h1] at hL2; cases hL2

/-- The end, when the factorization is in progress. -/
theorem cleanup_held (jk : Junk) {f : Lu} {nr : Nat} (h : Held q opts A0 f nr) :
    Ok (echelonize_cleanup jk opts A0.m f) (fun g => Echelon q g.U g.qinv ∧ g.U.m = A0.m ∧ g.r = g.U.n ∧
      g.U.rowSpace q = f.U.rowSpace q ∧ g.Ltmp = none ∧ g.L.isSome = opts.L ∧
      (opts.L = true → g.complete = opts.complete ∧ (g.U.n = 0 ∨ g.p.isSome = true)) ∧
      (nr = 0 → ∀ L, g.L = some L → IsFact q A0 L g.U g.qinv g.p opts.complete) ∧ g.U.NoDup ∧
      (opts.L = false → g.U.RowsNonzero)) := by
  obtain ⟨-, L, v, o, old, hP, hLs, -⟩ := id h
  unfold echelonize_cleanup
  rw [Ok_bind]
  refine (cleanup_U jk hP.ech hP.m_eq).mono fun B hB => ?_
  rw [Ok_bind]
  refine hB.mono ?_
  rintro U ⟨u1, u2, u3, u4, u5⟩
  rw [Ok_bind]
  refine (echelonize_L_spec jk h u1 u2 (u3.trans hP.m_eq.symm) u4).mono ?_
  rintro g ⟨g1, g2, g3, g4, g5, g6⟩
  rw [Ok_ok]
  simp only
  rw [g1] at g5 ⊢
  refine ⟨by rw [g2]; exact u1, u3, rfl, rowSpace_congr u2 u4, g3, g4, g5, g6, nodup_congr u2 u5 hP.nodup,
    fun hL => rowsNonzero_congr u2 u5 (hP.nozero ?_)⟩
  rw [hL] at hLs
  cases L with
  | none => rfl
  | some _ => cases hLs

omit [Fact q.Prime] in
/-- The end, without `L`. -/
theorem cleanup_noL (jk : Junk) {f : Lu} (h : Inner q A0 f) (hL : opts.L = false) :
    Ok (echelonize_cleanup jk opts A0.m f) (fun g => Echelon q g.U g.qinv ∧ g.U.m = A0.m ∧ g.r = g.U.n ∧
      g.U.rowSpace q = f.U.rowSpace q ∧ g.Ltmp = f.Ltmp ∧ g.L = f.L ∧ g.U.NoDup ∧
      (f.Ltmp = none → g.U.RowsNonzero)) := by
  unfold echelonize_cleanup
  rw [Ok_bind]
  refine (cleanup_U jk h.ech h.m_eq).mono fun B hB => ?_
  rw [Ok_bind]
  refine hB.mono ?_
  rintro U ⟨u1, u2, u3, u4, u5⟩
  unfold echelonize_L
  rw [if_neg (by rw [hL]; simp), Ok_bind, Ok_ok, Ok_ok]
  exact ⟨u1, u3, rfl, rowSpace_congr u2 u4, rfl, rfl, nodup_congr u2 u5 h.nodup,
    fun e => rowsNonzero_congr u2 u5 (h.nozero e)⟩

omit [Fact q.Prime] in
/-- The beginning. -/
theorem echelonize_init_spec (jk : Junk) (hA : A0.WFV q) :
    Ok (echelonize_init jk opts A0) (fun f => Partial q A0 f.U f.qinv f.Ltmp f.p (A0.entry q) A0.n id 0
      opts.complete ∧ f.U.n = 0 ∧ f.L = none ∧ f.Ltmp.isSome = opts.L) := by
  unfold echelonize_init
  rw [nnz_ok hA.toWF, Ok_bind, Ok_ok, Ok_bind]
  refine (csr_alloc_spec jk A0.n A0.m (A0.p.g A0.n) true hA.field_ok).mono ?_
  rintro U ⟨hU, hF⟩
  rw [Ok_bind]
  have hLt : Ok (echelonize_initL jk opts A0) (fun r => r.1.isSome = opts.L ∧
      (r.1.isSome = true → ∃ a, r.2 = some a ∧ A0.n ≤ a.size) ∧
      ∀ Z, r.1 = some Z → Z.WFV q ∧ Z.n = A0.n ∧ A0.n ≤ Z.m ∧ Z.nz = 0) := by
    unfold echelonize_initL
    by_cases hL : opts.L = true
    · rw [if_pos hL, nnz_ok hA.toWF, Ok_bind, Ok_ok, Ok_bind]
      unfold triplet_alloc
      rw [Ok_bind]
      refine (field_init_ok hA.field_ok).mono ?_
      rintro G ⟨hG1, hG2⟩
      rw [Ok_ok, Ok_bind, Ok_cassert]
      refine ⟨rfl, ?_⟩
      rw [Ok_ok]
      refine ⟨hL.symm, fun _ => ⟨_, rfl, by simp⟩, fun Z hZ => ?_⟩
      simp only at hZ
      cases hZ
      refine ⟨⟨⟨Nat.zero_le _, by simp, ?_, ?_, ?_, by simp only; rw [hG1]; exact hA.field_ok⟩, hG2 q hA.good, rfl, ?_⟩,
        rfl, le_refl _, rfl⟩
      · intro a ha
        simp only [if_true] at ha
        cases ha; simp
      all_goals intro k hk; exact absurd hk (Nat.not_lt_zero _)
    · rw [if_neg hL, Ok_ok]
      refine ⟨?_, fun h => (nomatch h), fun Z h => (nomatch h)⟩
      rw [Bool.not_eq_true] at hL
      rw [hL]; rfl
  refine hLt.mono ?_
  rintro ⟨L, Lp⟩ ⟨l1, l2, l3⟩
  simp only at l1 l2 l3 ⊢
  rw [Ok_ok]
  have hp := hU.p_size
  refine ⟨Partial.init ?_ rfl hU.m_eq (by simp only; omega) hU.x_isSome ?_ ?_ ?_ l2 l3, rfl, rfl, l1⟩
  · refine ⟨⟨?_, hU.p_zero, ?_, ?_, ?_, ?_, ?_⟩, hF q hA.good, ?_, ?_⟩
    · simp only; omega
    · intro i hi; simp only at hi; omega
    · simp only; rw [hU.p_zero]; omega
    · intro k hk; simp only at hk; rw [hU.p_zero] at hk; omega
    · intro a ha
      simp only at ha ⊢
      rw [hU.p_zero]; omega
    · simp only; rw [hU.F_p]; exact hA.field_ok
    · intro hk; simp only at hk; rw [hU.p_zero] at hk; omega
    · intro k hk; simp only at hk; rw [hU.p_zero] at hk; omega
  · intro a ha
    simp only at ha ⊢
    have := hU.x_size a ha
    have := hU.j_size
    omega
  · simp only; rw [hU.m_eq]; simp
  · intro j hj
    simp only at hj ⊢
    rw [hU.m_eq] at hj
    exact g_mkArr _ _ _ hj

end

end Spasm
