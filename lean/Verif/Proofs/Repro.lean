import Verif.Spec.Repro
import Verif.Props.Kernel

/-
Uniqueness of reduced echelon forms and of kernel bases, given the pivotal columns.
-/

namespace Spasm

open Finset Commit

theorem SameSpan.symm {q : ℕ} {A B : Csr} (h : SameSpan q A B) : SameSpan q B A := ⟨h.1.symm, h.2.2, h.2.1⟩

theorem SameSpan.trans {q : ℕ} {A B D : Csr} (h : SameSpan q A B) (h' : SameSpan q B D) : SameSpan q A D :=
  ⟨h.1.trans h'.1, fun i hi => InSpan.trans h'.1 h'.2.1 (h.2.1 i hi),
    fun i hi => InSpan.trans h.1.symm h.2.2 (h'.2.2 i hi)⟩

theorem IsRref.sameSpan {q : ℕ} {U R : Csr} {rq : Array Int} (h : IsRref q U R rq) : SameSpan q U R :=
  ⟨h.m_eq.symm, h.sup, h.sub⟩

/-- A vector of the kernel that is zero on the free columns is zero. -/
theorem kernel_zero {q : ℕ} {U : Csr} {qinv : Array Int} (h : Echelon q U qinv) {z : Nat → ZMod q}
    (hk : ∀ i, i < U.n → ∑ c ∈ range U.m, U.entry q i c * z c = 0)
    (hf : ∀ c, c < U.m → qinv.g c < 0 → z c = 0) : ∀ c, c < U.m → z c = 0 := by
  have hp : ∀ d i, i < U.n → i + d + 1 = U.n → z (U.pivot i) = 0 := by
    intro d
    induction d using Nat.strong_induction_on with
    | _ d ih =>
      intro i hi hd
      have := hk i hi
      rw [Finset.sum_eq_single (U.pivot i)] at this
      · rwa [h.entry_pivot hi, one_mul] at this
      · intro c hc hne
        have hc := mem_range.mp hc
        by_cases h0 : qinv.g c < 0
        · rw [hf c hc h0, mul_zero]
        · have hlt := h.lt c hc
          have hloc := h.loc c hc (by omega)
          set k := (qinv.g c).toNat with hk
          have hkn : k < U.n := by omega
          rcases Nat.lt_trichotomy k i with h1 | h1 | h1
          · rw [← hloc, Csr.entry_eq_zero_of_not_inRow (h.tri k i h1 hi), zero_mul]
          · exact absurd (by rw [← hloc, h1]) hne
          · have := ih (U.n - k - 1) (by omega) k hkn (by omega)
            rw [← hloc, this, mul_zero]
      · intro hn; exact absurd (mem_range.mpr (h.pivot_lt hi)) hn
  intro c hc
  by_cases h0 : qinv.g c < 0
  · exact hf c hc h0
  · have hlt := h.lt c hc
    rw [← h.loc c hc (by omega)]
    exact hp (U.n - (qinv.g c).toNat - 1) _ (by omega) (by omega)

/-- The rows of the matrix computed in parallel. -/
theorem kernel_free (jk : Junk) {q : ℕ} {U : Csr} {qinv : Array Int} (h : Echelon q U qinv) {K : Csr}
    (hrun : KernelRun jk U qinv K) : FreeRows q U.m qinv K := by
  obtain ⟨T, cols, jobs, Ut, K0, utqinv, s, hc, hpre, hth, hr, hf, rfl⟩ := hrun
  have hp := kernel_pre_spec jk h
  rw [hpre, Ok_ok] at hp
  obtain ⟨h1, hK0, -⟩ := hp
  have hjobs : ∀ t, List.Forall₂ (fun j job => ∃ es, KernelRow q U qinv j es ∧ RowJob kernelCfg job es)
      ((cols t).filter fun j => decide (¬ 0 ≤ qinv.g j)) (jobs t) := by
    intro t
    have := h1 (cols t) ?_
    · rwa [hth t, Ok_ok] at this
    · intro j hj
      have : j ∈ ∑ t, (cols t : Multiset Nat) := (mem_sum_coe cols j).mpr ⟨t, hj⟩
      rw [hc] at this; exact Multiset.mem_range.mp this
  obtain ⟨c1, c2⟩ := nonpiv_rows h hc
  obtain ⟨σ, R, hσ, hσl, hP, hwf, hrow⟩ := rows_final (cfg := kernelCfg) rfl rfl hjobs c2
    (Nat.sub_le _ _) hK0 h.wfv.field_ok (fun i es hk e he => (hk.ok e he).1) hr hf
  set K := s.toCsr K0.n K0.m K0.F with hK
  have hKn : K.n = U.m - U.n := hK0.n_eq
  have hnd : σ.Nodup := by
    have : (σ : Multiset Nat).Nodup := by rw [hσ, c1]; exact Finset.nodup _
    exact this
  refine ⟨fun k => σ.getD k 0, ?_, ?_, ?_, ?_⟩
  · intro k hk
    exact ⟨(hP k (by omega)).j_lt, (hP k (by omega)).j_np⟩
  · intro k l hk hl he
    simp only at he
    rw [getD_lt _ _ (by omega), getD_lt _ _ (by omega)] at he
    exact (List.Nodup.getElem_inj_iff hnd).mp he
  · intro j hj hjn
    have : j ∈ (σ : Multiset Nat) := by
      rw [hσ, c1, Finset.mem_val, Finset.mem_filter]
      exact ⟨mem_range.mpr hj, by omega⟩
    obtain ⟨k, hk, rfl⟩ := List.getElem_of_mem (Multiset.mem_coe.mp this)
    exact ⟨k, by omega, getD_lt _ _ hk⟩
  · intro k hk c hcm hcn
    rw [K.entry_eq_lsum, hrow k (by omega)]
    split
    · rename_i he
      rw [he]; exact (hP k (by omega)).self
    · rename_i hne
      refine List.sum_eq_zero ?_
      intro z hz
      rw [List.mem_map] at hz
      obtain ⟨e, he, rfl⟩ := hz
      rw [if_neg]
      rintro rfl
      rcases ((hP k (by omega)).ok e he).2.1 with h1 | h1
      · exact hne h1
      · omega

/-- The rows of a kernel are in the kernel. -/
theorem IsKernel.mem {q : ℕ} {U K : Csr} (h : IsKernel q U K) {k : Nat} (hk : k < K.n) {i : Nat} (hi : i < U.n) :
    ∑ c ∈ range U.m, U.entry q i c * K.entry q k c = 0 := by
  have : K.vecs q K.n U.m ⟨k, hk⟩ ∈ LinearMap.ker (Matrix.mulVecLin (U.toMat q)) := by
    rw [← h.span]; exact Submodule.subset_span ⟨⟨k, hk⟩, rfl⟩
  rw [LinearMap.mem_ker] at this
  have := congrFun this ⟨i, hi⟩
  rw [Finset.sum_range]
  exact this

/-- The rows of the matrix computed from the reduced echelon form. -/
theorem rref_kernel_free (jk : Junk) {q : ℕ} {U R : Csr} {rq : Array Int} (h : IsRref q U R rq)
    (hx : R.x.isSome = true) (hq : q ≤ 2 ^ 31) {K : Csr} (e : kernel_from_rref jk R rq = .ok K) :
    FreeRows q R.m rq K := by
  obtain ⟨K', e', hwf, hK, hrow⟩ := C19_partial jk q U R rq h hx hq
  rw [e] at e'
  cases e'
  have h2 := h.ech.wfv.good.two_le
  have hex : ∀ k, ∃ j, k < K.n → j < R.m ∧ rq.g j < 0 ∧ ∀ c, c < R.m → rq.g c < 0 →
      K.entry q k c = if c = j then -1 else 0 := by
    intro k
    by_cases hk : k < K.n
    · obtain ⟨j, tl, a1, a2, a3, a4⟩ := hrow k hk
      refine ⟨j, fun _ => ⟨a1, a2, fun c hc hcn => ?_⟩⟩
      rw [K.entry_eq_lsum, a3]
      have : lsum q tl c = 0 := by
        refine List.sum_eq_zero ?_
        intro z hz
        rw [List.mem_map] at hz
        obtain ⟨e, he, rfl⟩ := hz
        rw [if_neg]
        rintro rfl
        have := (a4 e he).1
        omega
      unfold lsum at this ⊢
      rw [List.map_cons, List.sum_cons, this, add_zero]
      by_cases hcj : j = c
      · subst hcj; simp
      · rw [if_neg hcj, if_neg (fun h => hcj h.symm)]
    · exact ⟨0, fun h => absurd h hk⟩
  choose f hf using hex
  have hinj : ∀ k l, k < K.n → l < K.n → f k = f l → k = l := by
    intro k l hk hl he
    have hz := kernel_zero h.ech (z := fun c => K.entry q k c - K.entry q l c) (fun i hi => by
      simp only [mul_sub, Finset.sum_sub_distrib]
      rw [hK.mem hk hi, hK.mem hl hi, sub_zero]) (fun c hc hcn => by
      rw [(hf k hk).2.2 c hc hcn, (hf l hl).2.2 c hc hcn, he, sub_self])
    have : Nontrivial (ZMod q) := ZMod.nontrivial_iff.mpr (by omega)
    have := hK.indep.injective (a₁ := ⟨k, hk⟩) (a₂ := ⟨l, hl⟩) (by
      funext c
      exact sub_eq_zero.mp (hz c c.2))
    exact congrArg Fin.val this
  refine ⟨f, fun k hk => ⟨(hf k hk).1, (hf k hk).2.1⟩, hinj, ?_, fun k hk => (hf k hk).2.2⟩
  -- the number of free columns
  have hcard : ((range R.m).filter fun j => ¬ 0 ≤ rq.g j).card = K.n := by
    have hc : ∑ t, ((fun _ : Fin 1 => List.range R.m) t : Multiset Nat) = Multiset.range R.m := by
      simp [Multiset.range]
    obtain ⟨c1, c2⟩ := nonpiv_rows h.ech hc
    rw [c1] at c2
    have := hK.n_eq
    rw [Finset.card, c2]
    omega
  intro j hj hjn
  have himg : (range K.n).image f = (range R.m).filter fun j => ¬ 0 ≤ rq.g j := by
    apply Finset.eq_of_subset_of_card_le
    · intro x hx
      obtain ⟨k, hk, rfl⟩ := Finset.mem_image.mp hx
      have := hf k (mem_range.mp hk)
      exact Finset.mem_filter.mpr ⟨mem_range.mpr this.1, by omega⟩
    · rw [hcard, Finset.card_image_of_injOn, card_range]
      intro a ha b hb
      exact hinj a b (mem_range.mp ha) (mem_range.mp hb)
  have : j ∈ (range K.n).image f := by
    rw [himg]; exact Finset.mem_filter.mpr ⟨mem_range.mpr hj, by omega⟩
  obtain ⟨k, hk, e⟩ := Finset.mem_image.mp this
  exact ⟨k, mem_range.mp hk, e⟩

/-- A kernel basis with one row for each free column is determined by the row space and the pivotal columns. -/
theorem kernel_same {q : ℕ} {U U' K K' : Csr} {qinv qinv' : Array Int} (h : Echelon q U qinv)
    (hs : SameSpan q U U') (hp : SamePivots U.m qinv qinv') (hK : IsKernel q U K) (hK' : IsKernel q U' K')
    (hf : FreeRows q U.m qinv K) (hf' : FreeRows q U'.m qinv' K') : SameRows q U.m K K' := by
  obtain ⟨f, f1, f2, f3, f4⟩ := hf
  obtain ⟨g, g1, g2, g3, g4⟩ := hf'
  have hm := hs.1
  have hfree : ∀ j, j < U.m → (qinv.g j < 0 ↔ qinv'.g j < 0) := fun j hj => by
    have := hp j hj; omega
  have hex : ∀ k, ∃ l, k < K.n → l < K'.n ∧ g l = f k := by
    intro k
    by_cases hk : k < K.n
    · obtain ⟨l, hl, e⟩ := g3 (f k) (by rw [← hm]; exact (f1 k hk).1) ((hfree _ (f1 k hk).1).mp (f1 k hk).2)
      exact ⟨l, fun _ => ⟨hl, e⟩⟩
    · exact ⟨0, fun h => absurd h hk⟩
  choose σ hσ using hex
  have hinj : ∀ i k, i < K.n → k < K.n → σ i = σ k → i = k := by
    intro i k hi hk he
    refine f2 i k hi hk ?_
    rw [← (hσ i hi).2, ← (hσ k hk).2, he]
  have hnn : K.n = K'.n := by
    have hex' : ∀ l, ∃ k, l < K'.n → k < K.n ∧ f k = g l := by
      intro l
      by_cases hl : l < K'.n
      · obtain ⟨k, hk, e⟩ := f3 (g l) (by rw [hm]; exact (g1 l hl).1)
          ((hfree _ (by rw [hm]; exact (g1 l hl).1)).mpr (g1 l hl).2)
        exact ⟨k, fun _ => ⟨hk, e⟩⟩
      · exact ⟨0, fun h => absurd h hl⟩
    choose τ hτ using hex'
    apply le_antisymm
    · simpa using Finset.card_le_card_of_injOn σ (s := range K.n) (t := range K'.n)
        (fun k hk => by simpa using (hσ k (by simpa using hk)).1)
        (fun i hi k hk => hinj i k (by simpa using hi) (by simpa using hk))
    · simpa using Finset.card_le_card_of_injOn τ (s := range K'.n) (t := range K.n)
        (fun k hk => by simpa using (hτ k (by simpa using hk)).1)
        (fun i hi k hk he => g2 i k (by simpa using hi) (by simpa using hk) (by
          rw [← (hτ i (by simpa using hi)).2, ← (hτ k (by simpa using hk)).2, he]))
  refine ⟨hnn, σ, ⟨fun k hk => by rw [hnn]; exact (hσ k hk).1, hinj⟩, ?_⟩
  intro k hk c hc
  have hker := (ker_eq_of_span hm hs.2.1 hs.2.2 (K'.entry q (σ k))).mpr
    (fun i hi => hK'.mem (hσ k hk).1 hi)
  have := kernel_zero h (z := fun c => K'.entry q (σ k) c - K.entry q k c) (fun i hi => by
    simp only [mul_sub, Finset.sum_sub_distrib]
    rw [hker i hi, hK.mem hk hi, sub_zero]) (fun c hc hcn => by
    rw [g4 _ (hσ k hk).1 c (by rw [← hm]; exact hc) ((hfree c hc).mp hcn), f4 k hk c hc hcn, (hσ k hk).2, sub_self])
  exact sub_eq_zero.mp (this c hc)

/-- A reduced echelon form is determined, up to the order of its rows, by the row space and the pivotal columns. -/
theorem rref_same {q : ℕ} {U U' R R' : Csr} {rq rq' : Array Int} (h : IsRref q U R rq) (h' : IsRref q U' R' rq')
    (hs : SameSpan q U U') (hp : SamePivots U.m rq rq') : SameRows q U.m R R' := by
  have hm := hs.1
  have hR' : IsRref q U R' rq' := by
    have hss := hs.trans h'.sameSpan
    refine ⟨h'.ech, ?_, by rw [h'.m_eq, hm], h'.nodup, h'.nozero, h'.reduced, hss.2.2, hss.2.1⟩
    -- same number of pivots
    have e1 := h.ech
    have e2 := h'.ech
    have m1 := h.m_eq
    have m2 := h'.m_eq
    rw [← h.n_eq]
    apply le_antisymm
    · simpa using Finset.card_le_card_of_injOn (fun k => (rq.g (R'.pivot k)).toNat) (s := range R'.n) (t := range R.n)
        (fun k hk => by
          have hk : k < R'.n := by simpa using hk
          have a1 := e2.pivot_lt hk
          have a2 := (hp (R'.pivot k) (by omega)).mpr (by rw [e2.piv k hk]; omega)
          have a3 := e1.lt (R'.pivot k) (by omega)
          simp only [coe_range, Set.mem_Iio]; omega)
        (fun i hi k hk he => by
          have hi : i < R'.n := by simpa using hi
          have hk : k < R'.n := by simpa using hk
          have a1 := e2.pivot_lt hi
          have b1 := e2.pivot_lt hk
          have a2 := (hp (R'.pivot i) (by omega)).mpr (by rw [e2.piv i hi]; omega)
          have b2 := (hp (R'.pivot k) (by omega)).mpr (by rw [e2.piv k hk]; omega)
          have a3 := e1.loc _ (by omega) a2
          have b3 := e1.loc _ (by omega) b2
          simp only at he
          rw [he, b3] at a3
          exact e2.pivot_inj hi hk a3.symm)
    · simpa using Finset.card_le_card_of_injOn (fun k => (rq'.g (R.pivot k)).toNat) (s := range R.n) (t := range R'.n)
        (fun k hk => by
          have hk : k < R.n := by simpa using hk
          have a1 := e1.pivot_lt hk
          have a2 := (hp (R.pivot k) (by omega)).mp (by rw [e1.piv k hk]; omega)
          have a3 := e2.lt (R.pivot k) (by omega)
          simp only [coe_range, Set.mem_Iio]; omega)
        (fun i hi k hk he => by
          have hi : i < R.n := by simpa using hi
          have hk : k < R.n := by simpa using hk
          have a1 := e1.pivot_lt hi
          have b1 := e1.pivot_lt hk
          have a2 := (hp (R.pivot i) (by omega)).mp (by rw [e1.piv i hi]; omega)
          have b2 := (hp (R.pivot k) (by omega)).mp (by rw [e1.piv k hk]; omega)
          have a3 := e2.loc _ (by omega) a2
          have b3 := e2.loc _ (by omega) b2
          simp only at he
          rw [he, b3] at a3
          exact e1.pivot_inj hi hk a3.symm)
  have hex : ∀ i, ∃ k, i < R.n → k < R'.n ∧ R'.pivot k = R.pivot i ∧
      ∀ c, c < U.m → R'.entry q k c = R.entry q i c := by
    intro i
    by_cases hi : i < R.n
    · obtain ⟨k, hk⟩ := C20_unique q U R R' rq rq' h hR' hp i hi
      exact ⟨k, fun _ => hk⟩
    · exact ⟨0, fun h => absurd h hi⟩
  choose σ hσ using hex
  have hn : R.n = R'.n := by rw [h.n_eq, hR'.n_eq]
  refine ⟨hn, σ, ⟨fun i hi => by rw [hn]; exact (hσ i hi).1, ?_⟩, fun i hi => (hσ i hi).2.2⟩
  intro i k hi hk he
  refine h.ech.pivot_inj hi hk ?_
  rw [← (hσ i hi).2.1, ← (hσ k hk).2.1, he]

end Spasm
