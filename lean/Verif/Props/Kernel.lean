import Verif.Proofs.KernelRref
import Verif.Props.Schur

/-
C18: spasm_kernel.  C19: spasm_kernel_from_rref.  C20: spasm_rref.
-/

namespace Spasm

open Finset Commit

/-! ### C18 -/

/-- C18 (no failure). For every echelonized `U`, number of threads and distribution of the columns:
the initial part and the threads have no error; in every interleaving of the commits every step is
safe; as long as some thread is not done some thread can progress, and the end can be reached. -/
theorem C18_safe (jk : Junk) (q : ℕ) (U : Csr) (qinv : Array Int) (h : Echelon q U qinv) (T : Nat)
    (cols : Fin T → List Nat) (hc : ∑ t, (cols t : Multiset Nat) = Multiset.range U.m) :
    ∃ Ut K0 utqinv jobs, kernel_pre jk U qinv = .ok (Ut, K0, utqinv) ∧
      (∀ t, kernel_thread jk U.n U.m Ut qinv utqinv (cols t) = .ok (jobs t)) ∧
      ∀ s : St T, Reach kernelCfg jk.int (rows_init K0 U.m jobs) s →
        (∀ t r, step kernelCfg jk.int t s = some r → ∃ s', r = .ok s') ∧
        (¬ s.Finished → ∃ t s', step kernelCfg jk.int t s = some (.ok s') ∧ s' ≠ s) ∧
        ∃ s', Reach kernelCfg jk.int s s' ∧ s'.Finished := by
  have hpre := kernel_pre_spec jk h
  rw [Ok_iff] at hpre
  obtain ⟨⟨Ut, K0, utqinv⟩, hpre, hth, hfresh, -⟩ := hpre
  have hmem : ∀ t, ∀ j ∈ cols t, j < U.m := by
    intro t j hj
    have : j ∈ ∑ t, (cols t : Multiset Nat) := (mem_sum_coe cols j).mpr ⟨t, hj⟩
    rw [hc] at this; exact Multiset.mem_range.mp this
  have hth' := fun t => Ok_iff.mp (hth (cols t) (hmem t))
  choose jobs hj1 hj2 using hth'
  refine ⟨Ut, K0, utqinv, jobs, hpre, hj1, fun s hs => ?_⟩
  exact rows_safe (cfg := kernelCfg) rfl rfl hj2 (nonpiv_rows h hc).2 (Nat.sub_le _ _) hfresh hs

/-- C18 (result). Whatever the threads and the schedule, `spasm_kernel` returns a well-formed
matrix with no explicit zero and no repeated column, whose rows are linearly independent and span
the right kernel of `U`. -/
theorem C18_result (jk : Junk) (q : ℕ) (U : Csr) (qinv : Array Int) (h : Echelon q U qinv) (K : Csr)
    (hrun : KernelRun jk U qinv K) : K.WFV q ∧ K.NoDup ∧ K.NoZero ∧ IsKernel q U K := by
  obtain ⟨T, cols, jobs, Ut, K0, utqinv, s, hc, hpre, hth, hr, hf, rfl⟩ := hrun
  have hp := kernel_pre_spec jk h
  rw [hpre, Ok_ok] at hp
  obtain ⟨h1, h2, h3⟩ := hp
  refine kernel_final jk h hc ?_ h2 h3 hr hf
  intro t
  have := h1 (cols t) ?_
  · rwa [hth t, Ok_ok] at this
  · intro j hj
    have : j ∈ ∑ t, (cols t : Multiset Nat) := (mem_sum_coe cols j).mpr ⟨t, hj⟩
    rw [hc] at this; exact Multiset.mem_range.mp this

/-- The kernel only depends on the row space. -/
theorem ker_eq_of_span {q : ℕ} {A U : Csr} (hm : A.m = U.m)
    (h1 : ∀ i, i < A.n → InSpan q U (A.entry q i)) (h2 : ∀ i, i < U.n → InSpan q A (U.entry q i))
    (x : Nat → ZMod q) :
    (∀ i, i < A.n → ∑ c ∈ range A.m, A.entry q i c * x c = 0) ↔
      ∀ i, i < U.n → ∑ c ∈ range U.m, U.entry q i c * x c = 0 := by
  have key : ∀ B V : Csr, B.m = V.m → (∀ i, i < B.n → InSpan q V (B.entry q i)) →
      (∀ i, i < V.n → ∑ c ∈ range V.m, V.entry q i c * x c = 0) →
      ∀ i, i < B.n → ∑ c ∈ range B.m, B.entry q i c * x c = 0 := by
    intro B V hm hs hz i hi
    obtain ⟨y, hy⟩ := hs i hi
    have e1 : ∑ c ∈ range B.m, B.entry q i c * x c =
        ∑ c ∈ range V.m, ∑ k ∈ range V.n, y k * (V.entry q k c * x c) := by
      rw [hm]
      refine Finset.sum_congr rfl fun c hc => ?_
      rw [← hy c (mem_range.mp hc), Finset.sum_mul]
      refine Finset.sum_congr rfl fun k _ => by ring
    rw [e1, Finset.sum_comm]
    refine Finset.sum_eq_zero fun k hk => ?_
    rw [← Finset.mul_sum, hz k (mem_range.mp hk), mul_zero]
  exact ⟨fun h => key U A hm.symm h2 h, fun h => key A U hm h1 h⟩

/-- C18 (the matrix itself). If `U` comes from an echelonization of `A` (same row space), a vector
is in the right kernel of `A` iff it is a combination of the rows of `K`. -/
theorem C18_matrix (jk : Junk) (q : ℕ) (A U : Csr) (qinv : Array Int) (h : Echelon q U qinv)
    (hm : A.m = U.m) (h1 : ∀ i, i < A.n → InSpan q U (A.entry q i))
    (h2 : ∀ i, i < U.n → InSpan q A (U.entry q i)) (K : Csr) (hrun : KernelRun jk U qinv K)
    (x : Nat → ZMod q) :
    (∀ i, i < A.n → ∑ c ∈ range A.m, A.entry q i c * x c = 0) ↔ InSpan q K x := by
  obtain ⟨-, -, -, hK⟩ := C18_result jk q U qinv h K hrun
  rw [ker_eq_of_span hm h1 h2]
  have e1 : (∀ i, i < U.n → ∑ c ∈ range U.m, U.entry q i c * x c = 0) ↔
      (fun c : Fin U.m => x c) ∈ LinearMap.ker (Matrix.mulVecLin (U.toMat q)) := by
    rw [LinearMap.mem_ker, Matrix.mulVecLin_apply]
    constructor
    · intro hz
      funext i
      have := hz i i.2
      rw [← Fin.sum_univ_eq_sum_range (fun c => U.entry q i c * x c)] at this
      exact this
    · intro hz i hi
      have := congrFun hz ⟨i, hi⟩
      rw [← Fin.sum_univ_eq_sum_range (fun c => U.entry q i c * x c)]
      exact this
  rw [e1, ← hK.span, Submodule.mem_span_range_iff_exists_fun]
  constructor
  · rintro ⟨y, hy⟩
    refine ⟨fun k => if hk : k < K.n then y ⟨k, hk⟩ else 0, ?_⟩
    intro c hc
    rw [hK.m_eq] at hc
    have := congrFun hy ⟨c, hc⟩
    rw [Finset.sum_apply] at this
    rw [← this, ← Fin.sum_univ_eq_sum_range
      (fun k => (if hk : k < K.n then y ⟨k, hk⟩ else 0) * K.entry q k c)]
    refine Finset.sum_congr rfl fun k _ => ?_
    simp [Csr.vecs]
  · rintro ⟨y, hy⟩
    refine ⟨fun k => y k, ?_⟩
    funext c
    rw [Finset.sum_apply]
    have := hy c (by rw [hK.m_eq]; exact c.2)
    rw [← this, ← Fin.sum_univ_eq_sum_range (fun k => y k * K.entry q k c)]
    rfl

/-- Non-vacuity: a 2 x 4 matrix with two threads; there is a run, and it returns two vectors. -/
example (jk : Junk) : ∃ K, KernelRun jk exU exUqinv K ∧ K.n = 2 := by
  have hrows : ∑ t, ((fun t : Fin 2 => if t = 0 then [1, 2] else [0, 3]) t : Multiset Nat) =
      Multiset.range exU.m := by
    rw [Fin.sum_univ_two]; decide
  obtain ⟨Ut, K0, utq, jobs, h1, h2, h3⟩ := C18_safe jk 7 exU exUqinv exU_echelon 2 _ hrows
  obtain ⟨-, -, s, h4, h5⟩ := h3 _ .init
  have hrun : KernelRun jk exU exUqinv _ := ⟨2, _, jobs, Ut, K0, utq, s, hrows, h1, h2, h4, h5, rfl⟩
  refine ⟨_, hrun, ?_⟩
  have := (C18_result jk 7 exU exUqinv exU_echelon _ hrun).2.2.2.n_eq
  have e1 : exU.n = 2 := rfl
  have e2 : exU.m = 4 := rfl
  omega

/-! ### C20 -/

/-- C20 (no failure). -/
theorem C20_safe (jk : Junk) (q : ℕ) (U : Csr) (qinv rq : Array Int) (h : Echelon q U qinv)
    (hrq : U.m ≤ rq.size) (T : Nat) (rows : Fin T → List Nat)
    (hc : ∑ t, (rows t : Multiset Nat) = Multiset.range U.n) :
    ∃ k R0 jobs, nnz U = .ok k ∧ csr_alloc jk U.n U.m k U.F.p true = .ok R0 ∧
      (∀ t, rref_thread jk U qinv (rows t) = .ok (jobs t)) ∧
      ∀ s : St T, Reach (rrefCfg U.m) jk.int (rows_init R0 U.n jobs) s →
        (∀ t r, step (rrefCfg U.m) jk.int t s = some r → ∃ s', r = .ok s') ∧
        (¬ s.Finished → ∃ t s', step (rrefCfg U.m) jk.int t s = some (.ok s') ∧ s' ≠ s) ∧
        (∃ s', Reach (rrefCfg U.m) jk.int s s' ∧ s'.Finished) ∧
        (s.Finished → ∃ a, rref_qinv (s.toCsr R0.n R0.m R0.F) rq = .ok a) := by
  have hnz : nnz U = .ok (U.p.g U.n) := by
    have : Ok (nnz U) (fun k => k = U.p.g U.n) := by
      unfold nnz; rw [Ok_rd]; exact ⟨h.wfv.p_size, rfl⟩
    obtain ⟨k, e, rfl⟩ := Ok_iff.mp this
    exact e
  obtain ⟨R0, hR0, hfresh, hgood⟩ :=
    Ok_iff.mp (csr_alloc_spec jk U.n U.m (U.p.g U.n) true h.wfv.field_ok)
  have hmem : ∀ t, ∀ j ∈ rows t, j < U.n := by
    intro t j hj
    have : j ∈ ∑ t, (rows t : Multiset Nat) := (mem_sum_coe rows j).mpr ⟨t, hj⟩
    rw [hc] at this; exact Multiset.mem_range.mp this
  have hth := fun t => Ok_iff.mp (rref_thread_spec jk h (rows t) (hmem t))
  choose jobs hj1 hj2 using hth
  refine ⟨_, R0, jobs, hnz, hR0, hj1, fun s hs => ?_⟩
  have hcard : Multiset.card (∑ t, (rows t : Multiset Nat)) = U.n := by
    rw [hc, Multiset.card_range]
  obtain ⟨s1, s2, s3⟩ := rows_safe (cfg := rrefCfg U.m) rfl rfl hj2 hcard (le_refl _) hfresh hs
  refine ⟨s1, s2, s3, fun hf => ?_⟩
  obtain ⟨a, ha, -⟩ := Ok_iff.mp
    (rref_final jk h hrq hc hj2 hfresh (hgood q h.wfv.good) hs hf)
  exact ⟨a, ha⟩

/-- C20 (result). Whatever the threads and the schedule, `R` is the reduced row echelon form of `U`:
unit pivots at the beginning of the rows, located by `Rqinv`, on the same columns as those of `U`;
pivotal columns are zero in all the other rows; same row space. -/
theorem C20_result (jk : Junk) (q : ℕ) (U : Csr) (qinv rq : Array Int) (h : Echelon q U qinv)
    (hrq : U.m ≤ rq.size) (R : Csr) (rq' : Array Int) (hrun : RrefRun jk U qinv rq R rq') :
    IsRref q U R rq' ∧ ∀ j, j < U.m → (0 ≤ rq'.g j ↔ 0 ≤ qinv.g j) := by
  obtain ⟨T, rows, jobs, R0, k, s, hc, hk, hR0, hth, hr, hf, rfl, hq⟩ := hrun
  have hal := csr_alloc_spec jk U.n U.m k true h.wfv.field_ok
  rw [hR0, Ok_ok] at hal
  obtain ⟨hfresh, hgood⟩ := hal
  have hj : ∀ t, List.Forall₂ (fun i job =>
      ∃ es, RrefRow q U qinv i es ∧ RowJob (rrefCfg U.m) job es) (rows t) (jobs t) := by
    intro t
    have := rref_thread_spec jk h (rows t) ?_
    · rwa [hth t, Ok_ok] at this
    · intro j hj
      have : j ∈ ∑ t, (rows t : Multiset Nat) := (mem_sum_coe rows j).mpr ⟨t, hj⟩
      rw [hc] at this; exact Multiset.mem_range.mp this
  have := rref_final jk h hrq hc hj hfresh (hgood q h.wfv.good) hr hf
  rw [hq, Ok_ok] at this
  exact this.2

/-- C20 (determinism). Two reduced row echelon forms of the same matrix with the same pivotal
columns have the same rows, up to their order. -/
theorem C20_unique (q : ℕ) (U R R' : Csr) (rq rq' : Array Int) (h : IsRref q U R rq)
    (h' : IsRref q U R' rq') (hp : ∀ j, j < U.m → (0 ≤ rq.g j ↔ 0 ≤ rq'.g j))
    (i : Nat) (hi : i < R.n) :
    ∃ k, k < R'.n ∧ R'.pivot k = R.pivot i ∧ ∀ c, c < U.m → R'.entry q k c = R.entry q i c := by
  have hpl := h.ech.pivot_lt hi
  have h0 : 0 ≤ rq'.g (R.pivot i) := (hp _ (by rw [← h.m_eq]; exact hpl)).mp (by
    rw [h.ech.piv i hi]; omega)
  have hlt := h'.ech.lt (R.pivot i) (by rw [h'.m_eq, ← h.m_eq]; exact hpl)
  have hloc := h'.ech.loc _ (by rw [h'.m_eq, ← h.m_eq]; exact hpl) h0
  refine ⟨(rq'.g (R.pivot i)).toNat, by omega, hloc, ?_⟩
  set k := (rq'.g (R.pivot i)).toNat with hk
  -- row i of R is a combination of the rows of R'
  have hsp : InSpan q R' (R.entry q i) := by
    refine InSpan.trans (by rw [h'.m_eq]) h'.sup (h.sub i hi)
  obtain ⟨y, hy⟩ := hsp
  have hyt : ∀ t, t < R'.n → y t = R.entry q i (R'.pivot t) := by
    intro t ht
    rw [← hy _ (h'.ech.pivot_lt ht), Finset.sum_eq_single t, h'.ech.entry_pivot ht, mul_one]
    · intro s hs hne
      rw [Csr.entry_eq_zero_of_not_inRow (h'.reduced t s ht (mem_range.mp hs) hne.symm), mul_zero]
    · intro hn; exact absurd (mem_range.mpr ht) hn
  intro c hc
  rw [← hy c (by rw [h'.m_eq]; exact hc), Finset.sum_eq_single k]
  · rw [hyt k (by omega), hloc, h.ech.entry_pivot hi, one_mul]
  · intro t ht hne
    have ht := mem_range.mp ht
    have hpt := h'.ech.pivot_lt ht
    rw [h'.m_eq] at hpt
    have e0 : 0 ≤ rq.g (R'.pivot t) := (hp _ hpt).mpr (by rw [h'.ech.piv t ht]; omega)
    have e1 := h.ech.loc _ (by rw [h.m_eq]; exact hpt) e0
    have e2 := h.ech.lt (R'.pivot t) (by rw [h.m_eq]; exact hpt)
    rw [hyt t ht, Csr.entry_eq_zero_of_not_inRow, zero_mul]
    rw [← e1]
    refine h.reduced _ i (by omega) hi ?_
    intro he
    rw [he, ← hloc] at e1
    exact hne (h'.ech.pivot_inj ht (by omega) e1.symm)
  · intro hn; exact absurd (mem_range.mpr (by omega)) hn

/-- Non-vacuity: a run exists. -/
theorem exRrefRun (jk : Junk) : ∃ R rq, RrefRun jk exU exUqinv #[5, 5, 5, 5] R rq := by
  have hrows : ∑ t, ((fun t : Fin 2 => if t = 0 then [1] else [0]) t : Multiset Nat) =
      Multiset.range exU.n := by
    rw [Fin.sum_univ_two]; decide
  obtain ⟨k, R0, jobs, h0, h1, h2, h3⟩ :=
    C20_safe jk 7 exU exUqinv #[5, 5, 5, 5] exU_echelon (by decide) 2 _ hrows
  obtain ⟨-, -, ⟨s, h4, h5⟩, -⟩ := h3 _ .init
  obtain ⟨a, ha⟩ := (h3 s h4).2.2.2 h5
  exact ⟨_, a, 2, _, jobs, R0, k, s, hrows, h0, h1, h2, h4, h5, rfl, ha⟩

/-! ### C19 -/

/-- C19 (partial). Given a reduced row echelon form, `spasm_kernel_from_rref` succeeds (no access
out of bounds, no failed assertion), the result is well-formed and, if the prime is at most
`2^31`, its rows, reduced modulo the prime, are a basis of the right kernel.
Missing: the values are not balanced (see `C19_unbalanced`), and the kernel is wrong for the primes
greater than `2^31` (see `C19_wrong_large_prime`). -/
theorem C19_partial (jk : Junk) (q : ℕ) (U R : Csr) (rq : Array Int) (h : IsRref q U R rq)
    (hx : R.x.isSome = true) (hq : q ≤ 2 ^ 31) :
    ∃ K, kernel_from_rref jk R rq = .ok K ∧ K.WF ∧ IsKernel q R K ∧
      ∀ k, k < K.n → ∃ j tl, j < R.m ∧ rq.g j < 0 ∧ K.row k = (j, (q : Int) - 1) :: tl ∧
        ∀ e ∈ tl, 0 ≤ rq.g e.1 ∧ Small q e.2 := by
  obtain ⟨K, e, h1, h2, h3, h4, h5, h6⟩ := Ok_iff.mp
    (kernel_from_rref_spec jk h.ech h.nodup h.reduced hx)
  have hp := h.ech.wfv.good.p_eq
  have h2 := h.ech.wfv.good.two_le
  have ht : toI32 (R.F.p - 1) = (q : Int) - 1 := by
    rw [hp]; unfold toI32
    rw [Int.bmod_def]
    have : ((q : Int) - 1) % ((2 ^ 32 : ℕ) : Int) = q - 1 := Int.emod_eq_of_lt (by omega) (by omega)
    rw [this, if_pos (by omega)]
  refine ⟨K, e, h1, h5 ?_, ?_⟩
  · rw [ht]; push_cast; simp
  · rw [ht] at h6; exact h6

example (jk : Junk) : ∃ R rq, IsRref 7 exU R rq ∧ R.x.isSome = true ∧ R.n = 2 ∧ R.m = 4 := by
  obtain ⟨R, rq, h⟩ := exRrefRun jk
  have := (C20_result jk 7 exU exUqinv _ exU_echelon (by decide) R rq h).1
  refine ⟨R, rq, this, ?_, this.n_eq, this.m_eq⟩
  obtain ⟨_, _, _, _, _, _, _, _, _, _, _, _, rfl, _⟩ := h
  rfl

/-- The matrix (1 1) modulo 4294967291. -/
def exRL : Csr :=
  { n := 1, m := 2, p := #[0, 2], j := #[0, 1], x := some #[1, 1], F := Field.ofPrime 4294967291 }

theorem exRL_ech : Echelon 4294967291 exRL #[0, -1] where
  wfv := Csr.wfv_of_check (by decide +kernel)
  size := by decide
  ge := by decide
  lt := by decide
  ne := by decide
  piv := by decide
  loc := by decide
  one := by decide
  once := by
    intro i hi k h1 h2
    have hi : i < 1 := hi
    obtain rfl : i = 0 := by omega
    have h2 : k < 2 := h2
    have h1 : 0 < k := h1
    obtain rfl : k = 1 := by omega
    decide
  tri := by
    intro i k h1 h2
    have h2 : k < 1 := h2
    omega

theorem exRL_rref : IsRref 4294967291 exRL exRL #[0, -1] where
  ech := exRL_ech
  n_eq := rfl
  m_eq := rfl
  nodup := Csr.nodup_of_check exRL_ech.wfv.toWF (by decide)
  nozero := by unfold Csr.NoZero; decide
  reduced := by
    intro i k h1 h2 h3
    have h1 : i < 1 := h1
    have h2 : k < 1 := h2
    omega
  sub := fun i hi => InSpan.row hi
  sup := fun i hi => InSpan.row hi

/-- C19 (defect). Modulo the prime 4294967291 (greater than `2^31`), `prime - 1` does not fit in
32 bits and -6 is stored instead of -1: the vector returned for the matrix (1 1) is not in its
kernel. -/
theorem C19_wrong_large_prime : IsRref 4294967291 exRL exRL #[0, -1] ∧
    ∃ K, kernel_from_rref default exRL #[0, -1] = .ok K ∧ K.n = 1 ∧
      ∑ c ∈ range 2, exRL.entry 4294967291 0 c * K.entry 4294967291 0 c ≠ 0 := by
  refine ⟨exRL_rref, _, rfl, rfl, ?_⟩
  decide +kernel

/-- C19 (defect). As soon as the kernel is not trivial, the result is not balanced: it is not an
acceptable operand of the modular functions (C01). -/
theorem C19_not_balanced (jk : Junk) (q : ℕ) (U R : Csr) (rq : Array Int) (h : IsRref q U R rq)
    (hx : R.x.isSome = true) (hq : q ≤ 2 ^ 31) (h3 : 3 ≤ q) (hn : R.n < R.m) :
    ∃ K, kernel_from_rref jk R rq = .ok K ∧ ¬ K.WFV q := by
  obtain ⟨K, h1, h2, hk, h4⟩ := C19_partial jk q U R rq h hx hq
  refine ⟨K, h1, fun hw => ?_⟩
  have := hk.n_eq
  obtain ⟨j, tl, -, -, hrow, -⟩ := h4 0 (by omega)
  have hs := hw.mem_row_small (i := 0) (by omega) (e := (j, (q : Int) - 1)) (by rw [hrow]; simp)
  unfold Small at hs
  simp only at hs
  omega

end Spasm
