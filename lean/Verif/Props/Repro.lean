import Verif.Proofs.Repro
import Verif.Proofs.Partial
import Verif.Props.EchelonizeLimits
import Verif.Spec.Order
import Mathlib.Tactic.LinearCombination

/-
C74: which results depend on the schedule.  Given the echelonized matrix, the reduced echelon form and the kernel basis are
determined up to the order of their rows; more generally they are determined by the row space and the set of pivotal
columns.  But the set of pivotal columns depends on the schedule.
-/

namespace Spasm

open Finset Commit

/-- C74 (kernel). Each run of `spasm_kernel` returns exactly one vector for each column without pivot: it has -1 on this
column and 0 on the other columns without pivot. -/
theorem C74_rows_partial (jk : Junk) (q : ℕ) (U : Csr) (qinv : Array Int) (h : Echelon q U qinv) (K : Csr)
    (hrun : KernelRun jk U qinv K) : FreeRows q U.m qinv K := kernel_free jk h hrun

/-- C74 (kernel). Two runs of `spasm_kernel`, with any number of threads, schedules and contents of the uninitialized memory,
on two echelonized matrices with the same row space and the same pivotal columns (for instance, on the same matrix)
return the same vectors, up to their order. -/
theorem C74_kernel_partial (jk jk' : Junk) (q : ℕ) (U U' : Csr) (qinv qinv' : Array Int) (h : Echelon q U qinv)
    (h' : Echelon q U' qinv') (hs : SameSpan q U U') (hp : SamePivots U.m qinv qinv') (K K' : Csr)
    (hrun : KernelRun jk U qinv K) (hrun' : KernelRun jk' U' qinv' K') : SameRows q U.m K K' :=
  kernel_same h hs hp (C18_result jk q U qinv h K hrun).2.2.2 (C18_result jk' q U' qinv' h' K' hrun').2.2.2
    (kernel_free jk h hrun) (kernel_free jk' h' hrun')

/-- C74 (reduced echelon form). The same for `spasm_rref`. -/
theorem C74_rref_partial (jk jk' : Junk) (q : ℕ) (U U' : Csr) (qinv qinv' rq rq' : Array Int) (h : Echelon q U qinv)
    (h' : Echelon q U' qinv') (hrq : U.m ≤ rq.size) (hrq' : U'.m ≤ rq'.size) (hs : SameSpan q U U')
    (hp : SamePivots U.m qinv qinv') (R R' : Csr) (a a' : Array Int) (hrun : RrefRun jk U qinv rq R a)
    (hrun' : RrefRun jk' U' qinv' rq' R' a') : SameRows q U.m R R' := by
  obtain ⟨h1, h2⟩ := C20_result jk q U qinv rq h hrq R a hrun
  obtain ⟨h3, h4⟩ := C20_result jk' q U' qinv' rq' h' hrq' R' a' hrun'
  refine rref_same h1 h3 hs fun j hj => ?_
  rw [h2 j hj, hp j hj, ← h4 j (by rw [← hs.1]; exact hj)]

/-- C74 (the two ways to a kernel agree). The kernel computed from the reduced echelon form has the same vectors, modulo the
prime and up to their order, as the one computed from the echelonized matrix. -/
theorem C74_agree_partial (jk jk' jk'' : Junk) (q : ℕ) (U : Csr) (qinv rq : Array Int) (h : Echelon q U qinv)
    (hrq : U.m ≤ rq.size) (hq : q ≤ 2 ^ 31) (R : Csr) (a : Array Int) (hR : RrefRun jk U qinv rq R a)
    (hx : R.x.isSome = true) (K K' : Csr) (hK : kernel_from_rref jk' R a = .ok K)
    (hK' : KernelRun jk'' U qinv K') : SameRows q U.m K K' := by
  obtain ⟨h1, h2⟩ := C20_result jk q U qinv rq h hrq R a hR
  obtain ⟨K0, e, -, hk, -⟩ := C19_partial jk' q U R a h1 hx hq
  rw [hK] at e
  cases e
  have := kernel_same h1.ech h1.sameSpan.symm (fun j hj => h2 j (by rw [← h1.m_eq]; exact hj)) hk
    (C18_result jk'' q U qinv h K' hK').2.2.2 (rref_kernel_free jk' h1 hx hq hK) (kernel_free jk'' h hK')
  rwa [h1.m_eq] at this

/-- There are runs. -/
theorem exists_kernel_run (jk : Junk) {q : ℕ} {U : Csr} {qinv : Array Int} (h : Echelon q U qinv) :
    ∃ K, KernelRun jk U qinv K := by
  obtain ⟨Ut, K0, utq, jobs, h1, h2, h3⟩ := C18_safe jk q U qinv h 1 _ range_one
  obtain ⟨-, -, s, h4, h5⟩ := h3 _ .init
  exact ⟨_, 1, _, jobs, Ut, K0, utq, s, range_one, h1, h2, h4, h5, rfl⟩

theorem exists_rref_run (jk : Junk) {q : ℕ} {U : Csr} {qinv : Array Int} (rq : Array Int) (h : Echelon q U qinv)
    (hrq : U.m ≤ rq.size) : ∃ R a, RrefRun jk U qinv rq R a ∧ R.x.isSome = true := by
  obtain ⟨k, R0, jobs, h0, h1, h2, h3⟩ := C20_safe jk q U qinv rq h hrq 1 _ range_one
  obtain ⟨-, -, ⟨s, h4, h5⟩, -⟩ := h3 _ .init
  obtain ⟨a, ha⟩ := (h3 s h4).2.2.2 h5
  exact ⟨_, a, ⟨1, _, jobs, R0, k, s, range_one, h0, h1, h2, h4, h5, rfl, ha⟩, rfl⟩

/-- Non-vacuity: the kernel (two vectors) of a 2 x 4 matrix, computed in three ways. -/
example (jk jk' jk'' : Junk) : ∃ R a K K' K'', RrefRun jk exU exUqinv #[5, 5, 5, 5] R a ∧
    kernel_from_rref jk' R a = .ok K ∧ KernelRun jk' exU exUqinv K' ∧ KernelRun jk'' exU exUqinv K'' ∧ K'.n = 2 ∧
    SameRows 7 4 K K' ∧ SameRows 7 4 K' K'' := by
  obtain ⟨R, a, hR, hx⟩ := exists_rref_run jk #[5, 5, 5, 5] exU_echelon (by decide)
  obtain ⟨K', h'⟩ := exists_kernel_run jk' exU_echelon
  obtain ⟨K'', h''⟩ := exists_kernel_run jk'' exU_echelon
  have h1 := (C20_result jk 7 exU exUqinv _ exU_echelon (by decide) R a hR).1
  obtain ⟨K, e, -⟩ := C19_partial jk' 7 exU R a h1 hx (by decide)
  have hn := (C18_result jk' 7 exU exUqinv exU_echelon K' h').2.2.2.n_eq
  have e1 : exU.n = 2 := rfl
  have e2 : exU.m = 4 := rfl
  refine ⟨R, a, K, K', K'', hR, e, h', h'', by omega, ?_, ?_⟩
  · exact C74_agree_partial jk jk' jk' 7 exU exUqinv _ exU_echelon (by decide) (by decide) R a hR hx K K' e h'
  · refine C74_kernel_partial jk' jk'' 7 exU exU exUqinv exUqinv exU_echelon exU_echelon ⟨rfl, ?_, ?_⟩
      (fun _ _ => Iff.rfl) K' K'' h' h'' <;> exact fun i hi => InSpan.row hi

/-- The row space is determined by the rank. -/
theorem sameSpan_of_rank {q : ℕ} [Fact q.Prime] {A U : Csr} {qinv : Array Int} (hA : A.WF) (h : Echelon q U qinv)
    (hm : U.m = A.m) (hle : U.rowSpace q ≤ A.rowSpace q) (hr : U.n = (A.toMat q).rank) : SameSpan q A U := by
  have e : U.rowSpace q = A.rowSpace q := by
    have : Module.Finite (ZMod q) (A.rowSpace q) := Module.Finite.span_of_finite _ (Set.toFinite _)
    refine Submodule.eq_of_le_of_finrank_eq hle ?_
    rw [h.rank, hr, finrank_rowSpace hA]
  refine ⟨hm.symm, fun i hi => ?_, fun i hi => ?_⟩
  · have : A.entry q i ∈ U.rowSpace q := by rw [e]; exact mem_spanOf hi
    exact ((mem_rowSpace_iff h.wfv.toWF).mp this).1
  · exact ((mem_rowSpace_iff hA).mp (hle (mem_spanOf hi))).1

/-- C74 (the driver). Two echelonizations of the same matrix, with any options, heuristic decisions, random numbers and
schedules, that both find the rank, and have the same pivotal columns: the reduced echelon forms and the kernels computed
from them, again with any schedules, are the same up to the order of the rows.
Missing: the pivotal columns depend on the schedule, see `C74_race`. -/
theorem C74_driver_partial (jk jk' : Junk) (q : ℕ) [Fact q.Prime] (env env' : Env) (opts opts' : Opts) (A : Csr)
    (henv : env.Possible q) (henv' : env'.Possible q) (hA : A.WFV q) (hnd : A.NoDup) (hz : A.NoZero)
    (hb : 0 < opts.block) (hb' : 0 < opts'.block) (hnull : opts.max_round ≠ 0 ∨ jk.null0 = false)
    (hnull' : opts'.max_round ≠ 0 ∨ jk'.null0 = false) (hL : opts.L = false) (hL' : opts'.L = false)
    (hc : opts.complete = false) (hc' : opts'.complete = false) (f f' : Lu)
    (hf : echelonize jk env opts A = .ok f) (hf' : echelonize jk' env' opts' A = .ok f')
    (hr : f.r = (A.toMat q).rank) (hr' : f'.r = (A.toMat q).rank) (hp : SamePivots A.m f.qinv f'.qinv) :
    (∀ j j' rq rq' R R' a a', A.m ≤ rq.size → A.m ≤ rq'.size → RrefRun j f.U f.qinv rq R a →
      RrefRun j' f'.U f'.qinv rq' R' a' → SameRows q A.m R R') ∧
    ∀ j j' K K', KernelRun j f.U f.qinv K → KernelRun j' f'.U f'.qinv K' → SameRows q A.m K K' := by
  obtain ⟨h1, h2, h3, h4, -⟩ := C27_returned jk q env opts A henv hA hnd hz hb hnull hL hc f hf
  obtain ⟨g1, g2, g3, g4, -⟩ := C27_returned jk' q env' opts' A henv' hA hnd hz hb' hnull' hL' hc' f' hf'
  have hs := (sameSpan_of_rank hA.toWF h1 h2 h4 (by rw [← h3, hr])).symm.trans
    (sameSpan_of_rank hA.toWF g1 g2 g4 (by rw [← g3, hr']))
  rw [← h2] at hp
  constructor
  · intro j j' rq rq' R R' a a' s1 s2 r1 r2
    have := C74_rref_partial j j' q f.U f'.U f.qinv f'.qinv rq rq' h1 g1 (by omega) (by omega) hs hp R R' a a' r1 r2
    rwa [h2] at this
  · intro j j' K K' r1 r2
    have := C74_kernel_partial j j' q f.U f'.U f.qinv f'.qinv h1 g1 hs hp K K' r1 r2
    rwa [h2] at this

/-! ### The pivotal columns depend on the schedule -/

/-- Four rows, all with entries in all five columns.  The first one gives the only structural pivot of the first round; the
Schur complement has rows with entries on the columns {1}, {1, 3, 4} and {1, 2, 4}. -/
def exRace : Csr :=
  { n := 4, m := 5, p := #[0, 5, 10, 15, 20], j := #[0, 1, 2, 3, 4, 0, 1, 2, 3, 4, 0, 1, 2, 3, 4, 0, 1, 2, 3, 4],
    x := some #[1, 1, 1, 1, 1, 1, 2, 1, 1, 1, 1, 2, 1, 2, 2, 1, 2, 3, 1, 2], F := Field.ofPrime 7 }

theorem exRace_wfv : exRace.WFV 7 := Csr.wfv_of_check (by decide +kernel)

theorem exRace_nodup : exRace.NoDup := Csr.nodup_of_check exRace_wfv.toWF (by decide +kernel)

theorem exRace_nozero : exRace.NoZero := by unfold Csr.NoZero; decide +kernel

/-- Two rounds of structural pivots without the greedy search, then GPLU, without `L`. -/
def exRounds : Opts :=
  { greedy := false, tall := false, dense := false, gplu := true, L := false, complete := false,
    max_round := 2, block := 1000 }

/-- The Schur complement of three rows is computed by three threads, in the given order. -/
noncomputable def exRaceEnv (order : List (Fin 3)) : Env :=
  { exChoices.alone default exFf with
    schur := fun k a => match schurThree order default a with
      | .ok o => .ok o
      | .error _ => (exChoices.alone default exFf).schur k a }

theorem exRaceEnv_possible (order : List (Fin 3)) : (exRaceEnv order).Possible 7 := by
  have h := Env.alone_possible (jk := default) (q := 7) exChoices_draw exFf_correct
  refine ⟨h.greedy, fun k a ho => ?_, h.dense, h.ff, h.draw⟩
  cases ha : schurThree order default a with
  | error _ => simpa [exRaceEnv, ha] using h.schur k a ho
  | ok o => exact ⟨default, o, by simp [exRaceEnv, ha], schurThree_run ha⟩

/-- The result when the rows are added in the order 0, 1, 2. -/
def exRaceOne : Lu :=
  { r := 4, complete := false, L := none, p := none, Ltmp := none, qinv := #[0, 3, 1, -1, 2],
    U := { n := 4, m := 5, p := #[0, 5, 8, 11, 12], j := #[0, 1, 2, 3, 4, 2, 4, 1, 4, 3, 1, 1],
           x := some #[1, 1, 1, 1, 1, 1, -3, -3, 1, 1, 1, 1], F := Field.ofPrime 7 } }

/-- The result when the rows are added in the order 0, 2, 1. -/
def exRaceTwo : Lu :=
  { r := 4, complete := false, L := none, p := none, Ltmp := none, qinv := #[0, 3, -1, 1, 2],
    U := { n := 4, m := 5, p := #[0, 5, 8, 11, 12], j := #[0, 1, 2, 3, 4, 3, 4, 1, 4, 2, 1, 1],
           x := some #[1, 1, 1, 1, 1, 1, 1, 1, 1, 2, 1, 1], F := Field.ofPrime 7 } }

theorem exRace_one : echelonize default (exRaceEnv [0, 1, 2]) exRounds exRace = .ok exRaceOne := by decide +kernel

theorem exRace_two : echelonize default (exRaceEnv [0, 2, 1]) exRounds exRace = .ok exRaceTwo := by decide +kernel

theorem exRace_ech_one : Echelon 7 exRaceOne.U exRaceOne.qinv :=
  (C27_returned default 7 _ exRounds exRace (exRaceEnv_possible [0, 1, 2]) exRace_wfv exRace_nodup exRace_nozero (by decide)
    (.inl (by decide)) rfl rfl _ exRace_one).1

theorem exRace_ech_two : Echelon 7 exRaceTwo.U exRaceTwo.qinv :=
  (C27_returned default 7 _ exRounds exRace (exRaceEnv_possible [0, 2, 1]) exRace_wfv exRace_nodup exRace_nozero (by decide)
    (.inl (by decide)) rfl rfl _ exRace_two).1

theorem exRace_rank : (exRace.toMat 7).rank = 4 := by
  have h1 : exRaceOne.r ≤ (exRace.toMat 7).rank :=
    (C27_returned default 7 _ exRounds exRace (exRaceEnv_possible [0, 1, 2]) exRace_wfv exRace_nodup exRace_nozero
      (by decide) (.inl (by decide)) rfl rfl _ exRace_one).2.2.2.2
  have h2 : (exRace.toMat 7).rank ≤ 4 := (exRace.toMat 7).rank_le_height
  have h3 : exRaceOne.r = 4 := rfl
  omega

/-- A generator of the kernel. -/
def exRaceKer (c : Nat) : ZMod 7 := if c = 0 then 3 else if c = 2 then 4 else if c = 3 then 1 else if c = 4 then -1 else 0

/-- The rows of a matrix with the same row space are orthogonal to it. -/
theorem exRace_orth {U R : Csr} {rq : Array Int} (h : IsRref 7 U R rq) (hm : U.m = 5)
    (hU : ∀ i, i < U.n → ∑ c ∈ range 5, U.entry 7 i c * exRaceKer c = 0) {i : Nat} (hi : i < R.n) :
    ∑ c ∈ range 5, R.entry 7 i c * exRaceKer c = 0 := by
  have := (ker_eq_of_span h.m_eq h.sub h.sup exRaceKer).mpr (by rw [hm]; exact hU) i hi
  rwa [h.m_eq, hm] at this

/-- C74 fails. The matrix `exRace` has rank 4 modulo 7.  With the same options, decisions, random numbers and contents of the
memory, the order in which the threads add the rows of the first Schur complement decides whether column 2 or column 3 has
no pivot.  Both runs are right (rank 4), but the reduced echelon forms, and the kernels, computed from the two
factorizations are different, in whatever order their rows are considered. -/
theorem C74_race : ∃ (env env' : Env) (f f' : Lu), env.Possible 7 ∧ env'.Possible 7 ∧
    { env with schur := env'.schur } = env' ∧ echelonize default env exRounds exRace = .ok f ∧
    echelonize default env' exRounds exRace = .ok f' ∧ f.r = (exRace.toMat 7).rank ∧ f'.r = (exRace.toMat 7).rank ∧
    (∀ j j' rq rq' R R' a a', 5 ≤ rq.size → 5 ≤ rq'.size → RrefRun j f.U f.qinv rq R a →
      RrefRun j' f'.U f'.qinv rq' R' a' → ¬ SameRows 7 5 R R') ∧
    ∀ j j' K K', KernelRun j f.U f.qinv K → KernelRun j' f'.U f'.qinv K' → ¬ SameRows 7 5 K K' := by
  refine ⟨exRaceEnv [0, 1, 2], exRaceEnv [0, 2, 1], exRaceOne, exRaceTwo, exRaceEnv_possible _, exRaceEnv_possible _, rfl,
    exRace_one, exRace_two, exRace_rank.symm, exRace_rank.symm, ?_, ?_⟩
  · intro j j' rq rq' R R' a a' h1 h2 hR hR' ⟨hn, σ, hσ, he⟩
    obtain ⟨g1, p1⟩ := C20_result j 7 _ _ rq exRace_ech_one h1 R a hR
    obtain ⟨g2, p2⟩ := C20_result j' 7 _ _ rq' exRace_ech_two h2 R' a' hR'
    have m1 : R.m = 5 := g1.m_eq
    have m2 : R'.m = 5 := g2.m_eq
    -- the row of R with its pivot on column 4
    have q4 : 0 ≤ a.g 4 := (p1 4 (by decide)).mpr (by decide)
    have q2 : 0 ≤ a.g 2 := (p1 2 (by decide)).mpr (by decide)
    have l4 := g1.ech.loc 4 (by omega) q4
    have l2 := g1.ech.loc 2 (by omega) q2
    have i4 := g1.ech.lt 4 (by omega)
    have i2 := g1.ech.lt 2 (by omega)
    set i := (a.g 4).toNat with hi
    have hin : i < R.n := by omega
    have v4 : R.entry 7 i 4 = 1 := by
      have := g1.ech.entry_pivot hin
      rwa [l4] at this
    have v2 : R.entry 7 i 2 = 0 := by
      rw [← l2]
      refine Csr.entry_eq_zero_of_not_inRow (g1.reduced _ i (by omega) hin ?_)
      intro e
      rw [e] at l2
      omega
    have v0 : ∀ c, c = 0 ∨ c = 1 → R.entry 7 i c = 0 := by
      intro c hc
      have qc : 0 ≤ a.g c := (p1 c (by show c < 5; omega)).mpr (by rcases hc with rfl | rfl <;> decide)
      have lc := g1.ech.loc c (by omega) qc
      have ic := g1.ech.lt c (by omega)
      rw [← lc]
      refine Csr.entry_eq_zero_of_not_inRow (g1.reduced _ i (by omega) hin ?_)
      intro e
      rw [e] at lc
      omega
    have o1 := exRace_orth g1 rfl (by decide +kernel) hin
    have w4 := he i hin 4 (by decide)
    have w3 := he i hin 3 (by decide)
    have hk : σ i < R'.n := by rw [← hn]; exact hσ.1 i hin
    -- the row of R' with its pivot on column 4
    have r4 : 0 ≤ a'.g 4 := (p2 4 (by decide)).mpr (by decide)
    have r3 : 0 ≤ a'.g 3 := (p2 3 (by decide)).mpr (by decide)
    have n4 := g2.ech.loc 4 (by omega) r4
    have n3 := g2.ech.loc 3 (by omega) r3
    have k4 := g2.ech.lt 4 (by omega)
    have k3 := g2.ech.lt 3 (by omega)
    have hs : σ i = (a'.g 4).toNat := by
      by_contra hne
      have : R'.entry 7 (σ i) 4 = 0 := by
        rw [← n4]
        exact Csr.entry_eq_zero_of_not_inRow (g2.reduced _ (σ i) (by omega) hk (fun e => hne e.symm))
      rw [this, v4] at w4
      exact absurd w4 (by decide)
    have z3 : R'.entry 7 (σ i) 3 = 0 := by
      rw [← n3]
      refine Csr.entry_eq_zero_of_not_inRow (g2.reduced _ (σ i) (by omega) hk ?_)
      intro e
      rw [e, hs] at n3
      omega
    rw [z3] at w3
    simp only [Finset.sum_range_succ, Finset.sum_range_zero, v0 0 (.inl rfl), v0 1 (.inr rfl), v2, ← w3, v4] at o1
    exact absurd o1 (by decide)
  · intro j j' K K' hK hK' ⟨hn, σ, hσ, he⟩
    obtain ⟨-, -, -, g1⟩ := C18_result j 7 _ _ exRace_ech_one K hK
    obtain ⟨-, -, -, g2⟩ := C18_result j' 7 _ _ exRace_ech_two K' hK'
    obtain ⟨f, f1, -, -, f4⟩ := C74_rows_partial j 7 _ _ exRace_ech_one K hK
    obtain ⟨f', f1', -, -, f4'⟩ := C74_rows_partial j' 7 _ _ exRace_ech_two K' hK'
    have hn1 : K.n = 1 := by
      have e1 : exRaceOne.U.n = 4 := rfl
      have e2 : exRaceOne.U.m = 5 := rfl
      have := g1.n_eq
      omega
    have hk := hσ.1 0 (by omega)
    have a3 : f 0 = 3 := by
      have := f1 0 (by omega)
      obtain ⟨b1, b2⟩ := this
      have b1 : f 0 < 5 := b1
      rcases (by omega : f 0 = 0 ∨ f 0 = 1 ∨ f 0 = 2 ∨ f 0 = 3 ∨ f 0 = 4) with h | h | h | h | h <;>
        rw [h] at b2 <;> first | exact h | exact absurd b2 (by decide)
    have a2 : f' (σ 0) = 2 := by
      have := f1' (σ 0) (by omega)
      obtain ⟨b1, b2⟩ := this
      have b1 : f' (σ 0) < 5 := b1
      rcases (by omega : f' (σ 0) = 0 ∨ f' (σ 0) = 1 ∨ f' (σ 0) = 2 ∨ f' (σ 0) = 3 ∨ f' (σ 0) = 4) with h | h | h | h | h <;>
        rw [h] at b2 <;> first | exact h | exact absurd b2 (by decide)
    have c3 := f4 0 (by omega) 3 (by decide) (by decide)
    rw [a3, if_pos rfl] at c3
    have c2 := f4' (σ 0) (by omega) 2 (by decide) (by decide)
    rw [a2, if_pos rfl, he 0 (by omega) 2 (by decide)] at c2
    -- two rows of the first echelonized matrix
    have s1 := g1.mem (k := 0) (by omega) (i := 1) (by decide)
    have s2 := g1.mem (k := 0) (by omega) (i := 2) (by decide)
    have s3 := g1.mem (k := 0) (by omega) (i := 3) (by decide)
    have u1 : exRaceOne.U.entry 7 1 0 = 0 ∧ exRaceOne.U.entry 7 1 1 = (-3) ∧ exRaceOne.U.entry 7 1 2 = 1 ∧ exRaceOne.U.entry 7 1 3 = 0 ∧ exRaceOne.U.entry 7 1 4 = (-3) := by decide +kernel
    have u2 : exRaceOne.U.entry 7 2 0 = 0 ∧ exRaceOne.U.entry 7 2 1 = 1 ∧ exRaceOne.U.entry 7 2 2 = 0 ∧ exRaceOne.U.entry 7 2 3 = 1 ∧ exRaceOne.U.entry 7 2 4 = 1 := by decide +kernel
    have u3 : exRaceOne.U.entry 7 3 0 = 0 ∧ exRaceOne.U.entry 7 3 1 = 1 ∧ exRaceOne.U.entry 7 3 2 = 0 ∧ exRaceOne.U.entry 7 3 3 = 0 ∧ exRaceOne.U.entry 7 3 4 = 0 := by decide +kernel
    rw [show exRaceOne.U.m = 5 from rfl] at s1 s2 s3
    simp only [Finset.sum_range_succ, Finset.sum_range_zero, u1, u2, u3, c2, c3] at s1 s2 s3
    have e1 : K.entry 7 0 1 = 0 := by linear_combination s3
    have e4 : K.entry 7 0 4 = 1 := by linear_combination s2 - e1
    rw [e1, e4, zero_mul] at s1
    exact absurd s1 (by decide)

/-- There are such reduced echelon forms and kernels. -/
example (j j' : Junk) : (∃ R a R' a', RrefRun j exRaceOne.U exRaceOne.qinv #[0, 0, 0, 0, 0] R a ∧
    RrefRun j' exRaceTwo.U exRaceTwo.qinv #[0, 0, 0, 0, 0] R' a') ∧
    ∃ K K', KernelRun j exRaceOne.U exRaceOne.qinv K ∧ KernelRun j' exRaceTwo.U exRaceTwo.qinv K' := by
  obtain ⟨R, a, h1, -⟩ := exists_rref_run j #[0, 0, 0, 0, 0] exRace_ech_one (by decide)
  obtain ⟨R', a', h2, -⟩ := exists_rref_run j' #[0, 0, 0, 0, 0] exRace_ech_two (by decide)
  obtain ⟨K, h3⟩ := exists_kernel_run j exRace_ech_one
  obtain ⟨K', h4⟩ := exists_kernel_run j' exRace_ech_two
  exact ⟨⟨R, a, R', a', h1, h2⟩, K, K', h3, h4⟩

/-- Non-vacuity of `C74_driver_partial`: another order of the rows that gives the same pivotal columns. -/
example : ∃ f f', echelonize default (exRaceEnv [0, 1, 2]) exRounds exRace = .ok f ∧
    echelonize default (exRaceEnv [1, 0, 2]) exRounds exRace = .ok f' ∧ f.r = (exRace.toMat 7).rank ∧
    f'.r = (exRace.toMat 7).rank ∧ SamePivots 5 f.qinv f'.qinv := by
  have h : (match echelonize default (exRaceEnv [1, 0, 2]) exRounds exRace with
      | .ok f => decide (f.r = 4 ∧ f.qinv = exRaceOne.qinv)
      | .error _ => false) = true := by decide +kernel
  split at h
  · next f hf =>
    obtain ⟨h1, h2⟩ := of_decide_eq_true h
    exact ⟨_, f, exRace_one, hf, exRace_rank.symm, by rw [h1, exRace_rank], fun j _ => by rw [h2]⟩
  · cases h

end Spasm
