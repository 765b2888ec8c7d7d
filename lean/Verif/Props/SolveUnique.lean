import Verif.Props.Compose

/-!
C87: what the results of `solve` depend on.
-/

namespace Spasm

open Sha

/-- The settings of `C54_solve_partial`: GPLU, or the dense method when it does not process a Schur
complement. -/
structure SolveOk (jk : Junk) (q : ℕ) (env : Env) (opts : Opts) : Prop where
  possible : env.Possible q
  block : 0 < opts.block
  null : opts.max_round ≠ 0 ∨ jk.null0 = false
  schur : opts.complete = false → opts.dense = true → NoSchur env opts
  final : opts.gplu = true ∨ (opts.dense = true ∧ env.full = true)

/-- Rows of the right-hand side that have a solution: those in the row space. -/
theorem solvable_iff {q n m : ℕ} {l l2 : List (Int × Int × Int)} {i : Nat} :
    Solvable q n m l l2 i ↔ (fun c : Fin m => fileEntry q l2 i c) ∈ fileRows q n m l := by
  refine Iff.trans ?_ (Submodule.mem_span_range_iff_exists_fun (ZMod q)).symm
  constructor
  · rintro ⟨y, hy⟩
    refine ⟨y, ?_⟩
    rw [← hy, Matrix.vecMul_eq_sum]
  · rintro ⟨y, hy⟩
    refine ⟨y, ?_⟩
    rw [← hy, Matrix.vecMul_eq_sum]

section
variable {q : ℕ} [Fact q.Prime] (hq : q ≤ 0xfffffffb) {f f' g g' : List Char} {n n' m k : Nat}
  {l l' l2 l2' : List (Int × Int × Int)} (hf : IsFile f n m l) (hc : NoCancel q l) (hg : IsFile g k m l2)
  (hc2 : NoCancel q l2) (hg' : IsFile g' k m l2') (hc2' : NoCancel q l2')
  (hrhs : fileMat q k m l2 = fileMat q k m l2')
  (jk jk' : Junk) (jw jw' : Nat → W) (h0 h0' : Nat → B) (env env' : Env) (opts opts' : Opts)
  (hx : SolveOk jk q env opts) (hx' : SolveOk jk' q env' opts')
include hq hf hc hg hc2 hg' hc2' hrhs hx hx'

/-- C87 (warnings). The warnings depend only on the row space of the matrix and on the right-hand side: they are the same for
two files with the same row space, whatever the options, the schedule and the random numbers. -/
theorem C87_warnings (hf' : IsFile f' n' m l') (hc' : NoCancel q l') (hrow : fileRows q n m l = fileRows q n' m l')
    {w t w' t' : List Char} (hs : SolveTool jk jw h0 env opts f g q w t)
    (hs' : SolveTool jk' jw' h0' env' opts' f' g' q w' t') : w = w' := by
  obtain ⟨-, key⟩ := C54_solve_partial jk jw h0 env opts hq hf hc hg hc2 hx.possible hx.block hx.null hx.schur hx.final
  obtain ⟨-, key'⟩ := C54_solve_partial jk' jw' h0' env' opts' hq hf' hc' hg' hc2' hx'.possible hx'.block hx'.null hx'.schur
    hx'.final
  obtain ⟨-, -, rfl, -⟩ := key w t hs
  obtain ⟨-, -, rfl, -⟩ := key' w' t' hs'
  unfold warnings
  refine List.flatMap_congr fun i hi => ?_
  have e : (fun c : Fin m => fileEntry q l2 i c) = fun c : Fin m => fileEntry q l2' i c :=
    congrFun hrhs ⟨i, List.mem_range.mp hi⟩
  have : Solvable q n m l l2 i ↔ Solvable q n' m l' l2' i := by rw [solvable_iff, solvable_iff, hrow, e]
  by_cases h : Solvable q n m l l2 i
  · rw [if_pos h, if_pos (this.mp h)]
  · rw [if_neg h, if_neg fun h' => h (this.mpr h')]

/-- C87 (differences). For the same matrix and the same right-hand side, two solutions written for the same row differ by a
vector of the left kernel. -/
theorem C87_difference (hf' : IsFile f' n m l') (hc' : NoCancel q l') (hmat : fileMat q n m l = fileMat q n m l')
    {w t w' t' : List Char} (hs : SolveTool jk jw h0 env opts f g q w t)
    (hs' : SolveTool jk' jw' h0' env' opts' f' g' q w' t') :
    ∃ l3 l3', IsFile t k n l3 ∧ IsFile t' k n l3' ∧ ∀ i, (hi : i < k) → Solvable q n m l l2 i →
      Matrix.vecMul (fileMat q k n l3 ⟨i, hi⟩ - fileMat q k n l3' ⟨i, hi⟩) (fileMat q n m l) = 0 := by
  obtain ⟨-, key⟩ := C54_solve_partial jk jw h0 env opts hq hf hc hg hc2 hx.possible hx.block hx.null hx.schur hx.final
  obtain ⟨-, key'⟩ := C54_solve_partial jk' jw' h0' env' opts' hq hf' hc' hg' hc2' hx'.possible hx'.block hx'.null hx'.schur
    hx'.final
  obtain ⟨l3, a1, -, a3⟩ := key w t hs
  obtain ⟨l3', b1, -, b3⟩ := key' w' t' hs'
  refine ⟨l3, l3', a1, b1, fun i hi h => ?_⟩
  have e : (fun c : Fin m => fileEntry q l2 i c) = fun c : Fin m => fileEntry q l2' i c := congrFun hrhs ⟨i, hi⟩
  have h' : Solvable q n m l' l2' i := by
    obtain ⟨y, hy⟩ := h
    exact ⟨y, by rw [← hmat, hy, e]⟩
  have e2 := b3 i hi h'
  rw [← hmat, ← e] at e2
  rw [Matrix.sub_vecMul, a3 i hi h, e2, sub_self]

/-- C87 (`kernel --left`). The two solutions differ by a combination of the rows written by `kernel --left`. -/
theorem C87_left (hf' : IsFile f' n m l') (hc' : NoCancel q l') (hmat : fileMat q n m l = fileMat q n m l')
    {w t w' t' : List Char} (hs : SolveTool jk jw h0 env opts f g q w t)
    (hs' : SolveTool jk' jw' h0' env' opts' f' g' q w' t')
    (jk3 : Junk) (jw3 : Nat → W) (env3 : Env) (opts3 : Opts) (hx3 : Exact jk3 q env3 opts3) {u : List Char}
    (hu : KernelTool jk3 jw3 env3 opts3 f q true u) :
    ∃ l3 l3' d l4, IsFile t k n l3 ∧ IsFile t' k n l3' ∧ IsFile u d n l4 ∧ ∀ i, (hi : i < k) → Solvable q n m l l2 i →
      fileMat q k n l3 ⟨i, hi⟩ - fileMat q k n l3' ⟨i, hi⟩ ∈ fileRows q d n l4 := by
  obtain ⟨l3, l3', a1, a2, a3⟩ := C87_difference hq hf hc hg hc2 hg' hc2' hrhs jk jk' jw jw' h0 h0' env env' opts opts' hx
    hx' hf' hc' hmat hs hs'
  obtain ⟨d, l4, b1, -, -, -, b5⟩ := left_exact jk3 jw3 env3 opts3 hq hf hc hx3 hu
  exact ⟨l3, l3', d, l4, a1, a2, b1, fun i hi h => (b5 _).mpr (a3 i hi h)⟩

/-- C87 (independent rows). If the rank is the number of rows, the solutions written are determined by the matrix and the
right-hand side. -/
theorem C87_unique (hf' : IsFile f' n m l') (hc' : NoCancel q l') (hmat : fileMat q n m l = fileMat q n m l')
    (hfull : (fileMat q n m l).rank = n) {w t w' t' : List Char} (hs : SolveTool jk jw h0 env opts f g q w t)
    (hs' : SolveTool jk' jw' h0' env' opts' f' g' q w' t') :
    ∃ l3 l3', IsFile t k n l3 ∧ IsFile t' k n l3' ∧ ∀ i j, i < k → j < n → Solvable q n m l l2 i →
      fileEntry q l3 i j = fileEntry q l3' i j := by
  obtain ⟨l3, l3', a1, a2, a3⟩ := C87_difference hq hf hc hg hc2 hg' hc2' hrhs jk jk' jw jw' h0 h0' env env' opts opts' hx
    hx' hf' hc' hmat hs hs'
  refine ⟨l3, l3', a1, a2, fun i j hi hj h => ?_⟩
  have hind : LinearIndependent (ZMod q) (fileMat q n m l).row := by
    rw [linearIndependent_iff_card_eq_finrank_span, Fintype.card_fin, Set.finrank, ← Matrix.rank_eq_finrank_span_row, hfull]
  have hinj := Matrix.vecMul_injective_iff.mpr hind
  have h0 := a3 i hi h
  rw [Matrix.sub_vecMul, sub_eq_zero] at h0
  exact congrFun (hinj h0) ⟨j, hj⟩

end

/-- The program writes some file, to which the theorems apply. -/
theorem solve_run {q : ℕ} [Fact q.Prime] (hq : q ≤ 0xfffffffb) {f g : List Char} {n m k : Nat}
    {l l2 : List (Int × Int × Int)} (hf : IsFile f n m l) (hc : NoCancel q l) (hg : IsFile g k m l2) (hc2 : NoCancel q l2)
    (jk : Junk) (jw : Nat → W) (h0 : Nat → B) (env : Env) (opts : Opts) (hx : SolveOk jk q env opts) :
    ∃ w t, SolveTool jk jw h0 env opts f g q w t := by
  obtain ⟨key, -⟩ := C54_solve_partial jk jw h0 env opts hq hf hc hg hc2 hx.possible hx.block hx.null hx.schur hx.final
  obtain ⟨⟨fact, B⟩, e, ⟨X, ok, hr⟩, h⟩ := Ok_iff.mp key
  obtain ⟨t, ht⟩ := h X ok hr
  exact ⟨_, t, fact, B, X, ok, e, hr, rfl, ht⟩

theorem exSms_entries : fileEntry 7 exSmsList 0 0 = 0 ∧ fileEntry 7 exSmsList 1 0 = 1 ∧ fileEntry 7 exSmsList 0 1 = 5 ∧
    fileEntry 7 exSmsList 1 1 = 0 ∧ (5 : ZMod 7) ≠ 0 := by
  decide

/-- The rows of `exSms` are independent. -/
theorem exSms_rank : (fileMat 7 2 3 exSmsList).rank = 2 := by
  have : Fact (Nat.Prime 7) := ⟨by norm_num⟩
  refine indep_rank (Fintype.linearIndependent_iff.mpr fun x hx => ?_)
  rw [Fin.sum_univ_two] at hx
  have h0 := congrFun hx 0
  have h1 := congrFun hx 1
  have e := exSms_entries
  have h0 : x 0 * fileEntry 7 exSmsList 0 0 + x 1 * fileEntry 7 exSmsList 1 0 = 0 := h0
  have h1 : x 0 * fileEntry 7 exSmsList 0 1 + x 1 * fileEntry 7 exSmsList 1 1 = 0 := h1
  rw [e.1, e.2.1] at h0
  rw [e.2.2.1, e.2.2.2.1] at h1
  have h2 : x 1 = 0 := by simpa using h0
  have h3 : x 0 = 0 := by
    simpa [e.2.2.2.2] using h1
  intro i
  match i with
  | 0 => exact h3
  | 1 => exact h2

/-- The hypotheses are met: there are runs with GPLU, for a matrix of full rank. -/
example : SolveOk default 7 exDenseEnv exThree ∧ (fileMat 7 2 3 exSmsList).rank = 2 ∧
    (∃ w t, SolveTool default exJw default exDenseEnv exThree exSms exRhs ((7 : ℕ) : Int) w t) ∧
    Exact default 7 exDenseEnv exDenseOpts := by
  have : Fact (Nat.Prime 7) := ⟨by norm_num⟩
  have hx : SolveOk default 7 exDenseEnv exThree :=
    ⟨exFull_possible, by decide, .inl (by decide), (fun _ h => by cases h), .inl rfl⟩
  exact ⟨hx, exSms_rank, solve_run (by norm_num) exSms_file (exSms_noCancel 7) exRhs_file exRhs_noCancel default exJw default
    exDenseEnv exThree hx, exExact⟩

end Spasm
