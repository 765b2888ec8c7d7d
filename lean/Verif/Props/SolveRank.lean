import Verif.Props.SolveUnique

/-!
C90: the warnings of `solve` and the rank.  `warnings` and `Solvable` are specified in Spec/File.lean.
-/

namespace Spasm

open Sha

/-- There is no warning if all the rows have a solution. -/
theorem warnings_nil {k : Nat} {S : Nat → Prop} : warnings k S = [] ↔ ∀ i, i < k → S i := by
  unfold warnings
  rw [List.flatMap_eq_nil_iff]
  constructor
  · intro h i hi
    have := h i (List.mem_range.mpr hi)
    by_contra hS
    rw [if_neg hS] at this
    simp at this
  · intro h i hi
    rw [if_pos (h i (List.mem_range.mp hi))]

/-- Rows of one matrix, followed by those of another one. -/
theorem rows_below {q n m k : ℕ} [Fact q.Prime] {l l2 l3 : List (Int × Int × Int)}
    (h1 : ∀ i j, i < n → j < m → fileEntry q l3 i j = fileEntry q l i j)
    (h2 : ∀ i j, i < k → j < m → fileEntry q l3 (n + i) j = fileEntry q l2 i j) :
    fileRows q n m l ≤ fileRows q (n + k) m l3 ∧
    (fileRows q (n + k) m l3 ≤ fileRows q n m l ↔ ∀ i, i < k → Solvable q n m l l2 i) := by
  have e1 : ∀ i : Fin n, fileMat q (n + k) m l3 ⟨i, by omega⟩ = fileMat q n m l i := fun i => by
    ext j
    exact h1 i j i.isLt j.isLt
  have e2 : ∀ i, (hi : i < k) → fileMat q (n + k) m l3 ⟨n + i, by omega⟩ = fun c : Fin m => fileEntry q l2 i c := fun i hi => by
    ext j
    exact h2 i j hi j.isLt
  refine ⟨Submodule.span_le.mpr ?_, fun h i hi => ?_, fun h => Submodule.span_le.mpr ?_⟩
  · rintro _ ⟨i, rfl⟩
    exact Submodule.subset_span ⟨_, e1 i⟩
  · rw [solvable_iff, ← e2 i hi]
    exact h (Submodule.subset_span ⟨_, rfl⟩)
  · rintro _ ⟨i, rfl⟩
    by_cases hi : (i : Nat) < n
    · exact Submodule.subset_span ⟨⟨i, hi⟩, (e1 ⟨i, hi⟩).symm⟩
    · have := solvable_iff.mp (h (i - n) (by omega))
      rw [← e2 (i - n) (by omega)] at this
      have hin : (⟨n + (i - n), by omega⟩ : Fin (n + k)) = i := Fin.ext (by simp only; omega)
      rw [hin] at this
      exact this

section
variable {q : ℕ} [Fact q.Prime] (hq : q ≤ 0xfffffffb) {f g u : List Char} {n m k : Nat} {l l2 l3 : List (Int × Int × Int)}
  (hf : IsFile f n m l) (hc : NoCancel q l) (hg : IsFile g k m l2) (hc2 : NoCancel q l2)
  (jk : Junk) (jw : Nat → W) (h0 : Nat → B) (env : Env) (opts : Opts) (hx : SolveOk jk q env opts)
include hq hf hc hg hc2 hx

/-- C90. `solve` prints no warning exactly when `rank` prints the same number for the matrix and for the matrix with the rows
of the right-hand side below it. -/
theorem C90_rank (hu : IsFile u (n + k) m l3) (hc3 : NoCancel q l3)
    (h1 : ∀ i j, i < n → j < m → fileEntry q l3 i j = fileEntry q l i j)
    (h2 : ∀ i j, i < k → j < m → fileEntry q l3 (n + i) j = fileEntry q l2 i j)
    (jk1 jk2 : Junk) (jw1 jw2 : Nat → W) (h01 h02 : Nat → B) (env1 env2 : Env) (opts1 opts2 : Opts)
    (hx1 : Exact jk1 q env1 opts1) (hx2 : Exact jk2 q env2 opts2) (allow1 allow2 : Bool)
    {w t : List Char} (hs : SolveTool jk jw h0 env opts f g q w t) :
    ∃ r r', tool_rank jk1 jw1 h01 env1 opts1 f q allow1 = .ok r ∧ tool_rank jk2 jw2 h02 env2 opts2 u q allow2 = .ok r' ∧
      r ≤ r' ∧ (w = [] ↔ r = r') := by
  obtain ⟨-, key⟩ := C54_solve_partial jk jw h0 env opts hq hf hc hg hc2 hx.possible hx.block hx.null hx.schur hx.final
  obtain ⟨-, -, rfl, -⟩ := key w t hs
  obtain ⟨_, e, rfl⟩ := Ok_iff.mp (rank_exact jk1 jw1 env1 opts1 hq hf hc hx1 h01 allow1)
  obtain ⟨_, e', rfl⟩ := Ok_iff.mp (rank_exact jk2 jw2 env2 opts2 hq hu hc3 hx2 h02 allow2)
  obtain ⟨r1, r2⟩ := rows_below h1 h2
  refine ⟨_, _, e, e', ?_, warnings_nil.trans (r2.symm.trans ?_)⟩
  · rw [Matrix.rank_eq_finrank_span_row, Matrix.rank_eq_finrank_span_row]
    exact Submodule.finrank_mono r1
  · rw [Matrix.rank_eq_finrank_span_row, Matrix.rank_eq_finrank_span_row]
    constructor
    · intro h
      exact congrArg (fun S : Submodule _ _ => Module.finrank (ZMod q) S) (le_antisymm r1 h)
    · intro h
      exact (Submodule.eq_of_le_of_finrank_eq r1 h).ge

/-- C90 (combinations). If `solve` prints no warning for a right-hand side, it prints none for another one whose rows are
combinations of the rows of the first. -/
theorem C90_combination {g' : List Char} {k' : Nat} {l2' : List (Int × Int × Int)} (hg' : IsFile g' k' m l2')
    (hc2' : NoCancel q l2') (hcomb : fileRows q k' m l2' ≤ fileRows q k m l2)
    (jk' : Junk) (jw' : Nat → W) (h0' : Nat → B) (env' : Env) (opts' : Opts) (hx' : SolveOk jk' q env' opts')
    {t w' t' : List Char} (hs : SolveTool jk jw h0 env opts f g q [] t)
    (hs' : SolveTool jk' jw' h0' env' opts' f g' q w' t') : w' = [] := by
  obtain ⟨-, key⟩ := C54_solve_partial jk jw h0 env opts hq hf hc hg hc2 hx.possible hx.block hx.null hx.schur hx.final
  obtain ⟨-, key'⟩ := C54_solve_partial jk' jw' h0' env' opts' hq hf hc hg' hc2' hx'.possible hx'.block hx'.null hx'.schur
    hx'.final
  obtain ⟨-, -, hw, -⟩ := key [] t hs
  obtain ⟨-, -, rfl, -⟩ := key' w' t' hs'
  have h := warnings_nil.mp hw.symm
  have hle : fileRows q k m l2 ≤ fileRows q n m l := by
    refine Submodule.span_le.mpr ?_
    rintro _ ⟨i, rfl⟩
    exact solvable_iff.mp (h i i.isLt)
  exact warnings_nil.mpr fun i hi => solvable_iff.mpr (hle (hcomb (Submodule.subset_span ⟨⟨i, hi⟩, rfl⟩)))

end

/-! ### An example -/

/-- The rows of `exSms` (modulo 7), then those of `exRhs`. -/
def exBelow : List Char := "4 3 M\n1 2 5\n2 1 1\n3 1 3\n3 2 1\n4 3 1\n0 0 0\n".toList

def exBelowList : List (Int × Int × Int) := [(1, 2, 5), (2, 1, 1), (3, 1, 3), (3, 2, 1), (4, 3, 1)]

theorem exBelow_file : IsFile exBelow 4 3 exBelowList := by
  refine ⟨.inl ?_, by decide, by decide, by decide, by decide, by decide⟩
  refine ⟨"4 3 M".toList, ["1 2 5".toList, "2 1 1".toList, "3 1 3".toList, "3 2 1".toList, "4 3 1".toList],
    "0 0 0".toList, [], ⟨⟨by decide, by decide, by decide⟩, [], [' '], [' '], [], by simp [Blank], by simp [Blank],
      by simp [Blank], by simp, by decide +kernel⟩, .cons ?_ (.cons ?_ (.cons ?_ (.cons ?_ (.cons ?_ .nil)))), ?_, by simp,
      by decide +kernel⟩ <;>
  exact ⟨⟨by decide, by decide, by decide⟩, [], [' '], [' '], [], by simp [Blank], by simp [Blank],
      by simp [Blank], by simp, by simp, by simp, by decide +kernel⟩

theorem exBelow_rows : (∀ i, i < 2 → ∀ j, j < 3 → fileEntry 7 exBelowList i j = fileEntry 7 exSmsList i j) ∧
    ∀ i, i < 2 → ∀ j, j < 3 → fileEntry 7 exBelowList (2 + i) j = fileEntry 7 [(1, 1, 3), (1, 2, 1), (2, 3, 1)] i j := by
  decide

/-- The hypotheses are met: runs of `solve` with GPLU and of `rank`. -/
example : ∃ w t r r', SolveTool default exJw default exDenseEnv exThree exSms exRhs ((7 : ℕ) : Int) w t ∧
    tool_rank default exJw default exDenseEnv exDenseOpts exSms ((7 : ℕ) : Int) true = .ok r ∧
    tool_rank default exJw default exDenseEnv exDenseOpts exBelow ((7 : ℕ) : Int) true = .ok r' ∧
    r ≤ r' ∧ (w = [] ↔ r = r') := by
  have h := exBelow_rows
  have hd : Distinct exBelowList := by unfold Distinct; decide
  have : Fact (Nat.Prime 7) := ⟨by norm_num⟩
  have hx : SolveOk default 7 exDenseEnv exThree :=
    ⟨exFull_possible, by decide, .inl (by decide), (fun _ h => by cases h), .inl rfl⟩
  obtain ⟨w, t, hs⟩ := solve_run (by norm_num) exSms_file (exSms_noCancel 7) exRhs_file exRhs_noCancel default exJw default
    exDenseEnv exThree hx
  obtain ⟨r, r', e⟩ := C90_rank (by norm_num) exSms_file (exSms_noCancel 7) exRhs_file exRhs_noCancel default exJw default
    exDenseEnv exThree hx exBelow_file hd.noCancel (fun i j hi hj => h.1 i hi j hj) (fun i j hi hj => h.2 i hi j hj)
    default default exJw exJw default default exDenseEnv exDenseEnv exDenseOpts exDenseOpts exExact exExact true true hs
  exact ⟨w, t, r, r', hs, e⟩

end Spasm
