import Verif.Props.Compose

/-!
C82: the results depend on the matrix, not on the file: neither the order of the lines, nor the choice of the residues, nor
zeroes that are written, nor the order of the rows, nor row operations matter.

`fileMat`, `fileRows` are specified in Spec/File.lean; `Exact` in Props/Compose.lean.
-/

namespace Spasm

open Sha

/-! ### Files with the same matrix or the same row space -/

/-- C82 (order of the lines). -/
theorem C82_lines {l l' : List (Int × Int × Int)} (h : l.Perm l') (q : ℕ) (n m : Nat) :
    fileMat q n m l = fileMat q n m l' := by
  ext i j
  exact (h.map _).sum_eq

/-- C82 (residues). Values can be replaced by values congruent to them. -/
theorem C82_residues {q : ℕ} {l l' : List (Int × Int × Int)}
    (h : List.Forall₂ (fun e e' => e.1 = e'.1 ∧ e.2.1 = e'.2.1 ∧ (e.2.2 : ZMod q) = e'.2.2) l l') (n m : Nat) :
    fileMat q n m l = fileMat q n m l' := by
  ext i j
  unfold fileMat fileEntry
  induction h with
  | nil => rfl
  | cons a _ ih =>
    obtain ⟨a1, a2, a3⟩ := a
    simp only [List.map_cons, List.sum_cons, a1, a2, a3, ih]

/-- C82 (zeroes). Entries with the value zero can be added. -/
theorem C82_zeroes {q : ℕ} (l : List (Int × Int × Int)) {z : List (Int × Int × Int)} (h : ∀ e ∈ z, (e.2.2 : ZMod q) = 0)
    (n m : Nat) : fileMat q n m (l ++ z) = fileMat q n m l := by
  ext i j
  unfold fileMat fileEntry
  rw [List.map_append, List.sum_append, add_eq_left]
  refine List.sum_eq_zero ?_
  intro x hx
  obtain ⟨e, he, rfl⟩ := List.mem_map.mp hx
  split_ifs
  · exact h e he
  · rfl

/-- C82 (rows). Rows can be reordered and multiplied by nonzero numbers. -/
theorem C82_rows {q : ℕ} [Fact q.Prime] {n m : Nat} {l l' : List (Int × Int × Int)} {p : Nat → Nat} (hp : IsPerm p n)
    {u : Nat → ZMod q} (hu : ∀ i, i < n → u i ≠ 0)
    (h : ∀ i j, i < n → j < m → fileEntry q l' i j = u i * fileEntry q l (p i) j) :
    fileRows q n m l' = fileRows q n m l := by
  have e : ∀ i : Fin n, fileMat q n m l' i = u i • fileMat q n m l ⟨p i, hp.1 i i.isLt⟩ := by
    intro i
    ext j
    exact h i j i.isLt j.isLt
  unfold fileRows
  refine le_antisymm (Submodule.span_le.mpr ?_) (Submodule.span_le.mpr ?_)
  · rintro _ ⟨i, rfl⟩
    rw [e i]
    exact Submodule.smul_mem _ _ (Submodule.subset_span ⟨_, rfl⟩)
  · rintro _ ⟨i, rfl⟩
    obtain ⟨k, hk, hki⟩ := hp.surj i.isLt
    have := e ⟨k, hk⟩
    have hi : (⟨p k, hp.1 k hk⟩ : Fin n) = i := Fin.ext hki
    simp only at this
    rw [hi] at this
    have : fileMat q n m l i = (u k)⁻¹ • fileMat q n m l' ⟨k, hk⟩ := by
      rw [this, smul_smul, inv_mul_cancel₀ (hu k hk), one_smul]
    rw [this]
    exact Submodule.smul_mem _ _ (Submodule.subset_span ⟨_, rfl⟩)

/-- C82 (redundant rows). Rows that are combinations of the others can be added, on as many lines as one wants. -/
theorem C82_redundant {q : ℕ} {n n' m : Nat} {l l' : List (Int × Int × Int)} (hn : n ≤ n')
    (h : ∀ i j, i < n → j < m → fileEntry q l' i j = fileEntry q l i j)
    (hr : ∀ i : Fin n', n ≤ i → fileMat q n' m l' i ∈ fileRows q n m l) : fileRows q n' m l' = fileRows q n m l := by
  have e : ∀ i : Fin n', ∀ hi : i < n, fileMat q n' m l' i = fileMat q n m l ⟨i, hi⟩ := by
    intro i hi
    ext j
    exact h i j hi j.isLt
  refine le_antisymm (Submodule.span_le.mpr ?_) (Submodule.span_le.mpr ?_)
  · rintro _ ⟨i, rfl⟩
    by_cases hi : (i : Nat) < n
    · rw [e i hi]
      exact Submodule.subset_span ⟨_, rfl⟩
    · exact hr i (by omega)
  · rintro _ ⟨i, rfl⟩
    rw [← e ⟨i, by omega⟩ i.isLt]
    exact Submodule.subset_span ⟨_, rfl⟩

/-! ### The programs on such files -/

section
variable {q : ℕ} [Fact q.Prime] (hq : q ≤ 0xfffffffb) {f f' : List Char} {n n' m : Nat}
  {l l' : List (Int × Int × Int)} (hf : IsFile f n m l) (hf' : IsFile f' n' m l') (hc : NoCancel q l)
  (hc' : NoCancel q l') (hrow : fileRows q n m l = fileRows q n' m l')
  (jk jk' : Junk) (jw jw' : Nat → W) (h0 h0' : Nat → B) (env env' : Env) (opts opts' : Opts)
  (hx : Exact jk q env opts) (hx' : Exact jk' q env' opts')
include hrow in
theorem rank_rows : (fileMat q n m l).rank = (fileMat q n' m l').rank := by
  rw [Matrix.rank_eq_finrank_span_row, Matrix.rank_eq_finrank_span_row]
  exact congrArg (fun S : Submodule _ _ => Module.finrank (ZMod q) S) hrow

include hq hf hf' hc hc' hrow hx hx'

/-- C82 (rank). The same rank is printed. -/
theorem C82_rank (allow allow' : Bool) :
    ∃ r, tool_rank jk jw h0 env opts f q allow = .ok r ∧ tool_rank jk' jw' h0' env' opts' f' q allow' = .ok r := by
  obtain ⟨_, e, rfl⟩ := Ok_iff.mp (rank_exact jk jw env opts hq hf hc hx h0 allow)
  obtain ⟨_, e', rfl⟩ := Ok_iff.mp (rank_exact jk' jw' env' opts' hq hf' hc' hx' h0' allow')
  exact ⟨_, e, by rw [e', rank_rows hrow]⟩

/-- C82 (echelonize). The same number of rows is written, which span the same space. -/
theorem C82_echelonize : ∃ g g' r l1 l1', tool_echelonize jk jw env opts f q = .ok g ∧
    tool_echelonize jk' jw' env' opts' f' q = .ok g' ∧ IsFile g r m l1 ∧ IsFile g' r m l1' ∧
    fileRows q r m l1 = fileRows q r m l1' := by
  obtain ⟨g, e, r, l1, c, h1, -, h3, -, h5⟩ := Ok_iff.mp (echelonize_exact jk jw env opts hq hf hc hx)
  obtain ⟨g', e', r', l1', c', h1', -, h3', -, h5'⟩ := Ok_iff.mp (echelonize_exact jk' jw' env' opts' hq hf' hc' hx')
  have : r = r' := by rw [h3, h3', rank_rows hrow]
  subst this
  exact ⟨g, g', r, l1, l1', e, e', h1, h1', by rw [h5, h5', hrow]⟩

/-- C82 (echelonize --rref). The same. -/
theorem C82_rref {g g' : List Char} (hg : RrefTool jk jw env opts f q g) (hg' : RrefTool jk' jw' env' opts' f' q g') :
    ∃ r l1 l1', IsFile g r m l1 ∧ IsFile g' r m l1' ∧ fileRows q r m l1 = fileRows q r m l1' := by
  obtain ⟨r, l1, c, h1, -, h3, -, h5⟩ := rref_exact jk jw env opts hq hf hc hx hg
  obtain ⟨r', l1', c', h1', -, h3', -, h5'⟩ := rref_exact jk' jw' env' opts' hq hf' hc' hx' hg'
  have : r = r' := by rw [h3, h3', rank_rows hrow]
  subst this
  exact ⟨r, l1, l1', h1, h1', by rw [h5, h5', hrow]⟩

/-- C82 (kernel). The same number of rows is written, which span the same space. -/
theorem C82_kernel {g g' : List Char} (hg : KernelTool jk jw env opts f q false g)
    (hg' : KernelTool jk' jw' env' opts' f' q false g') :
    ∃ k l1 l1', IsFile g k m l1 ∧ IsFile g' k m l1' ∧ fileRows q k m l1 = fileRows q k m l1' := by
  obtain ⟨k, l1, h1, -, h3, -, h5⟩ := kernel_exact jk jw env opts hq hf hc hx hg
  obtain ⟨k', l1', h1', -, h3', -, h5'⟩ := kernel_exact jk' jw' env' opts' hq hf' hc' hx' hg'
  have := rank_rows hrow
  have : k = k' := by omega
  subst this
  exact ⟨k, l1, l1', h1, h1', by rw [h5, h5', ker_congr hrow.symm]⟩

end

/-- C82 (kernel --left). For the same matrix, the same number of rows is written, which span the same space. -/
theorem C82_left {q : ℕ} [Fact q.Prime] (hq : q ≤ 0xfffffffb) {f f' : List Char} {n m : Nat}
    {l l' : List (Int × Int × Int)} (hf : IsFile f n m l) (hf' : IsFile f' n m l') (hc : NoCancel q l)
    (hc' : NoCancel q l') (hmat : fileMat q n m l = fileMat q n m l')
    (jk jk' : Junk) (jw jw' : Nat → W) (env env' : Env) (opts opts' : Opts)
    (hx : Exact jk q env opts) (hx' : Exact jk' q env' opts') {g g' : List Char}
    (hg : KernelTool jk jw env opts f q true g) (hg' : KernelTool jk' jw' env' opts' f' q true g') :
    ∃ k l1 l1', IsFile g k n l1 ∧ IsFile g' k n l1' ∧ fileRows q k n l1 = fileRows q k n l1' := by
  obtain ⟨k, l1, h1, -, h3, -, h5⟩ := left_exact jk jw env opts hq hf hc hx hg
  obtain ⟨k', l1', h1', -, h3', -, h5'⟩ := left_exact jk' jw' env' opts' hq hf' hc' hx' hg'
  rw [hmat] at h3
  have : k = k' := by omega
  subst this
  refine ⟨k, l1, l1', h1, h1', ?_⟩
  ext x
  rw [h5, h5', hmat]

/-! ### Columns, for the rank -/

section
variable {q : ℕ} [Fact q.Prime] (hq : q ≤ 0xfffffffb) {f f' : List Char} {l l' : List (Int × Int × Int)}
  (hc : NoCancel q l) (hc' : NoCancel q l') (jk jk' : Junk) (jw jw' : Nat → W) (h0 h0' : Nat → B) (env env' : Env)
  (opts opts' : Opts) (hx : Exact jk q env opts) (hx' : Exact jk' q env' opts')
include hq hc hc' hx hx'

/-- C82 (rank and columns). The same rank is printed for files with the same column space (the row space of the
transposed matrix), whatever the numbers of columns. In particular, by `C82_rows` for the transposed matrix, the columns
can be reordered and multiplied by nonzero numbers. -/
theorem C82_rank_columns {n m m' : Nat} (hf : IsFile f n m l) (hf' : IsFile f' n m' l')
    (hcol : fileRows q m n (flipped l) = fileRows q m' n (flipped l')) (allow allow' : Bool) :
    ∃ r, tool_rank jk jw h0 env opts f q allow = .ok r ∧ tool_rank jk' jw' h0' env' opts' f' q allow' = .ok r := by
  have e0 := rank_rows hcol
  rw [fileMat_flipped, fileMat_flipped, Matrix.rank_transpose, Matrix.rank_transpose] at e0
  obtain ⟨_, e, rfl⟩ := Ok_iff.mp (rank_exact jk jw env opts hq hf hc hx h0 allow)
  obtain ⟨_, e', rfl⟩ := Ok_iff.mp (rank_exact jk' jw' env' opts' hq hf' hc' hx' h0' allow')
  exact ⟨_, e, by rw [e', e0]⟩

/-- C82 (rank and transpose). The same rank is printed for a matrix and for the transposed matrix. -/
theorem C82_rank_transpose {n m : Nat} (hf : IsFile f n m l) (hf' : IsFile f' m n l')
    (hT : fileMat q m n l' = (fileMat q n m l).transpose) (allow allow' : Bool) :
    ∃ r, tool_rank jk jw h0 env opts f q allow = .ok r ∧ tool_rank jk' jw' h0' env' opts' f' q allow' = .ok r := by
  obtain ⟨_, e, rfl⟩ := Ok_iff.mp (rank_exact jk jw env opts hq hf hc hx h0 allow)
  obtain ⟨_, e', rfl⟩ := Ok_iff.mp (rank_exact jk' jw' env' opts' hq hf' hc' hx' h0' allow')
  exact ⟨_, e, by rw [e', hT, Matrix.rank_transpose]⟩

end

/-! ### An example -/

/-- The rows of `exSms` in reverse order, one of them multiplied by 2, with other residues modulo 7 and without the zero. -/
def exAgain : List Char := "2 3 M\n1 1 8\n2 2 3\n0 0 0\n".toList

theorem exAgain_file : IsFile exAgain 2 3 [(1, 1, 8), (2, 2, 3)] := by
  refine ⟨.inl ?_, by decide, by decide, by decide, by decide, by decide⟩
  refine ⟨"2 3 M".toList, ["1 1 8".toList, "2 2 3".toList], "0 0 0".toList, [],
    ⟨⟨by decide, by decide, by decide⟩, [], [' '], [' '], [], by simp [Blank], by simp [Blank],
      by simp [Blank], by simp, by decide +kernel⟩, .cons ?_ (.cons ?_ .nil), ?_, by simp, by decide +kernel⟩ <;>
  exact ⟨⟨by decide, by decide, by decide⟩, [], [' '], [' '], [], by simp [Blank], by simp [Blank],
      by simp [Blank], by simp, by simp, by simp, by decide +kernel⟩

theorem exAgain_rows : fileRows 7 2 3 [(1, 1, 8), (2, 2, 3)] = fileRows 7 2 3 exSmsList := by
  have h1 : ∀ i, i < 2 → (if i = 0 then (1 : ZMod 7) else 2) ≠ 0 := by decide
  have h2 : ∀ i, i < 2 → ∀ j, j < 3 → fileEntry 7 [(1, 1, 8), (2, 2, 3)] i j =
    (if i = 0 then (1 : ZMod 7) else 2) * fileEntry 7 exSmsList (1 - i) j := by decide
  have : Fact (Nat.Prime 7) := ⟨by norm_num⟩
  exact C82_rows (p := fun i => 1 - i) ⟨by decide, fun i k hi hk h => by simp only at h; omega⟩ h1
    fun i j hi hj => h2 i hi j hj

/-- The hypotheses are met. -/
example : ∃ r, tool_rank default exJw default exDenseEnv exDenseOpts exAgain ((7 : ℕ) : Int) true = .ok r ∧
    tool_rank default exJw default exDenseEnv exDenseOpts exSms ((7 : ℕ) : Int) false = .ok r := by
  have : Fact (Nat.Prime 7) := ⟨by norm_num⟩
  have hd : Distinct [(1, 1, 8), (2, 2, 3)] := by unfold Distinct; decide
  exact C82_rank (by norm_num) exAgain_file exSms_file hd.noCancel (exSms_noCancel 7) exAgain_rows default default
    exJw exJw default default exDenseEnv exDenseEnv exDenseOpts exDenseOpts exExact exExact true false


/-- The matrix of `exAgain` without its last column, the other columns being swapped and one of them multiplied by 3. -/
def exCols : List Char := "2 2 M\n1 2 3\n2 1 3\n0 0 0\n".toList

theorem exCols_file : IsFile exCols 2 2 [(1, 2, 3), (2, 1, 3)] := by
  refine ⟨.inl ?_, by decide, by decide, by decide, by decide, by decide⟩
  refine ⟨"2 2 M".toList, ["1 2 3".toList, "2 1 3".toList], "0 0 0".toList, [],
    ⟨⟨by decide, by decide, by decide⟩, [], [' '], [' '], [], by simp [Blank], by simp [Blank],
      by simp [Blank], by simp, by decide +kernel⟩, .cons ?_ (.cons ?_ .nil), ?_, by simp, by decide +kernel⟩ <;>
  exact ⟨⟨by decide, by decide, by decide⟩, [], [' '], [' '], [], by simp [Blank], by simp [Blank],
      by simp [Blank], by simp, by simp, by simp, by decide +kernel⟩

theorem exCols_columns : fileRows 7 3 2 (flipped [(1, 1, 8), (2, 2, 3)]) = fileRows 7 2 2 (flipped [(1, 2, 3), (2, 1, 3)]) := by
  have h0 : ∀ i, i < 2 → ∀ j, j < 2 → fileEntry 7 (flipped [(1, 1, 8), (2, 2, 3)]) i j =
    fileEntry 7 [(1, 1, 1), (2, 2, 3)] i j := by decide
  have hz : ∀ j, j < 2 → fileEntry 7 (flipped [(1, 1, 8), (2, 2, 3)]) 2 j = 0 := by decide
  have h1 : ∀ i, i < 2 → (if i = 0 then (1 : ZMod 7) else 3) ≠ 0 := by decide
  have h2 : ∀ i, i < 2 → ∀ j, j < 2 → fileEntry 7 (flipped [(1, 2, 3), (2, 1, 3)]) i j =
    (if i = 0 then (1 : ZMod 7) else 3) * fileEntry 7 [(1, 1, 1), (2, 2, 3)] (1 - i) j := by decide
  have : Fact (Nat.Prime 7) := ⟨by norm_num⟩
  rw [C82_rows (p := fun i => 1 - i) ⟨by decide, fun i k hi hk h => by simp only at h; omega⟩ h1
    fun i j hi hj => h2 i hi j hj]
  refine C82_redundant (by decide) (fun i j hi hj => h0 i hi j hj) ?_
  intro i hi
  have : (i : Nat) = 2 := by omega
  have e : fileMat 7 3 2 (flipped [(1, 1, 8), (2, 2, 3)]) i = 0 := by
    ext j
    unfold fileMat
    rw [this]
    exact hz j j.2
  rw [e]
  exact Submodule.zero_mem _

/-- The hypotheses of `C82_rank_columns` are met. -/
example : ∃ r, tool_rank default exJw default exDenseEnv exDenseOpts exAgain ((7 : ℕ) : Int) true = .ok r ∧
    tool_rank default exJw default exDenseEnv exDenseOpts exCols ((7 : ℕ) : Int) false = .ok r := by
  have : Fact (Nat.Prime 7) := ⟨by norm_num⟩
  have hd : Distinct [(1, 1, 8), (2, 2, 3)] := by unfold Distinct; decide
  have hd' : Distinct [(1, 2, 3), (2, 1, 3)] := by unfold Distinct; decide
  exact C82_rank_columns (by norm_num) hd.noCancel hd'.noCancel default default
    exJw exJw default default exDenseEnv exDenseEnv exDenseOpts exDenseOpts exExact exExact exAgain_file exCols_file
    exCols_columns true false

/-- The hypotheses of `C82_rank_transpose` are met. -/
example : ∃ r, tool_rank default exJw default exDenseEnv exDenseOpts exCols ((7 : ℕ) : Int) true = .ok r ∧
    tool_rank default exJw default exDenseEnv exDenseOpts exCols ((7 : ℕ) : Int) false = .ok r := by
  have ht : ∀ i, i < 2 → ∀ j, j < 2 → fileEntry 7 [(1, 2, 3), (2, 1, 3)] i j =
    fileEntry 7 [(1, 2, 3), (2, 1, 3)] j i := by decide
  have hd' : Distinct [(1, 2, 3), (2, 1, 3)] := by unfold Distinct; decide
  have : Fact (Nat.Prime 7) := ⟨by norm_num⟩
  refine C82_rank_transpose (by norm_num) hd'.noCancel hd'.noCancel default default
    exJw exJw default default exDenseEnv exDenseEnv exDenseOpts exDenseOpts exExact exExact exCols_file exCols_file
    ?_ true false
  ext i j
  exact ht i i.2 j j.2

/-! ### Entries that cancel -/

/-- A file where two values at the same position have sum zero. -/
def exCancelFile : List Char := "2 3 M\n1 1 1\n1 2 1\n1 2 -1\n1 3 -2\n0 0 0\n".toList

/-- The same matrix, without these two lines. -/
def exPlainFile : List Char := "2 3 M\n1 1 1\n1 3 -2\n0 0 0\n".toList

theorem exCancelFile_file : IsFile exCancelFile 2 3 [(1, 1, 1), (1, 2, 1), (1, 2, -1), (1, 3, -2)] := by
  refine ⟨.inl ?_, by decide, by decide, by decide, by decide, by decide⟩
  refine ⟨"2 3 M".toList, ["1 1 1".toList, "1 2 1".toList, "1 2 -1".toList, "1 3 -2".toList], "0 0 0".toList, [],
    ⟨⟨by decide, by decide, by decide⟩, [], [' '], [' '], [], by simp [Blank], by simp [Blank],
      by simp [Blank], by simp, by decide +kernel⟩, .cons ?_ (.cons ?_ (.cons ?_ (.cons ?_ .nil))), ?_, by simp,
      by decide +kernel⟩ <;>
  exact ⟨⟨by decide, by decide, by decide⟩, [], [' '], [' '], [], by simp [Blank], by simp [Blank],
      by simp [Blank], by simp, by simp, by simp, by decide +kernel⟩

theorem exPlainFile_file : IsFile exPlainFile 2 3 [(1, 1, 1), (1, 3, -2)] := by
  refine ⟨.inl ?_, by decide, by decide, by decide, by decide, by decide⟩
  refine ⟨"2 3 M".toList, ["1 1 1".toList, "1 3 -2".toList], "0 0 0".toList, [],
    ⟨⟨by decide, by decide, by decide⟩, [], [' '], [' '], [], by simp [Blank], by simp [Blank],
      by simp [Blank], by simp, by decide +kernel⟩, .cons ?_ (.cons ?_ .nil), ?_, by simp, by decide +kernel⟩ <;>
  exact ⟨⟨by decide, by decide, by decide⟩, [], [' '], [' '], [], by simp [Blank], by simp [Blank],
      by simp [Blank], by simp, by simp, by simp, by decide +kernel⟩

/-- The matrix the program `rank` obtains from `exCancelFile`. -/
def exCancelCsr : Csr :=
  { n := 2, m := 3, p := #[0, 2, 3], j := #[0, 2, 2], x := some #[1, -2, -2]
    F := match field_init 7 with
      | .ok F => F
      | .error _ => default }

theorem exCancelCsr_input : ∃ h, rank_input default exJw default exCancelFile ((7 : ℕ) : Int) false =
    .ok (exCancelCsr, h) := by
  have : (rank_input default exJw default exCancelFile ((7 : ℕ) : Int) false).toOption.map Prod.fst =
    some exCancelCsr := by decide +kernel
  cases h : rank_input default exJw default exCancelFile ((7 : ℕ) : Int) false with
  | error e => rw [h] at this; cases this
  | ok v =>
    rw [h] at this
    exact ⟨v.2, by rw [← Option.some.inj this]⟩

theorem exCancelCsr_wfv : exCancelCsr.WFV 7 := by
  have hg : exCancelCsr.F.Good 7 := by
    have e : field_init ((7 : ℕ) : Int) = .ok exCancelCsr.F := by decide +kernel
    have := field_init_good 7 (by decide) (by decide)
    rwa [e, Ok_ok] at this
  refine ⟨⟨by decide, rfl, by decide, by decide, by decide, ?_, .inr ?_⟩, hg, fun _ => rfl, ?_⟩
  · rintro _ ⟨⟩
    decide
  · decide +kernel
  · unfold Small
    decide

theorem exCancelCsr_rank : (exCancelCsr.toMat 7).rank = 2 := by
  have h : ∀ a b : ZMod 7, (∀ j, j < 3 → a * exCancelCsr.entry 7 0 j + b * exCancelCsr.entry 7 1 j = 0) →
    a = 0 ∧ b = 0 := by decide +kernel
  have : Fact (Nat.Prime 7) := ⟨by norm_num⟩
  have hi : LinearIndependent (ZMod 7) (exCancelCsr.toMat 7).row := by
    rw [Fintype.linearIndependent_iff]
    intro g hg
    have := h (g ⟨0, by decide⟩) (g ⟨1, by decide⟩) fun j hj => by
      have := congrFun hg ⟨j, hj⟩
      rw [Finset.sum_apply] at this
      exact (Fin.sum_univ_two (f := fun i : Fin 2 => g i * exCancelCsr.entry 7 i j)).symm.trans this
    exact (Fin.forall_fin_two (p := fun i : Fin 2 => g i = 0)).mpr this
  have := hi.rank_matrix
  rwa [Fintype.card_fin] at this

/-- The number printed, for a matrix that has been read. -/
theorem rank_of_input {jk : Junk} {jw : Nat → W} {h0 : Nat → B} {q : ℕ} [Fact q.Prime] {env : Env} {opts : Opts}
    (hx : Exact jk q env opts) {f : List Char} {allow : Bool} {A : Csr} {h : Array B}
    (e : rank_input jk jw h0 f q allow = .ok (A, h)) (hA : A.WFV q) (hd : A.NoDup) (hz : A.NoZero) :
    tool_rank jk jw h0 env opts f q allow = .ok (A.toMat q).rank := by
  obtain ⟨fact, g1, -, -, g2, g3, -⟩ := Ok_iff.mp (C27_dense jk q env opts A hx.possible hA hd hz hx.block
    hx.null hx.noL hx.incomplete hx.noTall hx.dense hx.full)
  unfold tool_rank
  rw [e]
  show (do let fact ← echelonize jk env opts A; Except.ok fact.U.n) = _
  rw [g1]
  show Except.ok fact.U.n = _
  rw [g2, g3]

/-- The number printed is at most 1 if the matrix is a product of a column by a row. -/
theorem rank_outer {jk : Junk} {jw : Nat → W} {h0 : Nat → B} {q : ℕ} [Fact q.Prime] {env : Env} {opts : Opts}
    (hq : q ≤ 0xfffffffb) (hx : Exact jk q env opts) {f : List Char} {n m : Nat} {l : List (Int × Int × Int)}
    (hf : IsFile f n m l) (hc : NoCancel q l) (u v : Nat → ZMod q)
    (h : ∀ i, i < n → ∀ j, j < m → fileEntry q l i j = u i * v j) :
    ∃ r, tool_rank jk jw h0 env opts f q false = .ok r ∧ r ≤ 1 := by
  obtain ⟨r, e, rfl⟩ := Ok_iff.mp (rank_exact jk jw env opts hq hf hc hx h0 false)
  refine ⟨_, e, ?_⟩
  have : fileMat q n m l = Matrix.vecMulVec (fun i : Fin n => u i) (fun j : Fin m => v j) := by
    ext i j
    exact h i i.2 j j.2
  rw [this]
  exact Matrix.rank_vecMulVec_le _ _

/-- C82 (violated). Without the hypothesis that no two values cancel, results depend on the file: two files describe the
same matrix modulo 7, and yet, whatever the exact method, the program `rank` prints 2 (which is wrong) for one of them,
and at most 1 for the other. -/
theorem C82_cancel (env : Env) (opts : Opts) (hx : Exact default 7 env opts) :
    IsFile exCancelFile 2 3 [(1, 1, 1), (1, 2, 1), (1, 2, -1), (1, 3, -2)] ∧
    IsFile exPlainFile 2 3 [(1, 1, 1), (1, 3, -2)] ∧
    fileMat 7 2 3 [(1, 1, 1), (1, 2, 1), (1, 2, -1), (1, 3, -2)] = fileMat 7 2 3 [(1, 1, 1), (1, 3, -2)] ∧
    tool_rank default exJw default env opts exCancelFile ((7 : ℕ) : Int) false = .ok 2 ∧
    ∃ r, tool_rank default exJw default env opts exPlainFile ((7 : ℕ) : Int) false = .ok r ∧ r ≤ 1 := by
  have hd : Distinct [(1, 1, 1), (1, 3, -2)] := by unfold Distinct; decide
  have hm : ∀ i, i < 2 → ∀ j, j < 3 → fileEntry 7 [(1, 1, 1), (1, 2, 1), (1, 2, -1), (1, 3, -2)] i j =
    fileEntry 7 [(1, 1, 1), (1, 3, -2)] i j := by decide
  have hv : ∀ i, i < 2 → ∀ j, j < 3 → fileEntry 7 [(1, 1, 1), (1, 3, -2)] i j =
    (if i = 0 then (1 : ZMod 7) else 0) * (if j = 0 then 1 else if j = 2 then 5 else 0) := by decide
  have hnz : exCancelCsr.NoZero := by unfold Csr.NoZero; decide
  have hnd : exCancelCsr.NoDup := by
    have h0 : ∀ i : Fin 2, ∀ k : Fin 3, ∀ l : Fin 3,
      ¬(exCancelCsr.p.g i ≤ k ∧ k < exCancelCsr.p.g (i + 1) ∧ exCancelCsr.p.g i ≤ l ∧ l < exCancelCsr.p.g (i + 1) ∧
        exCancelCsr.j.g k = exCancelCsr.j.g l ∧ k.1 ≠ l.1) := by decide
    have h3 : ∀ i, i < 2 → exCancelCsr.p.g (i + 1) ≤ 3 := by decide
    intro i hi k l h1 h2 h4 h5 h6
    have := h3 i hi
    by_contra h7
    exact h0 ⟨i, hi⟩ ⟨k, by omega⟩ ⟨l, by omega⟩ ⟨h1, h2, h4, h5, h6, h7⟩
  have : Fact (Nat.Prime 7) := ⟨by norm_num⟩
  refine ⟨exCancelFile_file, exPlainFile_file, ?_, ?_, ?_⟩
  · ext i j
    exact hm i i.2 j j.2
  · obtain ⟨h, e⟩ := exCancelCsr_input
    rw [rank_of_input hx e exCancelCsr_wfv hnd hnz, exCancelCsr_rank]
  · exact rank_outer (by norm_num) hx exPlainFile_file hd.noCancel (fun i => if i = 0 then (1 : ZMod 7) else 0)
      (fun j => if j = 0 then 1 else if j = 2 then 5 else 0) hv

/-- There is such a method. -/
example : tool_rank default exJw default exDenseEnv exDenseOpts exCancelFile ((7 : ℕ) : Int) false = .ok 2 :=
  (C82_cancel _ _ exExact).2.2.2.1

end Spasm
