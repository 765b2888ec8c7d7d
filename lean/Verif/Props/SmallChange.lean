import Verif.Props.Invariant

/-!
C89: the rank and small changes of the file.
-/

namespace Spasm

open Sha Finset

/-- All the rows but those of `S` are in the row space of another matrix. -/
theorem rank_le_add {q : ℕ} [Fact q.Prime] {n n' m : Nat} {l l' : List (Int × Int × Int)} (S : Finset (Fin n'))
    (h : ∀ i, i ∉ S → fileMat q n' m l' i ∈ fileRows q n m l) :
    (fileMat q n' m l').rank ≤ (fileMat q n m l).rank + S.card := by
  classical
  have hle : fileRows q n' m l' ≤ fileRows q n m l ⊔ Submodule.span (ZMod q) (S.image (fileMat q n' m l') : Finset _) := by
    refine Submodule.span_le.mpr ?_
    rintro _ ⟨i, rfl⟩
    by_cases hi : i ∈ S
    · exact Submodule.mem_sup_right (Submodule.subset_span (mem_coe.mpr (mem_image_of_mem _ hi)))
    · exact Submodule.mem_sup_left (h i hi)
  rw [Matrix.rank_eq_finrank_span_row, Matrix.rank_eq_finrank_span_row]
  refine (Submodule.finrank_mono hle).trans ((Submodule.finrank_add_le_finrank_add_finrank _ _).trans ?_)
  exact Nat.add_le_add_left ((finrank_span_finset_le_card _).trans card_image_le) _

/-- Rows that are not changed. -/
theorem rank_changed {q : ℕ} [Fact q.Prime] {n m : Nat} {l l' : List (Int × Int × Int)} (S : Finset Nat)
    (h : ∀ i j, i < n → j < m → i ∉ S → fileEntry q l' i j = fileEntry q l i j) :
    (fileMat q n m l').rank ≤ (fileMat q n m l).rank + S.card := by
  classical
  refine (rank_le_add (l := l) (n := n) (univ.filter fun i : Fin n => (i : Nat) ∈ S) fun i hi => ?_).trans
    (Nat.add_le_add_left ?_ _)
  · have hi : (i : Nat) ∉ S := fun e => hi (mem_filter.mpr ⟨mem_univ _, e⟩)
    refine Submodule.subset_span ⟨i, ?_⟩
    ext j
    exact (h i j i.isLt j.isLt hi).symm
  · exact card_le_card_of_injOn (fun i : Fin n => (i : Nat)) (fun i hi => (mem_filter.mp hi).2)
      (fun a _ b _ h => Fin.ext h)

section
variable {q : ℕ} [Fact q.Prime] (hq : q ≤ 0xfffffffb) {f f' : List Char} {l l' : List (Int × Int × Int)}
  (hc : NoCancel q l) (hc' : NoCancel q l') (jk jk' : Junk) (jw jw' : Nat → W) (h0 h0' : Nat → B) (env env' : Env)
  (opts opts' : Opts) (hx : Exact jk q env opts) (hx' : Exact jk' q env' opts')
include hq hc hc' hx hx'

/-- C89 (rows). If only `k` rows are changed, the rank printed changes by `k` at most. -/
theorem C89_rows {n m : Nat} (hf : IsFile f n m l) (hf' : IsFile f' n m l') (S : Finset Nat)
    (h : ∀ i j, i < n → j < m → i ∉ S → fileEntry q l' i j = fileEntry q l i j) (allow allow' : Bool) :
    ∃ r r', tool_rank jk jw h0 env opts f q allow = .ok r ∧ tool_rank jk' jw' h0' env' opts' f' q allow' = .ok r' ∧
      r ≤ r' + S.card ∧ r' ≤ r + S.card := by
  obtain ⟨_, e, rfl⟩ := Ok_iff.mp (rank_exact jk jw env opts hq hf hc hx h0 allow)
  obtain ⟨_, e', rfl⟩ := Ok_iff.mp (rank_exact jk' jw' env' opts' hq hf' hc' hx' h0' allow')
  exact ⟨_, _, e, e', rank_changed S fun i j hi hj hS => (h i j hi hj hS).symm, rank_changed S h⟩

/-- C89 (columns). If only `k` columns are changed, the rank printed changes by `k` at most. -/
theorem C89_columns {n m : Nat} (hf : IsFile f n m l) (hf' : IsFile f' n m l') (S : Finset Nat)
    (h : ∀ i j, i < n → j < m → j ∉ S → fileEntry q l' i j = fileEntry q l i j) (allow allow' : Bool) :
    ∃ r r', tool_rank jk jw h0 env opts f q allow = .ok r ∧ tool_rank jk' jw' h0' env' opts' f' q allow' = .ok r' ∧
      r ≤ r' + S.card ∧ r' ≤ r + S.card := by
  obtain ⟨_, e, rfl⟩ := Ok_iff.mp (rank_exact jk jw env opts hq hf hc hx h0 allow)
  obtain ⟨_, e', rfl⟩ := Ok_iff.mp (rank_exact jk' jw' env' opts' hq hf' hc' hx' h0' allow')
  have t : ∀ l : List (Int × Int × Int), (fileMat q n m l).rank = (fileMat q m n (flipped l)).rank := fun l => by
    rw [fileMat_flipped, Matrix.rank_transpose]
  refine ⟨_, _, e, e', ?_, ?_⟩ <;> rw [t l, t l']
  · exact rank_changed S fun i j hi hj hS => by
      rw [fileEntry_flipped, fileEntry_flipped, h j i hj hi hS]
  · exact rank_changed S fun i j hi hj hS => by
      rw [fileEntry_flipped, fileEntry_flipped, h j i hj hi hS]

/-- C89 (more rows). If rows are added, the rank printed does not decrease, and increases by their number at most. -/
theorem C89_append {n n' m : Nat} (hf : IsFile f n m l) (hf' : IsFile f' n' m l') (hn : n ≤ n')
    (h : ∀ i j, i < n → j < m → fileEntry q l' i j = fileEntry q l i j) (allow allow' : Bool) :
    ∃ r r', tool_rank jk jw h0 env opts f q allow = .ok r ∧ tool_rank jk' jw' h0' env' opts' f' q allow' = .ok r' ∧
      r ≤ r' ∧ r' ≤ r + (n' - n) := by
  classical
  obtain ⟨_, e, rfl⟩ := Ok_iff.mp (rank_exact jk jw env opts hq hf hc hx h0 allow)
  obtain ⟨_, e', rfl⟩ := Ok_iff.mp (rank_exact jk' jw' env' opts' hq hf' hc' hx' h0' allow')
  refine ⟨_, _, e, e', ?_, ?_⟩
  · refine (rank_le_add (l := l') (n := n') ∅ fun i _ => ?_).trans (by simp)
    refine Submodule.subset_span ⟨⟨i, by omega⟩, ?_⟩
    ext j
    exact h i j i.isLt j.isLt
  · refine (rank_le_add (l := l) (n := n) (univ.filter fun i : Fin n' => n ≤ (i : Nat)) fun i hi => ?_).trans
      (Nat.add_le_add_left ?_ _)
    · have hi : (i : Nat) < n := by
        by_contra hge
        exact hi (mem_filter.mpr ⟨mem_univ _, by omega⟩)
      refine Submodule.subset_span ⟨⟨i, hi⟩, ?_⟩
      ext j
      exact (h i j hi j.isLt).symm
    · refine (card_le_card_of_injOn (t := Finset.Ico n n') (fun i : Fin n' => (i : Nat)) (fun i hi => ?_)
        (fun a _ b _ h => Fin.ext h)).trans (by rw [Nat.card_Ico])
      have := (mem_filter.mp hi).2
      simp only [coe_Ico, Set.mem_Ico]
      exact ⟨this, i.isLt⟩

end

/-! ### An example -/

/-- The matrix of `exSms` modulo 7 with another first row. -/
def exChanged : List Char := "2 3 M\n1 1 8\n2 1 1\n0 0 0\n".toList

theorem exChanged_file : IsFile exChanged 2 3 [(1, 1, 8), (2, 1, 1)] := by
  refine ⟨.inl ?_, by decide, by decide, by decide, by decide, by decide⟩
  refine ⟨"2 3 M".toList, ["1 1 8".toList, "2 1 1".toList], "0 0 0".toList, [],
    ⟨⟨by decide, by decide, by decide⟩, [], [' '], [' '], [], by simp [Blank], by simp [Blank],
      by simp [Blank], by simp, by decide +kernel⟩, .cons ?_ (.cons ?_ .nil), ?_, by simp, by decide +kernel⟩ <;>
  exact ⟨⟨by decide, by decide, by decide⟩, [], [' '], [' '], [], by simp [Blank], by simp [Blank],
      by simp [Blank], by simp, by simp, by simp, by decide +kernel⟩

theorem exChanged_row : ∀ i, i < 2 → ∀ j, j < 3 → i ∉ ({0} : Finset Nat) →
    fileEntry 7 [(1, 1, 8), (2, 1, 1)] i j = fileEntry 7 exSmsList i j := by decide

/-- One row of `exSms` is changed: the rank printed changes by one at most. -/
example : ∃ r r', tool_rank default exJw default exDenseEnv exDenseOpts exSms ((7 : ℕ) : Int) true = .ok r ∧
    tool_rank default exJw default exDenseEnv exDenseOpts exChanged ((7 : ℕ) : Int) true = .ok r' ∧
    r ≤ r' + 1 ∧ r' ≤ r + 1 := by
  have : Fact (Nat.Prime 7) := ⟨by norm_num⟩
  have hd : Distinct [(1, 1, 8), (2, 1, 1)] := by unfold Distinct; decide
  exact C89_rows (by norm_num) (exSms_noCancel 7) hd.noCancel default default exJw exJw default default exDenseEnv
    exDenseEnv exDenseOpts exDenseOpts exExact exExact exSms_file exChanged_file {0}
    (fun i j hi hj => exChanged_row i hi j hj) true true

theorem exAppend_file : IsFile "1 3 M\n1 2 5\n0 0 0\n".toList 1 3 [(1, 2, 5)] := by
  refine ⟨.inl ?_, by decide, by decide, by decide, by decide, by decide⟩
  refine ⟨"1 3 M".toList, ["1 2 5".toList], "0 0 0".toList, [],
    ⟨⟨by decide, by decide, by decide⟩, [], [' '], [' '], [], by simp [Blank], by simp [Blank],
      by simp [Blank], by simp, by decide +kernel⟩, .cons ?_ .nil, ?_, by simp, by decide +kernel⟩ <;>
  exact ⟨⟨by decide, by decide, by decide⟩, [], [' '], [' '], [], by simp [Blank], by simp [Blank],
      by simp [Blank], by simp, by simp, by simp, by decide +kernel⟩

/-- A row is added: the hypotheses of `C89_append` are met (modulo 7); those of `C89_columns` are, for `exSms` and
`exChanged`, with the first two columns. -/
example : IsFile "1 3 M\n1 2 5\n0 0 0\n".toList 1 3 [(1, 2, 5)] ∧ IsFile exSms 2 3 exSmsList ∧
    (∀ i, i < 1 → ∀ j, j < 3 → fileEntry 7 exSmsList i j = fileEntry 7 [(1, 2, 5)] i j) ∧
    ∀ i, i < 2 → ∀ j, j < 3 → j ∉ ({0, 1} : Finset Nat) →
      fileEntry 7 [(1, 1, 8), (2, 1, 1)] i j = fileEntry 7 exSmsList i j :=
  ⟨exAppend_file, exSms_file, by decide, by decide⟩

end Spasm
