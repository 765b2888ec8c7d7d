import Verif.Props.ToolDm

/-!
C50: the bound on the dimensions is needed for the report.
-/

namespace Spasm

open Sha

theorem load_compress (jk : Junk) (jw : Nat → W) {q : ℕ} (hq : 2 ≤ q ∧ q ≤ 0xfffffffb) {f : List Char} {n m : Nat}
    {l : List (Int × Int × Int)} (h : IsFile f n m l) (hc : NoCancel q l) :
    ∃ T md A, triplet_load jk jw f q none = .ok (T, md) ∧ compress jk T = .ok A ∧ FileCsr q n m l A := by
  obtain ⟨⟨T, md⟩, e, hT⟩ := Ok_iff.mp (load_file jk jw hq h (hash := none) (by rintro _ h; cases h))
  obtain ⟨A, e', hA⟩ := Ok_iff.mp (compress_file jk hT hc)
  exact ⟨T, md, A, e, e', hA⟩

/-- If all rows are matched, then there is no row in the vertical part. -/
theorem IsCoarse.rr_full {A : Csr} {D : Dm} (h : IsCoarse A D) (h3 : D.rr.g 3 = A.n) : D.rr.g 2 = A.n := by
  have r3 := h.rr_mono 2 (by omega)
  have r2 := h.rr_mono 1 (by omega)
  have r1 := h.rr_mono 0 (by omega)
  have r0 := h.rr_zero
  simp only [Nat.reduceAdd] at r1 r2 r3
  by_contra hne
  obtain ⟨u, h1, h2, -⟩ := h.vert (D.rr.g 2).toNat (by omega) (by omega)
  omega

theorem dm_report_overflow {A : Csr} {D : Dm} (h : IsCoarse A D) (ho : 2 ^ 31 ≤ D.rr.g 2 + A.m) :
    dm_report D = .error .ub := by
  have e : ∀ k, k < 5 → rd D.rr k = .ok (D.rr.g k) := fun k hk => by
    have : k < D.rr.size := by rw [h.rr_size]; exact hk
    unfold rd; simp [this, Array.g]
  have e' : ∀ k, k < 5 → rd D.cc k = .ok (D.cc.g k) := fun k hk => by
    have : k < D.cc.size := by rw [h.cc_size]; exact hk
    unfold rd; simp [this, Array.g]
  unfold dm_report
  simp only [e 0 (by omega), e 1 (by omega), e 2 (by omega), e 4 (by omega), e' 0 (by omega), e' 2 (by omega),
    e' 3 (by omega), e' 4 (by omega), h.cc_last, bind, Except.bind]
  have : i32 (D.rr.g 2 + A.m) = .error .ub := by
    unfold i32
    rw [if_neg (by omega)]
  rw [this]

/-- C50 (the bound on the dimensions is needed). If the rows of the matrix can all be matched (for instance if its rank
is its number of rows) and there are `2^31` rows and columns or more, `dm --verbose` adds numbers whose sum does not fit in an
`int`: undefined behaviour. -/
theorem C50_overflow (jk : Junk) (jw : Nat → W) {f : List Char} {n m : Nat} {l : List (Int × Int × Int)}
    (hf : IsFile f n m l) (hc : NoCancel 42013 l) (hnm : 2 ^ 31 ≤ n + m) {S : Finset (Nat × Nat)}
    (hS : FileMatching 42013 n m l S) (hn : S.card = n) : tool_dm_verbose jk jw f = .error .ub := by
  obtain ⟨T, md, A, e1, e2, hA⟩ := load_compress jk jw (q := 42013) (by omega) hf hc
  obtain ⟨⟨D, B⟩, e3, h1, -⟩ := Ok_iff.mp (dm_decompose_spec jk hA.wfv.toWF)
  simp only at h1
  have hAn := hA.n_eq
  have hAm := hA.m_eq
  have h3 := (C34_structural_rank A hA.wfv.toWF D h1).2.2 S ((FileMatching.iff hA).mp hS)
  have r0 := h1.rr_zero
  have r1 := h1.rr_mono 0 (by omega)
  have r2 := h1.rr_mono 1 (by omega)
  have r3 := h1.rr_mono 2 (by omega)
  have r4 := h1.rr_mono 3 (by omega)
  have rl := h1.rr_last
  simp only [Nat.reduceAdd] at r1 r2 r3 r4
  have h2 := h1.rr_full (by omega)
  unfold tool_dm_verbose
  simp only [Nat.cast_ofNat] at e1
  rw [e1]
  show (do let A ← compress jk T; let (D, _) ← dm_decompose jk A; dm_report D) = _
  rw [e2]
  show (do let (D, _) ← dm_decompose jk A; dm_report D) = _
  rw [e3]
  exact dm_report_overflow h1 (by omega)

/-- A matrix with 7 rows. -/
def exSevenFile : List Char :=
  "7 2147483641 M\n1 1 1\n2 2 1\n3 3 1\n4 4 1\n5 5 1\n6 6 1\n7 7 1\n0 0 0\n".toList

theorem exSevenFile_file : IsFile exSevenFile 7 2147483641
    [(1, 1, 1), (2, 2, 1), (3, 3, 1), (4, 4, 1), (5, 5, 1), (6, 6, 1), (7, 7, 1)] := by
  refine ⟨.inl ?_, by decide, by decide, by decide, by decide, by decide⟩
  refine ⟨"7 2147483641 M".toList, ["1 1 1".toList, "2 2 1".toList, "3 3 1".toList, "4 4 1".toList, "5 5 1".toList,
    "6 6 1".toList, "7 7 1".toList], "0 0 0".toList, [],
    ⟨⟨by decide, by decide, by decide⟩, [], [' '], [' '], [], by simp [Blank], by simp [Blank],
      by simp [Blank], by simp, by decide +kernel⟩,
      .cons ?_ (.cons ?_ (.cons ?_ (.cons ?_ (.cons ?_ (.cons ?_ (.cons ?_ .nil)))))), ?_, by simp, by decide +kernel⟩ <;>
  exact ⟨⟨by decide, by decide, by decide⟩, [], [' '], [' '], [], by simp [Blank], by simp [Blank],
      by simp [Blank], by simp, by simp, by simp, by decide +kernel⟩

/-- For this file, which the library accepts, the report is undefined behaviour. -/
example (jk : Junk) (jw : Nat → W) : tool_dm_verbose jk jw exSevenFile = .error .ub := by
  have hd : Distinct [(1, 1, 1), (2, 2, 1), (3, 3, 1), (4, 4, 1), (5, 5, 1), (6, 6, 1), (7, 7, 1)] := by
    unfold Distinct; decide
  refine C50_overflow jk jw exSevenFile_file hd.noCancel (by decide)
    (S := (Finset.range 7).image fun i => (i, i)) ⟨?_, ?_, ?_⟩ (by decide)
  · intro e he
    obtain ⟨i, hi, rfl⟩ := Finset.mem_image.mp he
    have := Finset.mem_range.mp hi
    refine ⟨this, by simp only; omega, ?_⟩
    interval_cases i <;> decide
  · intro e he e' he' h
    obtain ⟨i, _, rfl⟩ := Finset.mem_image.mp he
    obtain ⟨k, _, rfl⟩ := Finset.mem_image.mp he'
    simp only at h
    rw [h]
  · intro e he e' he' h
    obtain ⟨i, _, rfl⟩ := Finset.mem_image.mp he
    obtain ⟨k, _, rfl⟩ := Finset.mem_image.mp he'
    simp only at h
    rw [h]

end Spasm
