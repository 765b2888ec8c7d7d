import Verif.Proofs.Truncate
import Verif.Props.Io
import Verif.Props.CertFile

/-!
C77: a program that stops while it writes a file (crash, disk full: the results of `fprintf` and `fclose` are not
checked by the code) leaves the beginning of the file.  The next program must refuse it.
-/

namespace Spasm

open Sha

/-- C77 (matrices). `spasm_csr_save` and `spasm_triplet_save`: whenever the writing of a matrix stops before its end,
wherever this is (also in the middle of a number), the file that remains is refused by `spasm_triplet_load`, whatever the
field, with or without the computation of the hash.  The only exception is the file that lacks only its last newline, see
`C77_newline`. -/
theorem C77_matrix (jk : Junk) (jw : Nat → W) {vals : Bool} {q : ℕ} {prime : Int} (hp : LoadField vals q prime)
    (hash : Option (Array B)) {A : Csr} (hA : A.WF) (hn : A.n < 2 ^ 31) (hm : A.m < 2 ^ 31)
    (hx : ∀ k, k < A.p.g A.n → |A.val k| < 2 ^ 63) {T : Triplet} (hT : T.WF) (hTn : T.n < 2 ^ 31)
    (hTm : T.m < 2 ^ 31) (hTx : ∀ k, k < T.nz → |T.val k| < 2 ^ 63) :
    Ok (csr_save A) (fun text => ∀ k, k + 1 < text.length →
      triplet_load jk jw (text.take k) prime hash = .error .exitErr) ∧
    Ok (triplet_save T) (fun text => ∀ k, k + 1 < text.length →
      triplet_load jk jw (text.take k) prime hash = .error .exitErr) := by
  have key : ∀ {n m : Nat} {l : List (Nat × Nat × Int)}, Fits n m l → ∀ k, k + 1 < (saveText n m l).length →
      triplet_load jk jw ((saveText n m l).take k) prime hash = .error .exitErr := by
    intro n m l h k hk
    refine load_truncated jk jw hp h hash (u := (saveText n m l).drop k) (List.take_append_drop _ _).symm ?_ ?_
    · intro e
      have := congrArg List.length e
      simp only [List.length_drop, List.length_nil] at this
      omega
    · intro e
      have := congrArg List.length e
      simp only [List.length_drop, List.length_cons, List.length_nil] at this
      omega
  constructor
  · refine (csr_save_spec hA).mono ?_
    rintro text rfl
    exact key (csr_fits hA hn hm hx)
  · refine (triplet_save_spec hT).mono ?_
    rintro text rfl
    exact key (triplet_fits hT hTn hTm hTx)

/-- C77 (matrices). A saved matrix that lacks only its last newline is loaded as the complete file (compare `C41_csr`). -/
theorem C77_newline (jk : Junk) (jw : Nat → W) {q : ℕ} {A : Csr} (hA : A.WFV q) (hn : A.n < 2 ^ 31)
    (hm : A.m < 2 ^ 31) {hash : Option (Array B)} (hh : HashBuf hash) :
    Ok (csr_save A) (fun text => Ok (triplet_load jk jw text.dropLast q hash) (fun r =>
      r.1.WF ∧ r.1.n = A.n ∧ r.1.m = A.m ∧ r.1.F.p = q ∧ ∀ i j, i < A.n → r.1.sum q i j = A.entry q i j)) := by
  refine (csr_save_spec hA.toWF).mono ?_
  rintro text rfl
  have hfit := csr_fits hA.toWF hn hm (fun k hk => small_lt hA.good (hA.small k hk))
  refine (load_newline jk jw (.inl ⟨rfl, rfl, hA.good.two_le, hA.good.le_max⟩) hfit hh).mono ?_
  rintro r ⟨h1, h2⟩
  obtain ⟨d1, d2⟩ := h1.dims hfit
  refine ⟨h1.wf, d1, d2, h2, ?_⟩
  intro i j hi
  rw [Triplet.sum_eq, tsum_stored h1.lst, Csr.entry_eq_tsum q hi]

/-- C77 (certificates). A certificate file that ends before its third line is refused. -/
theorem C77_certificate_partial (jk : Junk) (jc : Nat → Char) (c0 : Cert) {c : Cert} (h : c.Fits) :
    Ok (certificate_save c) (fun text => ∀ k, k ≤ (fmtD c.r).length + (fmtD c.prime).length + 2 →
      Ok (certificate_load jk jc c0 (text.take k)) (fun x => x.1 = false)) := by
  refine (certificate_save_spec h).mono ?_
  rintro text rfl k hk
  refine cert_load_short jk jc c0 h ?_
  have e : fmtD c.r ++ '\n' :: (fmtD c.prime ++ ['\n']) <+: certText c := by
    refine List.IsPrefix.trans ?_ (certText_head c)
    refine ⟨hashText c.hash ++ ['\n'], ?_⟩
    unfold certHead; simp
  refine List.prefix_of_prefix_length_le (List.take_prefix _ _) e ?_
  simp only [List.length_append, List.length_cons, List.length_nil]
  have := List.length_take_le k (certText c)
  omega

/-- C77 (certificates), defect: for every certificate, the file that ends after the third line (before the positions and
the values) is accepted by `spasm_rank_certificate_load`, which returns a certificate whose four lists are what the memory
contained. -/
theorem C77_certificate_lost (jk : Junk) (jc : Nat → Char) {c0 c : Cert} (h0 : c0.hash.size = 32) (h : c.Fits) :
    Ok (certificate_save c) (fun text => ∃ k, k + 4 ≤ text.length ∧
      certificate_load jk jc c0 (text.take k) = .ok (true, ⟨c.r, c.prime, c.hash, mkArr c.r jk.int, mkArr c.r jk.int,
        mkArr c.r jk.int, mkArr c.r jk.int⟩)) := by
  refine (certificate_save_spec h).mono ?_
  rintro text rfl
  refine ⟨(certHead c).length, ?_, ?_⟩
  · unfold certHead certText
    simp only [List.length_append, List.length_cons, List.length_nil]
    omega
  · rw [List.prefix_iff_eq_take.mp (certText_head c) |>.symm]
    exact cert_load_head jk jc h0 h

/-- A MatrixMarket file whose last number has two digits. -/
def exMmCut : List Char := "%%MatrixMarket matrix coordinate integer general\n2 3 2\n1 2 -9\n2 3 12\n".toList

/-- What remains of it without the last digit. -/
def exMmCut' : List Char := "%%MatrixMarket matrix coordinate integer general\n2 3 2\n1 2 -9\n2 3 1".toList

/-- C77, MatrixMarket format (which the code reads but does not write): a file that ends in the middle of its last number
is accepted; modulo 101 the last entry is 1 instead of 12. -/
theorem C77_mm_cut : IsMm exMmCut 2 3 [(1, 2, -9), (2, 3, 12)] ∧ exMmCut' <+: exMmCut ∧
    (match triplet_load default default exMmCut' 101 none with
      | .ok r => decide (r.1.lst = [(0, 1, -9), (1, 2, 1)])
      | .error _ => false) = true := by
  refine ⟨⟨"%%MatrixMarket matrix coordinate integer general".toList, [],
    "2 3 2".toList, ["1 2 -9".toList, "2 3 12".toList], [], ⟨⟨by decide, by decide, by decide⟩, [' '], [' '], [' '],
      [' '], "matrix".toList, "coordinate".toList, "integer".toList, "general".toList, [], by simp [Blank],
      by simp [Blank], by simp [Blank], by simp [Blank], by simp, by simp, by simp, by decide, by decide, by decide,
      by decide, by simp, by decide⟩, by simp, ?_, ?_, by simp, by decide +kernel⟩, ⟨"2\n".toList, by decide +kernel⟩, ?_⟩
  · exact ⟨⟨by decide, by decide, by decide⟩, [], [' '], [' '], [], by simp [Blank], by simp [Blank],
      by simp [Blank], by simp, by simp, by simp, by decide +kernel⟩
  · exact .cons ⟨⟨by decide, by decide, by decide⟩, [], [' '], [' '], [], by simp [Blank], by simp [Blank],
      by simp [Blank], by simp, by simp, by simp, by decide +kernel⟩ (.cons ⟨⟨by decide, by decide, by decide⟩, [],
        [' '], [' '], [], by simp [Blank], by simp [Blank], by simp [Blank], by simp, by simp, by simp,
        by decide +kernel⟩ .nil)
  · decide +kernel

/-- The hypotheses of `C77_matrix`, `C77_newline`, `C77_certificate_partial` and `C77_certificate_lost` are met. -/
example : exTwo.WFV 7 ∧ exTwo.WF ∧ exTwo.n < 2 ^ 31 ∧ exTwo.m < 2 ^ 31 ∧
    (∀ k, k < exTwo.p.g exTwo.n → |exTwo.val k| < 2 ^ 63) ∧ exT.WF ∧ exT.n < 2 ^ 31 ∧ exT.m < 2 ^ 31 ∧
    (∀ k, k < exT.nz → |exT.val k| < 2 ^ 63) ∧ LoadField true 7 7 ∧ HashBuf (some exHash0) ∧ exCert.Fits :=
  ⟨Csr.wfv_of_check (by decide +kernel), Csr.wf_of_check (by decide +kernel), by decide, by decide, by decide +kernel,
    exT_wfv.toWF, by decide, by decide, by decide +kernel, .inl ⟨rfl, rfl, by decide, by decide⟩,
    by rintro md h; cases h; rfl, exCert_fits⟩

/-- Some of the files that are refused: the last one stops in the middle of the number of a column. -/
example : ["".toList, "2 2".toList, "2 2 M\n".toList, "2 2 M\n1 1 1\n1 2 1\n2 1 1\n2 2 2\n0 0 ".toList,
      "2 2 M\n1 1 1\n1 2".toList].all (fun t =>
        decide (t <+: "2 2 M\n1 1 1\n1 2 1\n2 1 1\n2 2 2\n0 0 0\n".toList) &&
        match triplet_load default default t 7 none with | .error .exitErr => true | _ => false) = true := by
  decide +kernel

end Spasm
