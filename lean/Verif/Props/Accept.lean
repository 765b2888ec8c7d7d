import Verif.Proofs.LaxStrict
import Verif.Props.IoAny

/-!
C79: exactly which files are accepted, and what matrix they give.

`LaxFile` and `Fit` are specified in Spec/Lax.lean, `Loaded` in Spec/Loaded.lean.
-/

namespace Spasm

open Sha

/-- C79 (soundness). Whatever is accepted is in the format, its numbers fit in the types of the program, and the
matrix is the one that the file describes. -/
theorem C79_sound (jk : Junk) (jw : Nat → W) {vals : Bool} {q : ℕ} {prime : Int} (hp : LoadField vals q prime)
    {f : List Char} (hf : NoNul f) {hash : Option (Array B)} (hh : HashBuf hash) {r : Triplet × Option (Array B)}
    (hr : triplet_load jk jw f prime hash = .ok r) :
    ∃ n m l, LaxFile vals f n m l ∧ Fit n m l ∧ Loaded vals q n m l r.1 :=
  (load_sound jk jw hp hf hh).val hr

/-- C79 (completeness). Every file of the format whose numbers fit is accepted. -/
theorem C79_complete (jk : Junk) (jw : Nat → W) {vals : Bool} {q : ℕ} {prime : Int} (hp : LoadField vals q prime)
    {f : List Char} (hf : NoNul f) {n m : Int} {l : List (Int × Int × Int)} (hl : LaxFile vals f n m l)
    (hfit : Fit n m l) {hash : Option (Array B)} (hh : HashBuf hash) :
    Ok (triplet_load jk jw f prime hash) (fun r => Loaded vals q n m l r.1) :=
  load_lax jk jw hp hf hl hfit hh

/-- C79. The accepted files are exactly those of the format whose numbers fit. -/
theorem C79_exact (jk : Junk) (jw : Nat → W) {vals : Bool} {q : ℕ} {prime : Int} (hp : LoadField vals q prime)
    {f : List Char} (hf : NoNul f) {hash : Option (Array B)} (hh : HashBuf hash) :
    (∃ r, triplet_load jk jw f prime hash = .ok r) ↔ ∃ n m l, LaxFile vals f n m l ∧ Fit n m l := by
  constructor
  · rintro ⟨r, hr⟩
    obtain ⟨n, m, l, h1, h2, -⟩ := C79_sound jk jw hp hf hh hr
    exact ⟨n, m, l, h1, h2⟩
  · rintro ⟨n, m, l, h1, h2⟩
    obtain ⟨r, hr, -⟩ := Ok_iff.mp (C79_complete jk jw hp hf h1 h2 hh)
    exact ⟨r, hr⟩

/-- C79 (the other files). If moreover the numbers are less than `2^31` and the dimensions are not negative, every
other file is refused with an error message or a failed assertion. -/
theorem C79_refused (jk : Junk) (jw : Nat → W) {vals : Bool} {q : ℕ} {prime : Int} (hp : LoadField vals q prime)
    {f : List Char} (hf : NoNul f) (hnum : Nums f) (hmin : NoMinus f) {hash : Option (Array B)} (hh : HashBuf hash)
    (h : ¬ ∃ n m l, LaxFile vals f n m l ∧ Fit n m l) :
    triplet_load jk jw f prime hash = .error .exitErr ∨ triplet_load jk jw f prime hash = .error .assertFail := by
  rcases C49_load_safe jk jw hp hnum hmin hh with ⟨r, hr, -⟩ | h'
  · exact absurd ((C79_exact jk jw hp hf hh).mp ⟨r, hr⟩) h
  · exact h'

/-- C79 (no ambiguity). A file describes at most one matrix. -/
theorem C79_unique {vals : Bool} {f : List Char} {n m n' m' : Int} {l l' : List (Int × Int × Int)}
    (h : LaxFile vals f n m l) (hf : Fit n m l) (h' : LaxFile vals f n' m' l') (hf' : Fit n' m' l') :
    n = n' ∧ m = m' ∧ l = l' :=
  h.unique hf h' hf'

/-- C79 (the documented formats). The files of the documented formats (C41) are accepted ones. -/
theorem C79_documented (vals : Bool) {f : List Char} {n m : Int} {l : List (Int × Int × Int)}
    (h : IsSms f n m l ∨ IsMm f n m l ∧ l ≠ [] ∧ l.length < 2 ^ 63) : LaxFile vals f n m l ∧ NoNul f := by
  rcases h with h | ⟨h, h1, h2⟩
  · exact h.lax vals
  · exact h.lax vals h1 h2

/-- The hypotheses of `C79_complete` and `C79_unique` are met in both formats. -/
example : (LaxFile true exSms 2 3 [(1, 2, -9), (2, 3, 14), (2, 1, 1)] ∧ NoNul exSms ∧
      Fit 2 3 [(1, 2, -9), (2, 3, 14), (2, 1, 1)]) ∧
    (LaxFile true exMm 2 3 [(1, 2, -9), (2, 3, 5)] ∧ NoNul exMm ∧ Fit 2 3 [(1, 2, -9), (2, 3, 5)]) :=
  ⟨⟨(C79_documented true (.inl exSms_is)).1, (C79_documented true (.inl exSms_is)).2, by decide, by decide, by decide,
      by decide, by decide⟩,
    (C79_documented true (.inr ⟨exMm_is, by simp, by simp⟩)).1, (C79_documented true (.inr ⟨exMm_is, by simp, by simp⟩)).2,
    by decide, by decide, by decide, by decide, by decide⟩

/-- C79 (the values are a matter of `vals` only). A file accepted with a prime is accepted with every other prime,
and for the positions only. -/
theorem C79_prime (jk jk' : Junk) (jw jw' : Nat → W) {q : ℕ} {prime : Int} (hp : LoadField true q prime) {vals' : Bool}
    {q' : ℕ} {prime' : Int} (hp' : LoadField vals' q' prime') {f : List Char} (hf : NoNul f)
    {hash hash' : Option (Array B)} (hh : HashBuf hash) (hh' : HashBuf hash') {r : Triplet × Option (Array B)}
    (hr : triplet_load jk jw f prime hash = .ok r) : ∃ r', triplet_load jk' jw' f prime' hash' = .ok r' := by
  obtain ⟨n, m, l, h1, h2, -⟩ := C79_sound jk jw hp hf hh hr
  refine (C79_exact jk' jw' hp' hf hh').mpr ⟨n, m, l, ?_, h2⟩
  rcases h1 with ⟨h, tl, z, g, ⟨w1, s1, w2, s2, w3, c, t, v1, v2, v3, n1, n2, d2, d3, hc, hM, hb⟩, k2, k3, k4⟩ | h1
  · exact .inl ⟨h, tl, z, g, ⟨w1, s1, w2, s2, w3, c, t, v1, v2, v3, n1, n2, d2, d3, hc, fun _ => hM rfl, hb⟩, k2, k3, k4⟩
  · exact .inr h1

/-! ### Consequences that may surprise -/

theorem spaces_nil : Spaces [] := by simp [Spaces]

theorem spaces_one : Spaces [' '] := by simp [Spaces, Space]

theorem notDigit_of {c : Char} {t : List Char} (h : c.isDigit = false) : NotDigit (c :: t) := by
  intro d hd
  simp only [List.head?_cons, Option.some.injEq] at hd
  rw [← hd]; exact h

theorem numeral_digits {d : List Char} (h : d ≠ []) (h' : ∀ c ∈ d, c.isDigit = true) :
    Numeral d (Nat.ofDigitChars 10 d 0 : Int) := ⟨[], d, rfl, h, h', .inl ⟨.inl rfl, rfl⟩⟩

/-- Three numbers separated by one space. -/
theorem laxEntry_of {s1 s2 s3 t : List Char} {e : Int × Int × Int} (h1 : Numeral s1 e.1) (h2 : Numeral s2 e.2.1)
    (h3 : Numeral s3 e.2.2) (ht : NotDigit t) : LaxEntry (s1 ++ ' ' :: (s2 ++ ' ' :: (s3 ++ t))) e :=
  ⟨[], s1, [' '], s2, [' '], s3, t, spaces_nil, spaces_one, spaces_one, h1, h2, h3, notDigit_of (by decide),
    notDigit_of (by decide), ht, by simp⟩

/-- A file with one entry whose value is `0.` followed by anything. -/
def decFile (t : List Char) : List Char := "1 1 M\n1 1 0.".toList ++ t ++ "\n0 0 0\n".toList

theorem decFile_lax {t : List Char} (h1 : '\n' ∉ t) (h2 : t.length ≤ 1000) : LaxFile true (decFile t) 1 1 [(1, 1, 0)] := by
  refine .inl ⟨"1 1 M\n".toList, ["1 1 0.".toList ++ t ++ ['\n']], "0 0 0\n".toList, [], ?_, .cons ?_ .nil, ?_, ?_⟩
  · exact ⟨[], ['1'], [' '], ['1'], [' '], 'M', ['\n'], spaces_nil, spaces_one, spaces_one,
      ⟨[], ['1'], rfl, by simp, by decide, .inl ⟨.inl rfl, by decide⟩⟩,
      ⟨[], ['1'], rfl, by simp, by decide, .inl ⟨.inl rfl, by decide⟩⟩, notDigit_of (by decide),
      notDigit_of (by decide), by unfold Space; decide, fun _ => rfl, by decide⟩
  · exact laxEntry_of (s1 := ['1']) (s2 := ['1']) (s3 := ['0']) (t := '.' :: (t ++ ['\n']))
      ⟨[], ['1'], rfl, by simp, by decide, .inl ⟨.inl rfl, by decide⟩⟩
      ⟨[], ['1'], rfl, by simp, by decide, .inl ⟨.inl rfl, by decide⟩⟩
      ⟨[], ['0'], rfl, by simp, by decide, .inl ⟨.inl rfl, by decide⟩⟩ (notDigit_of (by decide))
  · exact laxEntry_of (s1 := ['0']) (s2 := ['0']) (s3 := ['0']) (t := ['\n'])
      ⟨[], ['0'], rfl, by simp, by decide, .inl ⟨.inl rfl, by decide⟩⟩
      ⟨[], ['0'], rfl, by simp, by decide, .inl ⟨.inl rfl, by decide⟩⟩
      ⟨[], ['0'], rfl, by simp, by decide, .inl ⟨.inl rfl, by decide⟩⟩ (notDigit_of (by decide))
  · have k3 : Lines "0 0 0\n".toList ["0 0 0\n".toList] :=
      Lines.cons "0 0 0".toList [] [] (by decide) (by decide) .nil
    have k2 := Lines.cons ("1 1 0.".toList ++ t) _ _ (by simp [h1]) (by simp; omega) k3
    have k1 := Lines.cons "1 1 M".toList _ _ (by decide) (by decide) k2
    have e : decFile t = "1 1 M".toList ++ '\n' :: ("1 1 0.".toList ++ t ++ '\n' :: "0 0 0\n".toList) := by
      unfold decFile
      simp
    rw [e]
    exact k1

/-- C79 (decimals are cut). A value in decimal notation is cut at the point without any warning: whatever the
decimals, `0.…` is read as zero, so that the entry disappears. -/
theorem C79_decimals (jk : Junk) (jw : Nat → W) {q : ℕ} {prime : Int} (hp : LoadField true q prime) {t : List Char}
    (h1 : '\n' ∉ t) (h2 : t.length ≤ 1000) (h3 : NoNul t) {hash : Option (Array B)} (hh : HashBuf hash) :
    Ok (triplet_load jk jw (decFile t) prime hash) (fun r => r.1.n = 1 ∧ r.1.m = 1 ∧ r.1.lst = []) := by
  have hn : NoNul (decFile t) := by
    intro c hc
    unfold decFile at hc
    rcases List.mem_append.mp hc with hc | hc
    · rcases List.mem_append.mp hc with hc | hc
      · exact (by decide : ∀ c ∈ "1 1 M\n1 1 0.".toList, c.toNat ≠ 0) c hc
      · exact h3 c hc
    · exact (by decide : ∀ c ∈ "\n0 0 0\n".toList, c.toNat ≠ 0) c hc
  refine (C79_complete jk jw hp hn (decFile_lax h1 h2) ⟨by decide, by decide, by decide, by decide, by decide⟩ hh).mono ?_
  rintro r ⟨-, a1, a2, a3⟩
  have hk : [((1 : Int), (1 : Int), (0 : Int))].filter (kept true q) = [] := by simp [kept]
  rw [hk] at a1 a2 a3
  simp only [List.foldl_nil] at a1 a2
  refine ⟨by omega, by omega, ?_⟩
  cases h : r.1.lst with
  | nil => rfl
  | cons _ _ => rw [h] at a3; cases a3

/-- The file is accepted and gives a 2 × 3 matrix with -3 in row 0, column 1. -/
def loadsAs (f : String) : Bool :=
  match triplet_load default exJw f.toList 7 none with
  | .ok (T, _) => decide (T.n = 2) && decide (T.m = 3) && decide (T.lst = [(0, 1, -3)])
  | .error _ => false

/-- The hypotheses are met, for instance by "0.5". -/
example : LoadField true 7 7 ∧ '\n' ∉ ['5'] ∧ ['5'].length ≤ 1000 ∧ NoNul ['5'] ∧ HashBuf none ∧
    decFile ['5'] = "1 1 M\n1 1 0.5\n0 0 0\n".toList :=
  ⟨.inl ⟨rfl, rfl, by decide, by decide⟩, by decide, by decide, by unfold NoNul; decide,
    (fun _ h => nomatch h), by decide⟩

/-- Files that are accepted although they are not well-formed: numbers that are not separated, decimals, text after
the numbers, no newline at the end, lines ended by CR LF, a second matrix after the end. -/
example : loadsAs "2 3 M\n1+2-3\n0 0 0\n" = true ∧ loadsAs "2 3 M\n1 2 -3.9e5\n0 0 0\n" = true ∧
    loadsAs "2 3 Mod 11\n1 2 -3 4 5\n0 0 0" = true ∧ loadsAs "2 3 M\r\n1 2 -3\r\n0 0 0\r\n" = true ∧
    loadsAs "2 3 M\n1 2 -3\n0 0 0\n2 2 M\n1 1 1\n0 0 0\n" = true := by
  decide +kernel

/-- Files that are refused: an empty line between the entries, a comment in SMS, no end marker, a real or symmetric
matrix. -/
example :
    loadEnds (triplet_load default exJw "2 3 M\n\n1 2 3\n0 0 0\n".toList 7 none) = some .exitErr ∧
    loadEnds (triplet_load default exJw "2 3 M\n# x\n1 2 3\n0 0 0\n".toList 7 none) = some .exitErr ∧
    loadEnds (triplet_load default exJw "2 3 M\n1 2 3\n".toList 7 none) = some .exitErr ∧
    loadEnds (triplet_load default exJw "%%MatrixMarket matrix coordinate real general\n2 3 1\n1 2 3\n".toList 7
      none) = some .exitErr ∧
    loadEnds (triplet_load default exJw "%%MatrixMarket matrix coordinate integer symmetric\n2 3 1\n1 2 3\n".toList 7
      none) = some .exitErr := by
  decide +kernel

/-- So they are not in the format, and the hypotheses of `C79_refused` are met. -/
example : Nums "2 3 M\n1 2 3\n".toList ∧ NoMinus "2 3 M\n1 2 3\n".toList ∧ NoNul "2 3 M\n1 2 3\n".toList ∧
    ¬ ∃ n m l, LaxFile true "2 3 M\n1 2 3\n".toList n m l ∧ Fit n m l := by
  have hn : NoNul "2 3 M\n1 2 3\n".toList := by unfold NoNul; decide
  refine ⟨Nums.of_check (by decide +kernel), NoMinus.of_first (l := "2 3 M".toList) (f := "1 2 3\n".toList)
    (by decide) (by decide) (by decide), hn, fun h => ?_⟩
  obtain ⟨r, hr⟩ := (C79_exact default exJw (q := 7) (prime := 7) (.inl ⟨rfl, rfl, by decide, by decide⟩) hn
    (hash := none) (fun _ h => nomatch h)).mpr h
  have : loadEnds (triplet_load default exJw "2 3 M\n1 2 3\n".toList 7 none) = some .exitErr := by decide +kernel
  rw [hr] at this
  cases this

end Spasm
