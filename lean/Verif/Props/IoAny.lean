import Verif.Proofs.LoadAny
import Verif.Props.Io

/-!
C48: the hash of a file of a matrix.  C49: loading any file.
-/

namespace Spasm

open Sha

/-! ### C48 -/

/-- C48. Whenever `spasm_triplet_load` accepts a file without NUL characters, the 32 bytes it writes are the SHA-256
digest (FIPS 180-4, Spec/Sha256.lean) of all the bytes of the file, including comments and what follows the
matrix. -/
theorem C48_hash (jk : Junk) (jw : Nat → W) {vals : Bool} {q : ℕ} {prime : Int} (hp : LoadField vals q prime)
    {f : List Char} (hf : NoNul f) {md : Array B} (hmd : md.size = 32) {r : Triplet × Option (Array B)}
    (hr : triplet_load jk jw f prime (some md) = .ok r) :
    ∃ md', r.2 = some md' ∧ md'.toList = Fips.sha256 (f.map byte) := by
  have h := (triplet_load_any (E := fun _ => True) trivial trivial jk jw hp (f := f) (.inr trivial)
    (hash := some md) (by rintro _ h; cases h; exact hmd)).val hr
  have h2 := h.2 hf
  cases hr2 : r.2 with
  | none => rw [hr2] at h2; cases h2
  | some md' => rw [hr2] at h2; exact ⟨md', rfl, by simpa using h2⟩

theorem sms_accepted (jk : Junk) (jw : Nat → W) {vals : Bool} {q : ℕ} {prime : Int} (hp : LoadField vals q prime)
    {f : List Char} {n m : Int} {l : List (Int × Int × Int)} (hf : IsSms f n m l)
    (hn : 0 ≤ n ∧ n < 2 ^ 31) (hm : 0 ≤ m ∧ m < 2 ^ 31) (hl : ∀ e ∈ l, FitsEntry e) {hash : Option (Array B)}
    (hh : HashBuf hash) : ∃ r, triplet_load jk jw f prime hash = .ok r := by
  obtain ⟨r, h, -⟩ := Ok_iff.mp (C41_sms jk jw hp hf hn hm hl hh)
  exact ⟨r, h⟩

theorem exSms_fits : ∀ e ∈ [((1 : Int), (2 : Int), (-9 : Int)), (2, 3, 14), (2, 1, 1)], FitsEntry e := by
  intro e he
  simp only [List.mem_cons, List.not_mem_nil, or_false] at he
  rcases he with rfl | rfl | rfl <;> exact ⟨by decide, by decide, by decide, by decide, by decide, by decide⟩

/-- The hypotheses of `C48_hash` are met: this file is accepted. -/
example (jk : Junk) (jw : Nat → W) : NoNul exSms ∧ exHash0.size = 32 ∧
    ∃ r, triplet_load jk jw exSms 7 (some exHash0) = .ok r := by
  refine ⟨by unfold NoNul; decide +kernel, by simp [exHash0], ?_⟩
  have hp : LoadField true 7 7 := .inl ⟨rfl, rfl, by decide, by decide⟩
  have hh : HashBuf (some exHash0) := by rintro md h; cases h; simp [exHash0]
  exact sms_accepted jk jw hp exSms_is (by decide) (by decide) exSms_fits hh

/-! ### C49 -/

/-- C49. For every file whose numbers are less than `2^31` in absolute value and whose dimensions are not negative,
`spasm_triplet_load` either returns a well-formed matrix with balanced nonzero values (or without values), or ends
the program with an error message or a failed assertion: never an undefined behaviour, never an infinite loop. -/
theorem C49_load_safe (jk : Junk) (jw : Nat → W) {vals : Bool} {q : ℕ} {prime : Int} (hp : LoadField vals q prime)
    {f : List Char} (hf : Nums f) (hn : NoMinus f) {hash : Option (Array B)} (hh : HashBuf hash) :
    (∃ r, triplet_load jk jw f prime hash = .ok r ∧ r.1.WF ∧ r.1.F.p = prime ∧
      (∀ k, k < r.1.nz → if vals = true then Bal q (r.1.val k) ∧ r.1.val k ≠ 0 else r.1.val k = 1) ∧
      (0 < r.1.nz → r.1.x.isSome = vals)) ∨
    triplet_load jk jw f prime hash = .error .exitErr ∨ triplet_load jk jw f prime hash = .error .assertFail := by
  have h := triplet_load_any (E := fun e => e = .exitErr ∨ e = .assertFail) (.inl rfl) (.inr rfl) jk jw hp
    (.inl ⟨hf, hn⟩) hh
  cases hr : triplet_load jk jw f prime hash with
  | error e =>
    rcases h.err hr with rfl | rfl
    · exact .inr (.inl rfl)
    · exact .inr (.inr rfl)
  | ok r =>
    obtain ⟨⟨⟨n, m, l, -, -, h1⟩, h2, h3, h4⟩, -⟩ := h.val hr
    refine .inl ⟨r, rfl, h1.wf, h2, ?_, h4⟩
    intro k hk
    obtain ⟨e, he, -, -, hs⟩ := forall₂_right h1.lst (b := (r.1.i.g k, r.1.j.g k, r.1.val k))
      (List.mem_map.mpr ⟨k, List.mem_range.mpr hk, rfl⟩)
    simp only at hs
    by_cases hv : vals = true
    · rw [if_pos hv] at hs ⊢
      refine ⟨hs.1, fun h0 => ?_⟩
      have hk2 := (List.mem_filter.mp he).2
      rw [kept_iff] at hk2
      rw [h0] at hs
      exact hk2 ⟨hv, by rw [← hs.2]; simp⟩
    · rw [if_neg hv] at hs ⊢
      exact hs

theorem Nums.of_check {f : List Char}
    (h : ∀ s ∈ f.tails, ∀ d ∈ (s.takeWhile Char.isDigit).inits, Nat.ofDigitChars 10 d 0 < 2 ^ 31) : Nums f := by
  intro p d t he _ hd
  refine h (d ++ t) (List.mem_tails _ _ |>.mpr ⟨p, by rw [he]; simp⟩) d ?_
  rw [List.mem_inits, List.takeWhile_append_of_pos hd]
  exact ⟨_, rfl⟩

theorem NoMinus.of_first {l f : List Char} (hl : l.head? ≠ some '%') (hne : l ≠ []) (hm : '-' ∉ l) :
    NoMinus (l ++ '\n' :: f) := by
  intro cs b t he hcs hb _ hm'
  cases cs with
  | cons x cs =>
    obtain ⟨h1, -⟩ := hcs x (by simp)
    rw [unlines_cons] at he
    have := congrArg List.head? he
    cases l with
    | nil => exact hne rfl
    | cons y l =>
      cases x with
      | nil => cases h1
      | cons z x =>
        simp only [List.cons_append, List.head?_cons, Option.some.injEq] at this h1 hl
        rw [this] at hl
        exact hl (congrArg some h1)
  | nil =>
    have he : l ++ '\n' :: f = b ++ t := by simpa [unlines] using he
    rcases List.append_eq_append_iff.mp he with ⟨a, h1, h2⟩ | ⟨a, h1, h2⟩
    · cases a with
      | nil => rw [List.append_nil] at h1; rw [h1] at hm'; exact hm hm'
      | cons c a =>
        simp only [List.cons_append, List.cons.injEq] at h2
        apply hb
        rw [h1, ← h2.1]; simp
    · apply hm; rw [h1]; simp [hm']

/-- The hypotheses of `C49_load_safe` are met by a correct file, a truncated file and a file with an entry out of
range. -/
example : (Nums exSms ∧ NoMinus exSms) ∧ (Nums "2 3 M\n1 2".toList ∧ NoMinus "2 3 M\n1 2".toList) ∧
    (Nums "2 3 M\n-1 0 1\n0 0 0\n".toList ∧ NoMinus "2 3 M\n-1 0 1\n0 0 0\n".toList) :=
  ⟨⟨Nums.of_check (by decide +kernel), NoMinus.of_first (l := "2 3 M".toList)
      (f := "1  2 -9\n2 3 14 hello\n\t2 1 1\n0 0 0\nthe end\n".toList) (by decide) (by decide) (by decide)⟩,
    ⟨Nums.of_check (by decide +kernel), NoMinus.of_first (l := "2 3 M".toList) (f := "1 2".toList) (by decide)
      (by decide) (by decide)⟩,
    Nums.of_check (by decide +kernel), NoMinus.of_first (l := "2 3 M".toList) (f := "-1 0 1\n0 0 0\n".toList)
      (by decide) (by decide) (by decide)⟩

/-- How a load ends. -/
def loadEnds (x : C (Triplet × Option (Array B))) : Option Err :=
  match x with
  | .ok _ => none
  | .error e => some e

def exJw : Nat → W := fun _ => 0

/-- The three outcomes occur. -/
example : loadEnds (triplet_load default exJw exSms 7 none) = none ∧
    loadEnds (triplet_load default exJw "2 3 M\n1 2".toList 7 none) = some .exitErr ∧
    loadEnds (triplet_load default exJw "2 3 M\n-1 0 1\n0 0 0\n".toList 7 none) = some .assertFail := by
  decide +kernel

/-- C49 (the conditions are needed): a number which does not fit is undefined behaviour (in `sscanf`, or in
`i - 1`), a negative dimension is accepted. -/
theorem C49_unsafe :
    loadEnds (triplet_load default exJw "1 1 M\n1 2147483648 1\n0 0 0\n".toList 7 none) = some .ub ∧
    loadEnds (triplet_load default exJw "1 1 M\n-2147483648 1 1\n0 0 0\n".toList 7 none) = some .ub ∧
    (match load_header exJw "-1 1 M\n0 0 0\n".toList 7 none with
      | .ok (h, _) => decide (h.n = -1 ∧ h.m = 1)
      | .error _ => false) = true := by
  decide +kernel

end Spasm
