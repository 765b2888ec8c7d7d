import Mathlib.Data.List.Basic
import Mathlib.Data.List.Forall2
import Mathlib.Data.ZMod.Basic

/-
Specification of the file formats: the text of a matrix in SMS and MatrixMarket format.
-/

namespace Spasm

/-- Decimal notation. -/
def dec (x : Int) : List Char := (toString x).toList

/-- White space. -/
def Blank (w : List Char) : Prop := ∀ c ∈ w, c = ' ' ∨ c = '\t'

/-- A line of a file, without its newline, that the loader can read. -/
structure Short (b : List Char) : Prop where
  len : b.length ≤ 1022
  nonl : '\n' ∉ b
  nonul : ∀ c ∈ b, c.toNat ≠ 0

/-- The line contains three numbers (then possibly something else, separated from them). -/
def EntryLine (b : List Char) (e : Int × Int × Int) : Prop :=
  Short b ∧ ∃ w1 w2 w3 t, Blank w1 ∧ Blank w2 ∧ Blank w3 ∧ w2 ≠ [] ∧ w3 ≠ [] ∧
    (∀ c, t.head? = some c → c.isDigit = false) ∧
    b = w1 ++ dec e.1 ++ w2 ++ dec e.2.1 ++ w3 ++ dec e.2.2 ++ t

/-- The line contains two numbers and the letter `M`. -/
def HeaderLine (b : List Char) (n m : Int) : Prop :=
  Short b ∧ ∃ w1 w2 w3 t, Blank w1 ∧ Blank w2 ∧ Blank w3 ∧ w2 ≠ [] ∧
    b = w1 ++ dec n ++ w2 ++ dec m ++ w3 ++ 'M' :: t

/-- A sequence of lines. -/
def unlines (l : List (List Char)) : List Char := l.flatMap fun b => b ++ ['\n']

/-- The SMS format: the header, one line per entry, a line of zeroes, then lines which are ignored. -/
def IsSms (f : List Char) (n m : Int) (l : List (Int × Int × Int)) : Prop :=
  ∃ h tl z g, HeaderLine h n m ∧ List.Forall₂ EntryLine tl l ∧ EntryLine z (0, 0, 0) ∧ (∀ b ∈ g, Short b) ∧
    f = unlines (h :: tl ++ z :: g)

/-- The first line of a MatrixMarket file, in any case. -/
def MmLine (b : List Char) : Prop :=
  Short b ∧ ∃ w1 w2 w3 w4 a1 a2 a3 a4 t, Blank w1 ∧ Blank w2 ∧ Blank w3 ∧ Blank w4 ∧ w2 ≠ [] ∧ w3 ≠ [] ∧
    w4 ≠ [] ∧ a1.map Char.toLower = "matrix".toList ∧ a2.map Char.toLower = "coordinate".toList ∧
    a3.map Char.toLower = "integer".toList ∧ a4.map Char.toLower = "general".toList ∧
    (∀ c, t.head? = some c → c = ' ' ∨ c = '\t') ∧
    b = "%%MatrixMarket".toList ++ w1 ++ a1 ++ w2 ++ a2 ++ w3 ++ a3 ++ w4 ++ a4 ++ t

/-- The MatrixMarket format: the first line, comments, the dimensions and the number of entries, one line per
entry, then lines which are ignored. -/
def IsMm (f : List Char) (n m : Int) (l : List (Int × Int × Int)) : Prop :=
  ∃ h cs d tl g, MmLine h ∧ (∀ b ∈ cs, Short b ∧ b.head? = some '%') ∧
    EntryLine d (n, m, (l.length : Int)) ∧ List.Forall₂ EntryLine tl l ∧ (∀ b ∈ g, Short b) ∧
    f = unlines (h :: cs ++ d :: tl ++ g)

/-- All the numbers of a file are less than `2^31` in absolute value. -/
def Nums (f : List Char) : Prop :=
  ∀ p d t, f = p ++ d ++ t → d ≠ [] → (∀ c ∈ d, c.isDigit = true) → Nat.ofDigitChars 10 d 0 < 2 ^ 31

/-- The line which gives the dimensions, i.e. the first that does not start with `%`, has no minus sign. -/
def NoMinus (f : List Char) : Prop :=
  ∀ cs b t, f = unlines cs ++ b ++ t → (∀ x ∈ cs, x.head? = some '%' ∧ '\n' ∉ x) → '\n' ∉ b →
    b.head? ≠ some '%' → '-' ∉ b

/-- The file has no NUL. -/
def NoNul (f : List Char) : Prop := ∀ c ∈ f, c.toNat ≠ 0

end Spasm
