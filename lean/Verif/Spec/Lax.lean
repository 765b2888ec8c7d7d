import Verif.Spec.Text

/-
Specification of the files that are accepted: lines, numbers and words written in any way that `sscanf` reads.
-/

namespace Spasm

/-- White space, line ends included. -/
def Space (c : Char) : Prop := c = ' ' ∨ c = '\t' ∨ c = '\n' ∨ c = '\x0b' ∨ c = '\x0c' ∨ c = '\r'

def Spaces (w : List Char) : Prop := ∀ c ∈ w, Space c

/-- An integer in decimal notation: an optional sign and at least one digit; leading zeroes are allowed. -/
def Numeral (s : List Char) (x : Int) : Prop :=
  ∃ sg d, s = sg ++ d ∧ d ≠ [] ∧ (∀ c ∈ d, c.isDigit = true) ∧
    (((sg = [] ∨ sg = ['+']) ∧ x = (Nat.ofDigitChars 10 d 0 : Int)) ∨
      (sg = ['-'] ∧ x = -(Nat.ofDigitChars 10 d 0 : Int)))

/-- The text does not start with a digit. -/
def NotDigit (t : List Char) : Prop := ∀ c, t.head? = some c → c.isDigit = false

/-- A line starts with three integers; what follows is free, as long as the third number ends. -/
def LaxEntry (b : List Char) (e : Int × Int × Int) : Prop :=
  ∃ w1 s1 w2 s2 w3 s3 t, Spaces w1 ∧ Spaces w2 ∧ Spaces w3 ∧ Numeral s1 e.1 ∧ Numeral s2 e.2.1 ∧ Numeral s3 e.2.2 ∧
    NotDigit (w2 ++ s2) ∧ NotDigit (w3 ++ s3) ∧ NotDigit t ∧ b = w1 ++ s1 ++ w2 ++ s2 ++ w3 ++ s3 ++ t

/-- A line starts with two integers and a character, which is `M` if `vals`. -/
def LaxHeader (vals : Bool) (b : List Char) (n m : Int) : Prop :=
  ∃ w1 s1 w2 s2 w3 c t, Spaces w1 ∧ Spaces w2 ∧ Spaces w3 ∧ Numeral s1 n ∧ Numeral s2 m ∧ NotDigit (w2 ++ s2) ∧
    NotDigit (w3 ++ [c]) ∧ ¬ Space c ∧ (vals = true → c = 'M') ∧ b = w1 ++ s1 ++ w2 ++ s2 ++ w3 ++ c :: t

/-- The first line of a MatrixMarket file. -/
def LaxMmLine (b : List Char) : Prop :=
  ∃ w1 w2 w3 w4 a1 a2 a3 a4 t, Spaces w1 ∧ Spaces w2 ∧ Spaces w3 ∧ Spaces w4 ∧ w2 ≠ [] ∧ w3 ≠ [] ∧ w4 ≠ [] ∧
    a1.map Char.toLower = "matrix".toList ∧ a2.map Char.toLower = "coordinate".toList ∧
    a3.map Char.toLower = "integer".toList ∧ a4.map Char.toLower = "general".toList ∧
    (∀ c, t.head? = some c → Space c) ∧
    b = "%%MatrixMarket".toList ++ w1 ++ a1 ++ w2 ++ a2 ++ w3 ++ a3 ++ w4 ++ a4 ++ t

/-- The lines of a file, with their newline, which the last one may lack. They have at most 1022 other characters. -/
inductive Lines : List Char → List (List Char) → Prop
  | nil : Lines [] []
  | last (c : List Char) : '\n' ∉ c → c ≠ [] → c.length ≤ 1022 → Lines c [c]
  | cons (c f : List Char) (ls : List (List Char)) : '\n' ∉ c → c.length ≤ 1022 → Lines f ls →
      Lines (c ++ '\n' :: f) ((c ++ ['\n']) :: ls)

/-- A SMS file: the header, the entries, the end marker, then anything. -/
def LaxSms (vals : Bool) (f : List Char) (n m : Int) (l : List (Int × Int × Int)) : Prop :=
  ∃ h tl z g, LaxHeader vals h n m ∧ List.Forall₂ LaxEntry tl l ∧ LaxEntry z (0, 0, 0) ∧
    Lines f (h :: (tl ++ z :: g))

/-- A MatrixMarket file: the first line, comments, the dimensions and the number of entries (at least one), the
entries, then anything. -/
def LaxMm (f : List Char) (n m : Int) (l : List (Int × Int × Int)) : Prop :=
  ∃ h cs d tl g, LaxMmLine h ∧ (∀ b ∈ cs, b.head? = some '%') ∧ LaxEntry d (n, m, (l.length : Int)) ∧ l ≠ [] ∧
    l.length < 2 ^ 63 ∧ List.Forall₂ LaxEntry tl l ∧ Lines f (h :: (cs ++ d :: (tl ++ g)))

/-- A file that describes a `n × m` matrix with the entries `l`; with `vals = false` only the positions are of
interest. -/
def LaxFile (vals : Bool) (f : List Char) (n m : Int) (l : List (Int × Int × Int)) : Prop :=
  LaxSms vals f n m l ∨ LaxMm f n m l

/-- The numbers fit in the types of the program; rows and columns are numbered from 1. -/
structure Fit (n m : Int) (l : List (Int × Int × Int)) : Prop where
  n : 0 ≤ n ∧ n < 2 ^ 31
  m : 0 ≤ m ∧ m < 2 ^ 31
  row : ∀ e ∈ l, 1 ≤ e.1 ∧ e.1 < 2 ^ 31
  col : ∀ e ∈ l, 1 ≤ e.2.1 ∧ e.2.1 < 2 ^ 31
  val : ∀ e ∈ l, -2 ^ 63 ≤ e.2.2 ∧ e.2.2 < 2 ^ 63

end Spasm
