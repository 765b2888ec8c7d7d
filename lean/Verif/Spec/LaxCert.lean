import Verif.Spec.Lax

/-
Specification of the certificate files that are accepted, and of those that are read as intended.
-/

namespace Spasm

/-- The text starts with two integers (rank and prime) and does not end after the white space that follows; `h` is what
comes then. -/
def CertHead (f : List Char) (r p : Int) (h : List Char) : Prop :=
  ∃ w1 s1 w2 s2 w3, Spaces w1 ∧ Spaces w2 ∧ Spaces w3 ∧ Numeral s1 r ∧ Numeral s2 p ∧ NotDigit (w2 ++ s2) ∧
    NotDigit (w3 ++ h) ∧ h ≠ [] ∧ (∀ c, h.head? = some c → ¬ Space c) ∧ f = w1 ++ s1 ++ w2 ++ s2 ++ w3 ++ h

/-- A hexadecimal digit and its value, in lower or upper case. -/
def HexDigit (c : Char) (v : Nat) : Prop :=
  "0123456789abcdef".toList[v]? = some c ∨ "0123456789ABCDEF".toList[v]? = some c

/-- A sequence of bytes, with two hexadecimal digits per byte. -/
inductive HexText : List Char → List (BitVec 8) → Prop
  | nil : HexText [] []
  | cons (c d : Char) (a b : Nat) (t : List Char) (l : List (BitVec 8)) : HexDigit c a → HexDigit d b → HexText t l →
      HexText (c :: d :: t) (BitVec.ofNat 8 (16 * a + b) :: l)

/-- The text starts with the integers of a list, in any layout; the last argument is what comes next. -/
inductive LaxNums : List Char → List Int → List Char → Prop
  | nil (t : List Char) : LaxNums t [] t
  | cons (w s f t : List Char) (x : Int) (l : List Int) : Spaces w → Numeral s x → NotDigit f → LaxNums f l t →
      LaxNums (w ++ (s ++ f)) (x :: l) t

end Spasm
