import Verif.Model.ZZp

/-
Specification vocabulary for arithmetic modulo q (independent of how src/spasm_ZZp.c computes).
-/

namespace Spasm

/-- `r` is the representative of a class modulo `q` in the balanced interval
`[⌊q/2⌋ - q + 1, ⌊q/2⌋]`. -/
def Bal (q : ℕ) (r : Int) : Prop := (q : Int) / 2 - q + 1 ≤ r ∧ r ≤ (q : Int) / 2

/-- `r` has absolute value at most `q/2` (operands: balanced values and their opposites). -/
def Small (q : ℕ) (r : Int) : Prop := -((q : Int) / 2) ≤ r ∧ r ≤ (q : Int) / 2

/-- A rounding function with relative error at most 2^-52: satisfied by IEEE-754 binary64 in
every rounding direction (no overflow/underflow). -/
def RelErr (r : ℚ → ℚ) : Prop := ∀ x, |r x - x| ≤ |x| / 2 ^ 52

/-- The field record describes arithmetic modulo `q`. -/
structure Field.Good (F : Field) (q : ℕ) : Prop where
  two_le : 2 ≤ q
  le_max : q ≤ 0xfffffffb
  p_eq : F.p = q
  halfp_eq : F.halfp = (q : Int) / 2
  mhalfp_eq : F.mhalfp = (q : Int) / 2 - q + 1
  dinvp_err : |F.dinvp - 1 / (q : ℚ)| ≤ (1 / (q : ℚ)) / 2 ^ 52

end Spasm
