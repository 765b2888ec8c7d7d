import Verif.Model.Density
import Mathlib.Analysis.SpecialFunctions.Log.Base

/-
What is assumed of the function `log2` of the C library.
-/

namespace Spasm

/-- On the integers that fit in 32 bits, `log2` is accurate to 2^-40. -/
def Log2 (lg2 : Dbl → Dbl) : Prop :=
  ∀ k : ℕ, 2 ≤ k → k < 2 ^ 32 → ∃ x : ℚ, lg2 (Dbl.ofInt k) = .fin x ∧ |(x : ℝ) - Real.logb 2 k| ≤ 1 / 2 ^ 40

end Spasm
