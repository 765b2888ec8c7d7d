import Verif.Spec.Pnm
import Verif.Model.Gray
import Mathlib.Analysis.SpecialFunctions.Pow.Real

/-
Specification of gray images, and what is assumed about the C library.
-/

namespace Spasm

/-- The number of entries of the matrix that fall on pixel `(u, v)` of an image with `y` rows and `x` columns. -/
def pixCount (A : Csr) (x y u v : Nat) : Nat :=
  ∑ i ∈ Finset.range A.n, ((Finset.Ico (A.p.g i) (A.p.g (i + 1))).filter fun k =>
    i * y / A.n = u ∧ A.j.g k * x / A.m = v).card

/-- The plain PGM format, with levels from 0 (black) to 255 (white). -/
def IsPgm (f : List Char) (x y : Nat) (level : Nat → Nat → Nat) : Prop :=
  ∃ body, f = "P2\n".toList ++ dec x ++ [' '] ++ dec y ++ "\n255\n".toList ++ body ∧
    (∀ u v, u < y → v < x → level u v ≤ 255) ∧
    Words body ((List.range (x * y)).map fun t => dec (level (t / x) (t % x)))

/-- What is assumed of `log` on `[0, 1]` and of `exp` on `[-∞, 0]`: the exact values required by the C standard
(C11 F.10.3), monotonicity, and an accuracy of `2^-40` (the functions of the usual libraries are much more accurate).
`l` and `e` are their values on finite arguments. -/
structure LibM.Good (M : LibM) (l e : ℚ → ℚ) : Prop where
  log_nan : M.log .nan = .nan
  log_zero : M.log (.fin 0) = .inf true
  log_fin : ∀ x, 0 < x → x ≤ 1 → M.log (.fin x) = .fin (l x)
  log_one : l 1 = 0
  log_mono : ∀ x y, 0 < x → x ≤ y → y ≤ 1 → l x ≤ l y
  log_acc : ∀ x, 1 / 2 ^ 32 ≤ x → x ≤ 1 → |(l x : ℝ) - Real.log x| ≤ 1 / 2 ^ 40
  exp_nan : M.exp .nan = .nan
  exp_ninf : M.exp (.inf true) = .fin 0
  exp_fin : ∀ x, x ≤ 0 → M.exp (.fin x) = .fin (e x)
  exp_zero : e 0 = 1
  exp_nonneg : ∀ x, x ≤ 0 → 0 ≤ e x
  exp_mono : ∀ x y, x ≤ y → y ≤ 0 → e x ≤ e y
  exp_acc : ∀ x, x ≤ 0 → |(e x : ℝ) - Real.exp x| ≤ 1 / 2 ^ 40

end Spasm
