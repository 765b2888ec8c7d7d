import Verif.Spec.Gray
import Verif.Spec.File

/-
Specification of the images drawn by `bitmap` from a file, and what is assumed about `sqrt`.
-/

namespace Spasm

/-- What is assumed of `sqrt`: an accuracy of `2^-51` for the square of the result (it is correctly rounded). `s` are
its values on finite arguments. -/
structure LibM.Sqrt (M : LibM) (s : ℚ → ℚ) : Prop where
  fin : ∀ x, 0 ≤ x → M.sqrt (.fin x) = .fin (s x)
  nonneg : ∀ x, 0 ≤ x → 0 ≤ s x
  acc : ∀ x, 0 ≤ x → |s x * s x - x| ≤ x / 2 ^ 51

/-- There is an entry in row `i` and column `j`, numbered from 0. -/
def FileHas (l : List (Int × Int × Int)) (i j : Nat) : Prop := ∃ e ∈ l, e.1 = (i : Int) + 1 ∧ e.2.1 = (j : Int) + 1

/-- An entry of the file falls on pixel `(u, v)` of an image with `y` rows and `x` columns. -/
def FileBlack (l : List (Int × Int × Int)) (n m x y u v : Nat) : Prop :=
  ∃ i j, i < n ∧ j < m ∧ FileHas l i j ∧ u = i * y / n ∧ v = j * x / m

open Classical in
/-- The number of distinct positions in the file that fall on pixel `(u, v)`. -/
noncomputable def filePix (l : List (Int × Int × Int)) (n m x y u v : Nat) : Nat :=
  ((Finset.range n ×ˢ Finset.range m).filter fun p =>
    FileHas l p.1 p.2 ∧ p.1 * y / n = u ∧ p.2 * x / m = v).card

end Spasm
