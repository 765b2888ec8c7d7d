import Verif.Spec.Text
import Verif.Spec.File
import Mathlib.Data.Finset.Card

/-
The report of tools/dm.c, and matchings of the matrix of a file.
-/

namespace Spasm

/-- The name and the size of a part, if it is not empty. -/
def partLine (name : String) (a b : Nat) : List Char :=
  if 0 < a ∧ 0 < b then ("*) " ++ name ++ " (").toList ++ dec a ++ " x ".toList ++ dec b ++ ")\n".toList else []

/-- One line for each component with more than one row. -/
def sccLines (sizes : List Nat) : List Char :=
  (sizes.filter fun c => decide (c ≠ 1)).flatMap fun c : Nat =>
    "    *) SCC of size ".toList ++ dec (c : Int) ++ "\n".toList

/-- The report: `s` is the structural rank, `h × w`, `k × k` and `v × u` are the sizes of the three parts, `sizes`
those of the components of the square part. -/
def dmReport (s h w k v u : Nat) (sizes : List Nat) : List Char :=
  "structural rank = ".toList ++ dec s ++ "\n".toList ++ partLine "H" h w ++
  (if 0 < k then
    "*) S (".toList ++ dec k ++ " x ".toList ++ dec k ++ ") : \n".toList ++
      sccLines sizes ++
      (if 0 < sizes.count 1 then "    -> plus ".toList ++ dec (sizes.count 1) ++ " SCC of size 1\n".toList else [])
  else []) ++ partLine "V" v u

/-- A matching of the matrix of a file: nonzero entries, no two of them in the same row or in the same column. -/
structure FileMatching (q : ℕ) (n m : Nat) (l : List (Int × Int × Int)) (S : Finset (Nat × Nat)) : Prop where
  entry : ∀ e ∈ S, e.1 < n ∧ e.2 < m ∧ fileEntry q l e.1 e.2 ≠ 0
  row : ∀ e ∈ S, ∀ e' ∈ S, e.1 = e'.1 → e = e'
  col : ∀ e ∈ S, ∀ e' ∈ S, e.2 = e'.2 → e = e'

end Spasm
