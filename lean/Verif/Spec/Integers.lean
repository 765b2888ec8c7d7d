import Verif.Spec.File

/-
The matrix of a file, over the integers.
-/

namespace Spasm

/-- Entry `(i, j)` of the matrix of a list of entries, as an integer; rows and columns are numbered from 0. -/
def entryZ (l : List (Int × Int × Int)) (i j : Nat) : Int :=
  (l.map fun e => if e.1 = (i : Int) + 1 ∧ e.2.1 = (j : Int) + 1 then e.2.2 else 0).sum

end Spasm
