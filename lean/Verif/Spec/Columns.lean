import Verif.Spec.File

/-
Columns of the matrix of a file.
-/

namespace Spasm

/-- Column `j` of the matrix of a list of entries. -/
def fileCol (q n : ℕ) (l : List (Int × Int × Int)) (j : Nat) : Fin n → ZMod q := fun a => fileEntry q l a j

end Spasm
