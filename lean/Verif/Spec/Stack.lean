import Mathlib.Data.Nat.Count
import Mathlib.Data.List.Basic

/-
Specification of the compaction and of the mirror image of a matrix given by the list of its entries (row, column,
value).
-/

namespace Spasm

/-- Row `i` is not empty; column `j` is not empty. -/
def RowUsed (l : List (Nat × Nat × Int)) (i : Nat) : Prop := ∃ e ∈ l, e.1 = i
def ColUsed (l : List (Nat × Nat × Int)) (j : Nat) : Prop := ∃ e ∈ l, e.2.1 = j

instance (l : List (Nat × Nat × Int)) (i : Nat) : Decidable (RowUsed l i) := by unfold RowUsed; infer_instance
instance (l : List (Nat × Nat × Int)) (j : Nat) : Decidable (ColUsed l j) := by unfold ColUsed; infer_instance

/-- The entries after the deletion of the empty rows and columns: the new number of a row is the number of rows before
it which are not empty. -/
def stacked (l : List (Nat × Nat × Int)) : List (Nat × Nat × Int) :=
  l.map fun e => (Nat.count (RowUsed l) e.1, Nat.count (ColUsed l) e.2.1, e.2.2)

/-- The entries with the `m` columns in reverse order. -/
def mirrored (m : Nat) (l : List (Nat × Nat × Int)) : List (Nat × Nat × Int) :=
  l.map fun e => (e.1, m - 1 - e.2.1, e.2.2)

end Spasm
