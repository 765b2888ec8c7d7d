import Verif.Spec.Csr

/-
Specification for C10: what the compression of a triplet matrix gives when values at the same position cancel.
-/

namespace Spasm

/-- The entries of a list whose value is not zero. -/
def nonzeroes (l : List (Nat × Int)) : List (Nat × Int) := l.filter fun e => decide (e.2 ≠ 0)

/-- The distinct elements of a list, in the order of their first occurrences. -/
def firsts (l : List Nat) : List Nat := l.foldl (fun acc c => if c ∈ acc then acc else acc ++ [c]) []

/-- The entries left in front of row `i` by the previous rows: of what was found for row `i` (entries left in front of it,
followed by its own entries), the last ones are left, as many as there are zeroes. -/
def stale (R : Nat → List (Nat × Int)) : Nat → List (Nat × Int)
  | 0 => []
  | i + 1 => (stale R i ++ R i).drop (nonzeroes (stale R i ++ R i)).length

end Spasm
