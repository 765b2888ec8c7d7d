import Verif.Model.Permutation
import Verif.Spec.Csr

namespace Spasm

/-- `f` restricted to `0, ..., n-1` is a permutation. -/
def IsPerm (f : Nat → Nat) (n : Nat) : Prop :=
  (∀ i, i < n → f i < n) ∧ ∀ i k, i < n → k < n → f i = f k → i = k

/-- The permutation denoted by a possibly NULL vector. -/
def permFun (p : Option (Array Nat)) (i : Nat) : Nat :=
  match p with
  | none => i
  | some a => a.g i

/-- The vector has (at least) `n` entries. -/
def PermSize (p : Option (Array Nat)) (n : Nat) : Prop :=
  ∀ a, p = some a → n ≤ a.size

end Spasm
