import Verif.Spec.Pivots
import Verif.Model.Matching

/-
Specification of maximum matchings.
-/

namespace Spasm

open Finset

/-- `S` is a set of entries of `A`, no two of them on the same row or on the same column. -/
def IsMatching (A : Csr) (S : Finset (Nat × Nat)) : Prop :=
  (∀ e, e ∈ S → e.1 < A.n ∧ A.InRow e.1 e.2) ∧
  (∀ e f, e ∈ S → f ∈ S → e.1 = f.1 → e = f) ∧ ∀ e f, e ∈ S → f ∈ S → e.2 = f.2 → e = f

end Spasm
