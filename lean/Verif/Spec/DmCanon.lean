import Mathlib.Data.Finset.Card

/-
Matchings of a relation between rows and columns.
-/

namespace Spasm

/-- A matching of the `n × m` pattern `E`: entries, no two of them in the same row or in the same column. -/
structure MatchingE (E : Nat → Nat → Prop) (n m : Nat) (S : Finset (Nat × Nat)) : Prop where
  entry : ∀ e ∈ S, e.1 < n ∧ e.2 < m ∧ E e.1 e.2
  row : ∀ e ∈ S, ∀ e' ∈ S, e.1 = e'.1 → e = e'
  col : ∀ e ∈ S, ∀ e' ∈ S, e.2 = e'.2 → e = e'

/-- A matching with as many entries as possible. -/
def MaxMatchingE (E : Nat → Nat → Prop) (n m : Nat) (S : Finset (Nat × Nat)) : Prop :=
  MatchingE E n m S ∧ ∀ T, MatchingE E n m T → T.card ≤ S.card

end Spasm
