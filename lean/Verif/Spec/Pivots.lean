import Verif.Spec.Lu
import Verif.Model.Pivots

/-
Specification of sets of structural pivots.
-/

namespace Spasm

open Finset

/-- `pinv` and `qinv` describe a matching between rows and columns of `A`, on entries of `A`:
`pinv i` is the column matched to row `i`, `qinv j` the row matched to column `j` (`-1`: none). -/
structure Matching (A : Csr) (pinv qinv : Array Int) : Prop where
  psize : pinv.size = A.n
  qsize : qinv.size = A.m
  p_ge : ∀ i, i < A.n → -1 ≤ pinv.g i
  p_lt : ∀ i, i < A.n → pinv.g i < A.m
  q_ge : ∀ j, j < A.m → -1 ≤ qinv.g j
  q_lt : ∀ j, j < A.m → qinv.g j < A.n
  qp : ∀ i, i < A.n → 0 ≤ pinv.g i → qinv.g (pinv.g i).toNat = i
  pq : ∀ j, j < A.m → 0 ≤ qinv.g j → pinv.g (qinv.g j).toNat = j
  ent : ∀ i, i < A.n → 0 ≤ pinv.g i → A.InRow i (pinv.g i).toNat

/-- A matching without alternating cycle. -/
structure PivotSet (A : Csr) (pinv qinv : Array Int) : Prop extends Matching A pinv qinv where
  acyclic : PAcyclic A qinv

/-- Number of pivots. -/
def pivCount (m : Nat) (qinv : Array Int) : Nat := ((range m).filter fun j => 0 ≤ qinv.g j).card

/-- `p` orders the rows of `A`: first the `npiv` pivotal rows, such that a pivotal row has no entry
on the columns of the pivots before it, then the other rows. -/
structure PivotOrder (A : Csr) (pinv : Array Int) (npiv : Nat) (p : Array Nat) : Prop where
  size : p.size = A.n
  perm : IsPerm p.g A.n
  le : npiv ≤ A.n
  piv : ∀ k, k < npiv → 0 ≤ pinv.g (p.g k)
  nonpiv : ∀ k, npiv ≤ k → k < A.n → pinv.g (p.g k) = -1
  tri : ∀ a b, a < b → b < npiv → ¬ A.InRow (p.g b) (pinv.g (p.g a)).toNat

end Spasm
