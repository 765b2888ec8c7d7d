import Verif.Model.Csr
import Verif.Spec.Csr
import Mathlib.Logic.Relation

namespace Spasm

/-- The edges of the pivot graph: from a pivotal column `j` to the columns of the row holding its
pivot. -/
def PEdge (A : Csr) (qinv : Array Int) (j j' : Nat) : Prop :=
  0 ≤ qinv.g j ∧ A.InRow (qinv.g j).toNat j'

/-- `qinv` is a map from the columns of `A` to its rows (negative: no row). -/
structure QinvOk (A : Csr) (qinv : Array Int) : Prop where
  size : A.m ≤ qinv.size
  lt : ∀ j, j < A.m → qinv.g j < A.n

/-- No cycle in the pivot graph, except loops. -/
def PAcyclic (A : Csr) (qinv : Array Int) : Prop :=
  ∀ j, j < A.m → ¬ Relation.TransGen (fun a b => PEdge A qinv a b ∧ b ≠ a) j j

/-- Column `j` is reachable from row `k` of `B`. -/
def ReachFrom (A B : Csr) (qinv : Array Int) (k j : Nat) : Prop :=
  ∃ j0, B.InRow k j0 ∧ Relation.ReflTransGen (PEdge A qinv) j0 j

end Spasm
