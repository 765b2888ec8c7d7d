import Verif.Model.Lu
import Verif.Spec.Triangular

/-
Specification of echelonized matrices and of factorizations.
-/

namespace Spasm

open Finset

/-- The column of the first entry of row `i`. -/
def Csr.pivot (U : Csr) (i : Nat) : Nat := U.j.g (U.p.g i)

/-- `U` is in (permuted) echelon form with unit pivots, located by `qinv`: each row starts with
its pivot, which is 1; `qinv j` is the row whose pivot is on column `j`, or `-1`; the column of a
pivot does not occur again in its row nor in the rows below it. -/
structure Echelon (q : ℕ) (U : Csr) (qinv : Array Int) : Prop where
  wfv : U.WFV q
  size : U.m ≤ qinv.size
  ge : ∀ j, j < U.m → -1 ≤ qinv.g j
  lt : ∀ j, j < U.m → qinv.g j < U.n
  ne : ∀ i, i < U.n → U.p.g i < U.p.g (i + 1)
  piv : ∀ i, i < U.n → qinv.g (U.pivot i) = i
  loc : ∀ j, j < U.m → 0 ≤ qinv.g j → U.pivot (qinv.g j).toNat = j
  one : ∀ i, i < U.n → U.val (U.p.g i) = 1
  once : ∀ i, i < U.n → ∀ k, U.p.g i < k → k < U.p.g (i + 1) → U.j.g k ≠ U.pivot i
  tri : ∀ i k, i < k → k < U.n → ¬ U.InRow k (U.pivot i)

/-- Vector `v` (of size `m`) is a linear combination of the rows of `A`. -/
def InSpan (q : ℕ) (A : Csr) (v : Nat → ZMod q) : Prop :=
  ∃ y : Nat → ZMod q, ∀ c, c < A.m → ∑ i ∈ range A.n, y i * A.entry q i c = v c

/-- `(L, U, p, qinv)` is a factorization of `A`: `U` is echelonized and spans the rows of `A`; `L`
is lower triangular with nonzero diagonal on its pivotal rows `p`, and `A` equals `L U` on these
rows (on all rows if `complete`). -/
structure IsFact (q : ℕ) (A L U : Csr) (qinv : Array Int) (p : Option (Array Nat))
    (complete : Bool) : Prop where
  ech : Echelon q U qinv
  m_eq : U.m = A.m
  span : ∀ i, i < A.n → InSpan q U (A.entry q i)
  L_wfv : L.WFV q
  L_nodup : L.NoDup
  L_n : L.n = A.n
  L_m : L.m = U.n
  p_size : PermSize p U.n
  tri : LowerTri q L (permFun p)
  prod : ∀ i, i < A.n → (complete = true ∨ ∃ j, j < U.n ∧ permFun p j = i) →
    ∀ c, c < A.m → A.entry q i c = ∑ k ∈ range U.n, L.entry q i k * U.entry q k c

end Spasm
