import Verif.Spec.Lu
import Verif.Spec.Triplet
import Mathlib.LinearAlgebra.Span.Basic

/-
Specification of factorizations in progress.
-/

namespace Spasm

open Finset

/-- The space spanned by the vectors `f 0, ..., f (n - 1)`. -/
def spanOf {q : ℕ} (f : Nat → Nat → ZMod q) (n : Nat) : Submodule (ZMod q) (Nat → ZMod q) :=
  Submodule.span (ZMod q) (f '' Set.Iio n)

/-- The row space of a matrix. -/
def Csr.rowSpace (A : Csr) (q : ℕ) : Submodule (ZMod q) (Nat → ZMod q) := spanOf (A.entry q) A.n

/-- State of `L` while `A` is being factorized: `P k` is the row of `A` that gave row `k` of `U`;
the vectors `v 0, ..., v (nr - 1)` remain to be processed, and `v t` is what remains of row `o t` of
`A` after elimination with the coefficients in `L`.  For these rows `L` only has entries on the
first `old` columns.  If `complete`, the rows of `A` that are neither pivotal nor remaining are
given by `L U`. -/
structure PartialL (q : ℕ) (A U : Csr) (Z : Triplet) (P : Nat → Nat) (v : Nat → Nat → ZMod q)
    (nr : Nat) (o : Nat → Nat) (old : Nat) (complete : Bool) : Prop where
  wfv : Z.WFV q
  n_eq : Z.n = A.n
  m_ge : A.n ≤ Z.m
  has : ∀ i c, Z.Has i c → c < U.n ∧ Z.sum q i c ≠ 0
  P_lt : ∀ k, k < U.n → P k < A.n
  diag : ∀ k, k < U.n → Z.sum q (P k) k ≠ 0
  upper : ∀ k j, k < j → j < U.n → Z.sum q (P k) j = 0
  prod : ∀ i, i < A.n → (∃ k, k < U.n ∧ P k = i) ∨ (complete = true ∧ ∀ t, t < nr → o t ≠ i) →
    ∀ c, A.entry q i c = ∑ j ∈ range U.n, Z.sum q i j * U.entry q j c
  rem_lt : ∀ t, t < nr → o t < A.n
  rem_inj : ∀ s t, s < nr → t < nr → o s = o t → s = t
  rem_new : ∀ k t, k < U.n → t < nr → P k ≠ o t
  rem_old : ∀ t, t < nr → ∀ c, Z.Has (o t) c → c < old
  rem : ∀ t, t < nr → ∀ c, A.entry q (o t) c = v t c + ∑ j ∈ range U.n, Z.sum q (o t) j * U.entry q j c

/-- There is no explicit zero in any row. -/
def Csr.RowsNonzero (A : Csr) : Prop := ∀ i, i < A.n → ∀ e ∈ A.row i, e.2 ≠ 0

/-- State of a factorization of `A` in progress: `U` is echelonized; its rows and the vectors
`v 0, ..., v (nr - 1)` that remain span the row space of `A`; these vectors are zero on the pivotal
columns of the first `old` rows of `U`; `U` has room for the rows to come. -/
structure Partial (q : ℕ) (A U : Csr) (qinv : Array Int) (L : Option Triplet)
    (Lp : Option (Array Nat)) (v : Nat → Nat → ZMod q) (nr : Nat) (o : Nat → Nat) (old : Nat)
    (complete : Bool) : Prop where
  ech : Echelon q U qinv
  m_eq : U.m = A.m
  psize : A.n < U.p.size
  room : U.n + nr ≤ A.n
  x_some : U.x.isSome = true
  x_size : ∀ a, U.x = some a → U.j.size ≤ a.size
  old_le : old ≤ U.n
  zero : ∀ t, t < nr → ∀ i, i < old → v t (U.pivot i) = 0
  span : U.rowSpace q ⊔ spanOf v nr = A.rowSpace q
  p_size : L.isSome = true → ∃ a, Lp = some a ∧ A.n ≤ a.size
  nodup : U.NoDup
  nozero : L = none → U.RowsNonzero
  L : ∀ Z, L = some Z → PartialL q A U Z (permFun Lp) v nr o old complete

end Spasm
