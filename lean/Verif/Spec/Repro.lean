import Verif.Spec.Lu
import Verif.Spec.Permutation

/-
Specification of reproducible results: matrices that only differ by the order of their rows, and the basis of a kernel
attached to a set of free columns.
-/

namespace Spasm

/-- `R` and `R'` have the same rows, of size `m`, up to their order. -/
def SameRows (q m : ℕ) (R R' : Csr) : Prop :=
  R.n = R'.n ∧ ∃ σ : Nat → Nat, IsPerm σ R.n ∧
    ∀ i, i < R.n → ∀ c, c < m → R'.entry q (σ i) c = R.entry q i c

/-- The two sets of columns located by `a` and `b` are the same. -/
def SamePivots (m : ℕ) (a b : Array Int) : Prop := ∀ j, j < m → (0 ≤ a.g j ↔ 0 ≤ b.g j)

/-- The matrices have the same row space. -/
def SameSpan (q : ℕ) (A B : Csr) : Prop :=
  A.m = B.m ∧ (∀ i, i < A.n → InSpan q B (A.entry q i)) ∧ ∀ i, i < B.n → InSpan q A (B.entry q i)

/-- There is exactly one row of `K` for each free column (a column without pivot): it has -1 on this column and zero on
the other free columns. -/
def FreeRows (q m : ℕ) (qinv : Array Int) (K : Csr) : Prop :=
  ∃ f : Nat → Nat, (∀ k, k < K.n → f k < m ∧ qinv.g (f k) < 0) ∧
    (∀ k l, k < K.n → l < K.n → f k = f l → k = l) ∧
    (∀ j, j < m → qinv.g j < 0 → ∃ k, k < K.n ∧ f k = j) ∧
    ∀ k, k < K.n → ∀ c, c < m → qinv.g c < 0 → K.entry q k c = if c = f k then -1 else 0

end Spasm
