import Verif.Spec.Permutation
import Verif.Spec.Reach

namespace Spasm

/-- `L` is (permuted) lower triangular with nonzero diagonal: the diagonal entry of column `j` is
on row `p j`, and this row is zero in the columns larger than `j`. -/
structure LowerTri (q : ℕ) (L : Csr) (p : Nat → Nat) : Prop where
  lt : ∀ j, j < L.m → p j < L.n
  diag : ∀ j, j < L.m → L.entry q (p j) j ≠ 0
  upper : ∀ j c, j < c → c < L.m → L.entry q (p j) c = 0

/-- `U` is (permuted) upper triangular with unit diagonal: the pivot of row `i` is on column
`col i`, and the rows after `i` are zero in this column. -/
structure UpperUnit (q : ℕ) (U : Csr) (col : Nat → Nat) : Prop where
  lt : ∀ i, i < U.n → col i < U.m
  unit : ∀ i, i < U.n → U.entry q i (col i) = 1
  lower : ∀ i k, i < k → k < U.n → U.entry q k (col i) = 0

end Spasm
