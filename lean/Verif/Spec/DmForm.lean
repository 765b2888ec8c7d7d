import Verif.Spec.DmCanon
import Mathlib.LinearAlgebra.Matrix.Defs

/-
Block triangular forms of a pattern.
-/

namespace Spasm

/-- Position `(i, j)` is in a diagonal block: the first `h` rows and `c + h` columns, the last rows (from `k`) and columns
(from `c + k`), or the blocks between them, whose rows start at `r 0, ..., r (K - 1)`. -/
def InBlock (h k c : Nat) (r : Nat → Nat) (K i j : Nat) : Prop :=
  (i < h ∧ j < c + h) ∨ (k ≤ i ∧ c + k ≤ j) ∨ ∃ b, b < K ∧ r b ≤ i ∧ i < r (b + 1) ∧ c + r b ≤ j ∧ j < c + r (b + 1)

/-- The `n × m` pattern `E` is in the finest block triangular form: the square blocks are not empty and fill the rows from
`h` to `k`; there is no entry below the blocks; the entries `(t, c + t)` for `t < s` are present; the columns before `c + h`
and the rows from `k` are those that some largest matching misses; an entry belongs to some largest matching if and only if
it is in a block. -/
structure BlockForm (E : Nat → Nat → Prop) (n m h k s c : Nat) (r : Nat → Nat) (K : Nat) : Prop where
  le : h ≤ k ∧ k ≤ s ∧ s ≤ n ∧ c + s = m
  first : r 0 = h
  last : r K = k
  lt : ∀ b, b < K → r b < r (b + 1)
  horz : ∀ i j, i < n → j < m → E i j → h ≤ i → c + h ≤ j
  vert : ∀ i j, i < n → j < m → E i j → k ≤ i → c + k ≤ j
  tri : ∀ i j, i < n → j < m → E i j → ∀ b, b < K → r b ≤ i → c + r b ≤ j
  diag : ∀ t, t < s → E t (c + t)
  hmiss : ∀ j, j < m → (j < c + h ↔ ∃ S, MaxMatchingE E n m S ∧ ∀ e ∈ S, e.2 ≠ j)
  vmiss : ∀ i, i < n → (k ≤ i ↔ ∃ S, MaxMatchingE E n m S ∧ ∀ e ∈ S, e.1 ≠ i)
  finest : ∀ i j, i < n → j < m → E i j → ((∃ S, MaxMatchingE E n m S ∧ (i, j) ∈ S) ↔ InBlock h k c r K i j)

/-- Block `b` of a matrix given by its entries. -/
def diagBlock {F : Type} (M : Nat → Nat → F) (r : Nat → Nat) (b : Nat) :
    Matrix (Fin (r (b + 1) - r b)) (Fin (r (b + 1) - r b)) F :=
  Matrix.of fun i j => M (r b + i) (r b + j)

/-- The part of a matrix between two rows and two columns. -/
def subBlock {F : Type} (M : Nat → Nat → F) (r0 r1 c0 c1 : Nat) : Matrix (Fin (r1 - r0)) (Fin (c1 - c0)) F :=
  Matrix.of fun i j => M (r0 + i) (c0 + j)

end Spasm
