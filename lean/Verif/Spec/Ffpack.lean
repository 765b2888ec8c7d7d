import Verif.Spec.Dense
import Verif.Spec.Echelonize

/-
Specification of the dense linear algebra library (FFLAS-FFPACK), as used through
src/spasm_ffpack.cpp:22-95.
-/

namespace Spasm

open Finset

/-- The `n x m` cells of `S` contain the integers `w`. -/
def Cells (n m : Nat) (S : Array ℚ) (w : Nat → Nat → Int) : Prop :=
  n * m ≤ S.size ∧ ∀ i j, i < n → j < m → S.g (i * m + j) = (w i j : ℚ)

/-- Row `i` of a reduced echelon form of rank `r`: one on column `Q i`, zero on the other columns
`Q j`, `j < r`, and `w i j` on column `Q j` for `j ≥ r`. -/
def denseRrefRow (q : ℕ) (m r : Nat) (Q : Array Nat) (w : Nat → Nat → Int) (i : Nat) : Nat → ZMod q :=
  onCols Q m fun j => if j < r then (if j = i then 1 else 0) else (w i j : ZMod q)

/-- Row `i` of a dense matrix. -/
def denseRow (q : ℕ) (m : Nat) (w : Nat → Nat → Int) (i : Nat) (c : Nat) : ZMod q :=
  if c < m then (w i c : ZMod q) else 0

/-- `(r, w', Q)` is a reduced row echelon form of the `n x m` matrix `w`. -/
structure DenseRref (q : ℕ) (n m : Nat) (w : Nat → Nat → Int) (r : Nat) (w' : Nat → Nat → Int)
    (Q : Array Nat) : Prop where
  r_n : r ≤ n
  r_m : r ≤ m
  size : Q.size = m
  perm : IsPerm Q.g m
  bal : ∀ i j, i < r → r ≤ j → j < m → Bal q (w' i j)
  span : spanOf (denseRrefRow q m r Q w') r = spanOf (denseRow q m w) n

/-- Coefficient `(i, k)` of the lower trapezoidal factor. -/
def luL (q : ℕ) (w' : Nat → Nat → Int) (i k : Nat) : ZMod q := if k ≤ i then (w' i k : ZMod q) else 0

/-- Coefficient `(k, j)` of the upper trapezoidal factor, with unit diagonal. -/
def luU (q : ℕ) (w' : Nat → Nat → Int) (k j : Nat) : ZMod q :=
  if j = k then 1 else if k < j then (w' k j : ZMod q) else 0

/-- `(r, w', P, Q)` is a PLUQ factorization of the `n x m` matrix `w`. -/
structure IsPluq (q : ℕ) (n m : Nat) (w : Nat → Nat → Int) (r : Nat) (w' : Nat → Nat → Int)
    (P Q : Array Nat) : Prop where
  r_n : r ≤ n
  r_m : r ≤ m
  p_size : P.size = n
  q_size : Q.size = m
  p_perm : IsPerm P.g n
  q_perm : IsPerm Q.g m
  bal : ∀ i j, i < n → j < m → Bal q (w' i j)
  diag : ∀ i, i < r → w' i i ≠ 0
  prod : ∀ i j, i < n → j < m →
    (w (P.g i) (Q.g j) : ZMod q) = ∑ k ∈ range r, luL q w' i k * luU q w' k j

/-- Assumption on the library: on every matrix of balanced residues, it returns correct results (also
balanced residues). -/
structure Ffpack.Correct (ff : Ffpack) (q : ℕ) : Prop where
  rref : ∀ n m S w, Cells n m S w → (∀ i j, i < n → j < m → Bal q (w i j)) →
    ∃ w', Cells n m (ff.rref q n m S).2.1 w' ∧
      DenseRref q n m w (ff.rref q n m S).1 w' (ff.rref q n m S).2.2 ∧
      (ff.rref q n m S).2.1.size = S.size
  lu : ∀ n m S w, Cells n m S w → (∀ i j, i < n → j < m → Bal q (w i j)) →
    ∃ w', Cells n m (ff.lu q n m S).2.1 w' ∧
      IsPluq q n m w (ff.lu q n m S).1 w' (ff.lu q n m S).2.2.1 (ff.lu q n m S).2.2.2 ∧
      (ff.lu q n m S).2.1.size = S.size

end Spasm
