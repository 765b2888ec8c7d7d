import Verif.Model.FfpackGlue
import Verif.Spec.Ffpack

/-
What the documentation of FFLAS-FFPACK says of the two functions in use: permutations are in the format of LAPACK.
-/

namespace Spasm

open Finset

/-- The sequence `f` once item 0 has been exchanged with item `P 0`, then item 1 with item `P 1`, and so on until item
`k - 1`. -/
def exchanged {α : Type} (P : Nat → Nat) : Nat → (Nat → α) → Nat → α
  | 0, f => f
  | k + 1, f => fun i => exchanged P k f (if i = k then P k else if i = P k then k else i)

/-- A permutation of `n` items in the format of LAPACK. -/
def IsLapack (P : Array Nat) (n : Nat) : Prop := P.size = n ∧ ∀ i, i < n → i ≤ P.g i ∧ P.g i < n

/-- The cells of a `n x m` matrix, the rows of which are `ld` cells apart. -/
def CellsLd (n m ld : Nat) (S : Array ℚ) (w : Nat → Nat → Int) : Prop :=
  ∀ i j, i < n → j < m → i * ld + j < S.size ∧ S.g (i * ld + j) = (w i j : ℚ)

/-- `pReducedRowEchelonForm` on the matrix `w`: the rank `r` and the permutation `Qt` (in the format of LAPACK) are such
that the matrix `R` that becomes `[Id, w']` when its columns are exchanged has the same row space as `w`. -/
structure LibRref (q : ℕ) (n m : Nat) (w : Nat → Nat → Int) (r : Nat) (w' : Nat → Nat → Int) (Qt : Array Nat) :
    Prop where
  r_n : r ≤ n
  r_m : r ≤ m
  lapack : IsLapack Qt m
  bal : ∀ i j, i < r → r ≤ j → j < m → Bal q (w' i j)
  form : ∃ R : Nat → Nat → ZMod q, (∀ i c, i < r → m ≤ c → R i c = 0) ∧
    (∀ i j, i < r → j < m → exchanged Qt.g m (R i) j =
      if j < r then (if j = i then 1 else 0) else (w' i j : ZMod q)) ∧
    spanOf R r = spanOf (denseRow q m w) n

/-- `pPLUQ` on the matrix `w`: when its rows are exchanged according to `P`, and its columns according to `Q`, it becomes
the product of `L` and `U`. -/
structure LibPluq (q : ℕ) (n m : Nat) (w : Nat → Nat → Int) (r : Nat) (w' : Nat → Nat → Int) (P Q : Array Nat) :
    Prop where
  r_n : r ≤ n
  r_m : r ≤ m
  p_lapack : IsLapack P n
  q_lapack : IsLapack Q m
  bal : ∀ i j, i < n → j < m → Bal q (w' i j)
  diag : ∀ i, i < r → w' i i ≠ 0
  prod : ∀ i j, i < n → j < m →
    ((exchanged Q.g m (exchanged P.g n w i) j : Int) : ZMod q) = ∑ k ∈ range r, luL q w' i k * luU q w' k j

/-- The type can be used modulo `q`: it represents exactly the product of two residues of absolute value at most
`(q - 1) / 2`. -/
def Datatype.Holds (dt : Datatype) (q : Nat) : Prop :=
  ((q - 1) / 2) ^ 2 ≤ match dt with
    | .float => 2 ^ 24
    | .double => 2 ^ 53
    | .i64 => 2 ^ 63 - 1

/-- Assumption on the library: modulo `q`, with a type that can be used and memory for permutations of the right size,
the two functions do what is documented. -/
structure FfLib.Documented (lib : FfLib) (q : ℕ) : Prop where
  rref : ∀ dt n m S ld w P Q, dt.Holds q → m ≤ ld → P.size = n → Q.size = m → CellsLd n m ld S w →
    (∀ i j, i < n → j < m → Bal q (w i j)) →
    ∃ w', CellsLd n m ld (lib.rref dt q n m S ld P Q).2.1 w' ∧
      LibRref q n m w (lib.rref dt q n m S ld P Q).1 w' (lib.rref dt q n m S ld P Q).2.2.2 ∧
      (lib.rref dt q n m S ld P Q).2.1.size = S.size
  pluq : ∀ dt n m S ld w P Q, dt.Holds q → m ≤ ld → P.size = n → Q.size = m → CellsLd n m ld S w →
    (∀ i j, i < n → j < m → Bal q (w i j)) →
    ∃ w', CellsLd n m ld (lib.pluq dt q n m S ld P Q).2.1 w' ∧
      LibPluq q n m w (lib.pluq dt q n m S ld P Q).1 w' (lib.pluq dt q n m S ld P Q).2.2.1
        (lib.pluq dt q n m S ld P Q).2.2.2 ∧
      (lib.pluq dt q n m S ld P Q).2.1.size = S.size

end Spasm
