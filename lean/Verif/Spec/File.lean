import Verif.Spec.Text
import Verif.Spec.Csr
import Mathlib.Data.Matrix.Basic
import Mathlib.Data.Matrix.Mul
import Mathlib.LinearAlgebra.Span.Basic

/-
The matrix described by a file.
-/

namespace Spasm

/-- A file in one of the two formats that describes a `n × m` matrix with the entries `l` (row, column, value; rows and
columns are numbered from 1), all of which fit.  A MatrixMarket file has at least one entry. -/
structure IsFile (f : List Char) (n m : Nat) (l : List (Int × Int × Int)) : Prop where
  format : IsSms f n m l ∨ IsMm f n m l ∧ l ≠ [] ∧ l.length < 2 ^ 63
  n_lt : n < 2 ^ 31
  m_lt : m < 2 ^ 31
  row : ∀ e ∈ l, 1 ≤ e.1 ∧ e.1 ≤ n
  col : ∀ e ∈ l, 1 ≤ e.2.1 ∧ e.2.1 ≤ m
  val : ∀ e ∈ l, |e.2.2| < 2 ^ 63

/-- The matrix modulo `q` of a list of entries; rows and columns are numbered from 0. -/
def fileEntry (q : ℕ) (l : List (Int × Int × Int)) (i j : Nat) : ZMod q :=
  (l.map fun e => if e.1 = (i : Int) + 1 ∧ e.2.1 = (j : Int) + 1 then (e.2.2 : ZMod q) else 0).sum

/-- The same, as a Mathlib matrix. -/
def fileMat (q : ℕ) (n m : Nat) (l : List (Int × Int × Int)) : Matrix (Fin n) (Fin m) (ZMod q) :=
  fun i j => fileEntry q l i j

/-- Entries at the same position do not cancel (modulo `q`). -/
def NoCancel (q : ℕ) (l : List (Int × Int × Int)) : Prop :=
  ∀ e ∈ l, (e.2.2 : ZMod q) ≠ 0 →
    (l.map fun e' => if e'.1 = e.1 ∧ e'.2.1 = e.2.1 then (e'.2.2 : ZMod q) else 0).sum ≠ 0

/-- No position is given twice. -/
def Distinct (l : List (Int × Int × Int)) : Prop := l.Pairwise fun e e' => ¬ (e.1 = e'.1 ∧ e.2.1 = e'.2.1)

/-- The entries of the transposed matrix. -/
def flipped (l : List (Int × Int × Int)) : List (Int × Int × Int) := l.map fun e => (e.2.1, e.1, e.2.2)

/-- The compressed matrix is the matrix of the file. -/
structure FileCsr (q : ℕ) (n m : Nat) (l : List (Int × Int × Int)) (A : Csr) : Prop where
  wfv : A.WFV q
  nodup : A.NoDup
  nozero : A.NoZero
  n_eq : A.n = n
  m_eq : A.m = m
  entry : ∀ i j, i < n → A.entry q i j = fileEntry q l i j

/-- The row space of the matrix of a list of entries. -/
def fileRows (q : ℕ) (n m : Nat) (l : List (Int × Int × Int)) : Submodule (ZMod q) (Fin m → ZMod q) :=
  Submodule.span (ZMod q) (Set.range (fileMat q n m l))

/-- Echelon form, up to the order of the columns: row `i` has a one on column `c i`, and the following rows have a zero
there. -/
structure FileEchelon (q : ℕ) (r m : Nat) (l : List (Int × Int × Int)) (c : Nat → Nat) : Prop where
  lt : ∀ i, i < r → c i < m
  one : ∀ i, i < r → fileEntry q l i (c i) = 1
  zero : ∀ i k, i < k → k < r → fileEntry q l k (c i) = 0

/-- Reduced echelon form, up to the order of the rows and columns: row `i` has a one on column `c i`, and all the other
rows have a zero there. -/
structure FileRref (q : ℕ) (r m : Nat) (l : List (Int × Int × Int)) (c : Nat → Nat) : Prop where
  lt : ∀ i, i < r → c i < m
  one : ∀ i, i < r → fileEntry q l i (c i) = 1
  zero : ∀ i k, i ≠ k → i < r → k < r → fileEntry q l k (c i) = 0

/-- There is a combination of the rows of the matrix that is row `i` of the matrix of the entries `l2`. -/
def Solvable (q n m : ℕ) (l l2 : List (Int × Int × Int)) (i : Nat) : Prop :=
  ∃ y : Fin n → ZMod q, Matrix.vecMul y (fileMat q n m l) = fun c : Fin m => fileEntry q l2 i c

open Classical in
/-- One warning for each of the rows before `k` for which `S` does not hold. -/
noncomputable def warnings (k : Nat) (S : Nat → Prop) : List Char :=
  (List.range k).flatMap fun i : Nat =>
    if S i then [] else "WARNING: no solution for row ".toList ++ dec (i : Int) ++ ['\n']

end Spasm
