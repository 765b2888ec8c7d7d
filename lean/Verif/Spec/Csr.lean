import Verif.Model.Csr
import Verif.Spec.ZZp
import Mathlib.Data.ZMod.Basic
import Mathlib.Algebra.BigOperators.Intervals
import Mathlib.Algebra.BigOperators.Ring.Finset
import Mathlib.LinearAlgebra.Matrix.Defs

/-
Specification vocabulary for sparse matrices: well-formedness and the matrix represented.
-/

namespace Spasm

open Finset

/-- The CSR structure is well-formed: row pointers start at 0, are nondecreasing, fit in the
buffers, and column indices are in range.  (Arrays may be larger than needed.) -/
structure Csr.WF (A : Csr) : Prop where
  p_size : A.n < A.p.size
  p_zero : A.p.g 0 = 0
  p_mono : ∀ i, i < A.n → A.p.g i ≤ A.p.g (i + 1)
  p_nnz : A.p.g A.n ≤ A.j.size
  j_lt : ∀ k, k < A.p.g A.n → A.j.g k < A.m
  x_size : ∀ a, A.x = some a → A.p.g A.n ≤ a.size
  field_ok : A.F.p < 0 ∨ (2 ≤ A.F.p ∧ A.F.p ≤ 0xfffffffb)

/-- The value stored at position `k` (1 if the matrix has no values). -/
def Csr.val (A : Csr) (k : Nat) : Int :=
  match A.x with
  | some a => a.g k
  | none => 1

/-- Well-formed, with small values modulo `q`. -/
structure Csr.WFV (A : Csr) (q : ℕ) : Prop extends Csr.WF A where
  good : A.F.Good q
  has_x : 0 < A.p.g A.n → A.x.isSome = true
  small : ∀ k, k < A.p.g A.n → Small q (A.val k)

/-- Entry `(i, j)` of the matrix represented, modulo `q` (entries at the same position add up). -/
def Csr.entry (A : Csr) (q : ℕ) (i j : Nat) : ZMod q :=
  ∑ k ∈ Ico (A.p.g i) (A.p.g (i + 1)), if A.j.g k = j then (A.val k : ZMod q) else 0

/-- The pair (column, value) stored at position `k`. -/
def Csr.ent (A : Csr) (k : Nat) : Nat × Int := (A.j.g k, A.val k)

/-- The pairs stored at positions `lo, ..., hi - 1`. -/
def Csr.seg (A : Csr) (lo hi : Nat) : List (Nat × Int) := (List.range' lo (hi - lo)).map A.ent

/-- Row `i`, as the list of its (column, value) pairs in storage order. -/
def Csr.row (A : Csr) (i : Nat) : List (Nat × Int) := A.seg (A.p.g i) (A.p.g (i + 1))

/-- Column `j` occurs in row `i`. -/
def Csr.InRow (A : Csr) (i j : Nat) : Prop :=
  ∃ k, A.p.g i ≤ k ∧ k < A.p.g (i + 1) ∧ A.j.g k = j

/-- The matrix represented, as a Mathlib matrix over `ZMod q`. -/
def Csr.toMat (A : Csr) (q : ℕ) : Matrix (Fin A.n) (Fin A.m) (ZMod q) :=
  fun i j => A.entry q i j

/-- A dense vector of the code, as a vector over `ZMod q`. -/
def vec (q : ℕ) (x : Array Int) (n : Nat) : Fin n → ZMod q := fun j => (x.g j : ZMod q)

/-- No column occurs twice in a row. -/
def Csr.NoDup (A : Csr) : Prop :=
  ∀ i, i < A.n → ∀ k l, A.p.g i ≤ k → k < A.p.g (i + 1) → A.p.g i ≤ l → l < A.p.g (i + 1) →
    A.j.g k = A.j.g l → k = l

/-- No explicit zero is stored. -/
def Csr.NoZero (A : Csr) : Prop := ∀ k, k < A.p.g A.n → A.val k ≠ 0

end Spasm
