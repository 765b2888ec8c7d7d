import Verif.Model.Triplet
import Verif.Spec.Csr

namespace Spasm

open Finset

/-- Well-formed triplet matrix modulo `q`: indices inside the dimensions, entries inside the
buffers, values balanced and nonzero. -/
structure Triplet.WF (T : Triplet) : Prop where
  i_size : T.nz ≤ T.i.size
  j_size : T.j.size = T.i.size
  x_size : ∀ a, T.x = some a → a.size = T.i.size
  i_lt : ∀ k, k < T.nz → T.i.g k < T.n
  j_lt : ∀ k, k < T.nz → T.j.g k < T.m
  field_ok : T.F.p < 0 ∨ (2 ≤ T.F.p ∧ T.F.p ≤ 0xfffffffb)

/-- Value number `k` (1 if the matrix has no values). -/
def Triplet.val (T : Triplet) (k : Nat) : Int :=
  match T.x with
  | some a => a.g k
  | none => 1

/-- Well-formed, with balanced nonzero values modulo `q`. -/
structure Triplet.WFV (T : Triplet) (q : ℕ) : Prop extends Triplet.WF T where
  good : T.F.Good q
  has_x : T.x.isSome = true
  bal : ∀ k, k < T.nz → Bal q (T.val k) ∧ T.val k ≠ 0

/-- The sum of the entries at `(i, j)`. -/
def Triplet.sum (T : Triplet) (q : ℕ) (i j : Nat) : ZMod q :=
  ∑ k ∈ range T.nz, if T.i.g k = i ∧ T.j.g k = j then (T.val k : ZMod q) else 0

/-- The entries of a triplet matrix. -/
def Triplet.lst (Z : Triplet) : List (Nat × Nat × Int) :=
  (List.range Z.nz).map fun k => (Z.i.g k, Z.j.g k, Z.val k)

/-- Some entry is stored at `(i, j)`. -/
def Triplet.Has (T : Triplet) (i j : Nat) : Prop := ∃ k, k < T.nz ∧ T.i.g k = i ∧ T.j.g k = j

end Spasm
