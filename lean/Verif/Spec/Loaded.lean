import Verif.Spec.Text
import Verif.Spec.Triplet
import Verif.Spec.Csr

/-
What a matrix read from a file is.
-/

namespace Spasm

/-- Entries which are kept: all of them without values, those which are not zero modulo `q` with values. -/
def kept (vals : Bool) (q : ℕ) (e : Int × Int × Int) : Bool := !vals || decide ((e.2.2 : ZMod q) ≠ 0)

/-- Entry `e` of the file (numbered from 1) is stored as `t` (numbered from 0). -/
def Stored (vals : Bool) (q : ℕ) (e : Int × Int × Int) (t : Nat × Nat × Int) : Prop :=
  (t.1 : Int) + 1 = e.1 ∧ (t.2.1 : Int) + 1 = e.2.1 ∧
    if vals = true then Bal q t.2.2 ∧ (t.2.2 : ZMod q) = e.2.2 else t.2.2 = 1

/-- `T` is the matrix with the entries `l`, of size `n × m` or larger if some entries are outside; with values
modulo `q` or without. -/
structure Loaded (vals : Bool) (q : ℕ) (n m : Int) (l : List (Int × Int × Int)) (T : Triplet) : Prop where
  wf : T.WF
  n_eq : (T.n : Int) = (l.filter (kept vals q)).foldl (fun a e => max a e.1) n
  m_eq : (T.m : Int) = (l.filter (kept vals q)).foldl (fun a e => max a e.2.1) m
  lst : List.Forall₂ (Stored vals q) (l.filter (kept vals q)) T.lst

/-- All the entries of a CSR matrix: (row, column, value). -/
def Csr.lst (A : Csr) : List (Nat × Nat × Int) :=
  (List.range A.n).flatMap fun i => (A.row i).map fun e => (i, e.1, e.2)

/-- Entries numbered from 1. -/
def fromOne (l : List (Nat × Nat × Int)) : List (Int × Int × Int) :=
  l.map fun e => ((e.1 : Int) + 1, (e.2.1 : Int) + 1, e.2.2)

end Spasm
