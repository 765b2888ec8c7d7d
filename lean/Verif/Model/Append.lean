import Verif.Prelude
import Mathlib.Data.Fintype.Basic
import Mathlib.Logic.Function.Basic

/-
Concurrent appends to a preallocated array through an atomic counter, as in
src/spasm_solve.c:79-84 and src/spasm_schur.c (spasm_schur_dense, the "fill eliminations coeffs
in L" loop):

    #pragma omp atomic capture
    { k = X->nz; X->nz += 1; }
    Xi[k] = ...; Xj[k] = ...; Xx[k] = ...;

Transition system: each thread has a list of items to append, and possibly a slot it has already
captured.  Any thread with work left may do its next step at any time (sequential consistency).
The three arrays are modelled as one array of triples, and the three writes of an item are one
step; no other thread ever reads or writes this slot.
-/

namespace Spasm

/-- A thread: captured slot, items not yet written. -/
structure AThread (α : Type) where
  slot : Option Nat
  todo : List α

/-- The shared counter and array, and the threads. -/
structure ASt (α : Type) (T : Nat) where
  nz : Nat
  buf : Array α
  th : Fin T → AThread α

/-- One step of thread `t`; `none` if it has nothing left to do. -/
def astep {α : Type} {T : Nat} (t : Fin T) (s : ASt α T) : Option (C (ASt α T)) :=
  match s.th t with
  | ⟨_, []⟩ => none
  | ⟨none, e :: es⟩ =>
    some (.ok { s with nz := s.nz + 1, th := Function.update s.th t ⟨some s.nz, e :: es⟩ })
  | ⟨some k, e :: es⟩ =>
    some (do
      let b ← wr s.buf k e
      .ok { s with buf := b, th := Function.update s.th t ⟨none, es⟩ })

/-- Initial state: `nz` items already present, each thread has its list of items. -/
def ASt.init {α : Type} {T : Nat} (nz : Nat) (buf : Array α) (items : Fin T → List α) : ASt α T :=
  ⟨nz, buf, fun t => ⟨none, items t⟩⟩

/-- States reachable by interleaving the steps of the threads in any order. -/
inductive AReach {α : Type} {T : Nat} (s0 : ASt α T) : ASt α T → Prop
  | init : AReach s0 s0
  | step {s s' : ASt α T} {t : Fin T} : AReach s0 s → astep t s = some (.ok s') → AReach s0 s'

/-- All threads are done. -/
def ASt.Finished {α : Type} {T : Nat} (s : ASt α T) : Prop := ∀ t, (s.th t).todo = []

end Spasm
