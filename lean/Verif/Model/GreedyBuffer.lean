import Verif.Model.Greedy

/-
The parallel search for pivots of Model/Greedy.lean on a machine whose threads have store buffers: a write is first put into
the buffer of its thread, where only this thread sees it; it reaches the memory later.  Writes of a thread to different
locations may reach the memory in any order, writes to the same location keep theirs.

As in Model/StoreBuffer.lean, the thread waits until its buffer is empty when it enters and when it leaves the critical section,
and the counter `npiv`, which is modified by `atomic update` only, is not buffered.  Whether the atomic update waits for the
buffer of its thread depends on the machine (it does on x86, it does not have to according to OpenMP): parameter `strong`.

Not modelled: reads that are performed early, reorderings by the compiler.
-/

namespace Spasm.Greedy

/-- A write: into `pinv`, `qinv` or the journal. -/
inductive Item
  | pinv (i : Nat) (v : Int)
  | qinv (j : Nat) (v : Int)
  | jour (k j : Nat)
  deriving DecidableEq

/-- The effect of a write on the memory. -/
def Item.apply {T : Nat} (i : Item) (s : St T) : St T :=
  match i with
  | .pinv i v => { s with pinv := s.pinv.upd i v }
  | .qinv j v => { s with qinv := s.qinv.upd j v }
  | .jour k j => { s with journal := s.journal.upd k j }

/-- The two writes go to the same location. -/
def Item.conf : Item → Item → Bool
  | .pinv i _, .pinv i' _ => i == i'
  | .qinv j _, .qinv j' _ => j == j'
  | .jour k _, .jour k' _ => k == k'
  | _, _ => false

/-- `register_pivot` (src/spasm_pivots.c:11-32): as the function `register_pivot` of Model/Pivots.lean, but gives the
writes, in the order of the program, instead of the new arrays. -/
def register_writes (i j : Nat) (pinv qinv : Array Int) : C (Nat × List Item) := do
  let pinvi ← rd pinv i
  let qinvj ← rd qinv j
  cassert (decide (pinvi < 0) || decide (qinvj < 0))
  let (r, w1) ← if pinvi ≠ -1 then do
      let q ← rdI qinv pinvi
      cassert (decide (q = (i : Int)))
      cassert (decide (pinvi ≠ (j : Int)))
      let c ← idx pinvi
      .ok (0, [Item.qinv c (-1)])
    else .ok (1, [])
  let (r, w2) ← if qinvj ≠ -1 then do
      let p ← rdI pinv qinvj
      cassert (decide (p = (j : Int)))
      cassert (decide (qinvj ≠ (i : Int)))
      let c ← idx qinvj
      .ok (0, [Item.pinv c (-1)])
    else .ok (r, [])
  .ok (r, w1 ++ w2 ++ [.pinv i (j : Int), .qinv j (i : Int)])

/-- The memory with the private variables of the threads, the store buffers (oldest write first), and the threads that
have incremented `npiv` and have not left the critical section yet. -/
structure Buf (T : Nat) where
  s : St T
  buf : Fin T → List Item
  inc : Fin T → Bool

/-- What thread `t` reads: the memory with its own pending writes. -/
def Buf.view {T : Nat} (m : Buf T) (t : Fin T) : St T := (m.buf t).foldl (fun s i => i.apply s) m.s

/-- Thread `t` continues as `y` after putting the writes `l` into its buffer. -/
def Buf.push {T : Nat} (m : Buf T) (t : Fin T) (y : Thread) (l : List Item) : Buf T :=
  { m with s := m.s.set t y, buf := Function.update m.buf t (m.buf t ++ l) }

/-- One step of the program of thread `t`; line numbers refer to src/spasm_pivots.c.  Outside of the critical section the
program only writes private variables: these steps are those of `step`, except that reads take the pending writes of the
thread into account. -/
def bstep {T : Nat} (strong : Bool) (A : Csr) (t : Fin T) (m : Buf T) : Option (C (Buf T)) :=
  let y := m.s.th t
  let v := m.view t
  match y.pc with
  | .commit j =>      -- entrance of the critical section, with a flush (241-258)
    match m.s.lock, m.buf t with
    | none, [] =>
      if m.s.npiv = y.k then some (.ok { m with s := { m.s.set t { y with pc := .register j } with lock := some t } })
      else some (.ok { m with s := m.s.set t { y with pc := .examine m.s.npiv } })
    | _, _ => none
  | .register j => some (do -- 246
      let r ← register_writes y.i j v.pinv v.qinv
      .ok (m.push t { y with pc := .journal j r.1 } r.2))
  | .journal j r => some ( -- 247
      if m.s.npiv < v.journal.size then .ok (m.push t { y with pc := .publish j r } [.jour m.s.npiv j])
      else .error .ub)
  | .publish _ r =>
    if m.inc t then   -- exit of the critical section, with a flush (257-258)
      if m.buf t ≠ [] then none
      else some (.ok { m with s := { m.s.set t { y with pc := .clean } with lock := none },
                              inc := Function.update m.inc t false })
    else              -- atomic update (248-250)
      if strong = true ∧ m.buf t ≠ [] then none
      else some (.ok { m with s := { m.s with npiv := m.s.npiv + r }, inc := Function.update m.inc t true })
  | _ => (step A t v).map fun r => do
      let s ← r
      .ok { m with s := m.s.set t (s.th t) }

/-- The pending write number `k` of thread `t` reaches the memory; `none` if there is no such write, or if an older one
of this thread goes to the same location. -/
def bput {T : Nat} (t : Fin T) (k : Nat) (m : Buf T) : Option (Buf T) :=
  match (m.buf t)[k]? with
  | none => none
  | some i =>
    if ((m.buf t).take k).any (fun j => i.conf j) then none
    else some { m with s := i.apply m.s, buf := Function.update m.buf t ((m.buf t).eraseIdx k) }

/-- States reachable by any interleaving. -/
inductive BReach {T : Nat} (strong : Bool) (A : Csr) (m0 : Buf T) : Buf T → Prop
  | init : BReach strong A m0 m0
  | step {m m' : Buf T} {t : Fin T} :
      BReach strong A m0 m → bstep strong A t m = some (.ok m') → BReach strong A m0 m'
  | put {m m' : Buf T} {t : Fin T} {k : Nat} :
      BReach strong A m0 m → bput t k m = some m' → BReach strong A m0 m'

/-- Initial state: the buffers are empty. -/
def Buf.init {T : Nat} (s : St T) : Buf T := ⟨s, fun _ => [], fun _ => false⟩

/-- All threads are done and all their writes have reached the memory. -/
def Buf.Finished {T : Nat} (m : Buf T) : Prop := m.s.Finished ∧ ∀ t, m.buf t = []

end Spasm.Greedy
