import Verif.Model.Pivots
import Mathlib.Logic.Function.Basic
import Mathlib.Data.Fintype.Basic

/-
Model of spasm_find_cycle_free_pivots (src/spasm_pivots.c:125-294): the parallel search, as a
transition system that interleaves the steps of the threads arbitrarily (sequential consistency).

Shared variables: `npiv`, `pinv`, `qinv`, `journal` and the (unnamed) critical section.  A step does at
most one access to a shared variable that another thread may access at the same time; accesses to the
private variables of the thread are merged with it.  In more detail:
* `pinv[i]` is accessed only by the thread that owns row `i`, hence `register_pivot` (which writes
  `pinv[i]` and `qinv[j]`) is one step;
* the critical section is the only place where `npiv` is written: when the commit fails, entering,
  reading `npiv` and leaving are one step; when it succeeds, entering and reading `npiv`, registering
  the pivot, writing the journal, and incrementing `npiv` and leaving are four steps.
The iterations of the `omp for` loop are distributed dynamically: a thread has a list of rows that it
will process in order.  Any execution of the C program yields such lists, each row in exactly one of
them; the theorems hold for all lists.  `char` is signed (it holds -1).  The progress messages and the
counter `processed` are not modelled.
-/

namespace Spasm.Greedy

/-- The private variables of a search: marks, queue, number of surviving entries. -/
structure Srch where
  w : Array Int
  queue : Array Nat
  head : Nat
  tail : Nat
  surv : Int

/-- `BFS_enqueue` (src/spasm_pivots.c:129-134). -/
def bfs_enqueue (x : Srch) (j : Nat) : C Srch := do
  let queue ← wr x.queue x.tail j
  let wj ← rd x.w j
  let w ← wr x.w j (-1)
  .ok { x with w := w, queue := queue, tail := x.tail + 1, surv := x.surv - wj }

/-- `BFS_enqueue_row` (src/spasm_pivots.c:136-144). -/
def bfs_enqueue_row (A : Csr) (x : Srch) (i : Nat) : C Srch := do
  let lo ← rd A.p i
  let hi ← rd A.p (i + 1)
  forRange lo hi x fun px x => do
    let j ← rd A.j px
    let wj ← rd x.w j
    if 0 ≤ wj then bfs_enqueue x j else .ok x

/-- One iteration of the loop that scatters row `i` (src/spasm_pivots.c:207-215). -/
def scatter_entry (A : Csr) (qinv : Array Int) (x : Srch) (px : Nat) : C Srch := do
  let j ← rd A.j px
  let qj ← rd qinv j
  if qj < 0 then do
    let w ← wr x.w j 1
    .ok { x with w := w, surv := x.surv + 1 }
  else bfs_enqueue x j

/-- One iteration of the search loop (src/spasm_pivots.c:219-225). -/
def bfs_pop (A : Csr) (qinv : Array Int) (x : Srch) : C Srch := do
  let j ← rd x.queue x.head
  let I ← rd qinv j
  if I = -1 then .ok { x with head := x.head + 1 }
  else do
    let i ← idx I
    bfs_enqueue_row A { x with head := x.head + 1 } i

/-- The first surviving entry of row `i` (src/spasm_pivots.c:232-238). -/
def survivor (A : Csr) (x : Srch) (i : Nat) : C Nat := do
  let lo ← rd A.p i
  let hi ← rd A.p (i + 1)
  let (_, j) ← forBrk lo hi (-1 : Int) fun px (_ : Int) => do
    let j ← rd A.j px
    let wj ← rd x.w j
    if wj = 1 then .ok (.brk (j : Int)) else .ok (.cont (j : Int))
  cassert (decide (j ≠ -1))
  idx j

/-- One iteration of the loop that examines the pivots found by other threads
(src/spasm_pivots.c:261-273). -/
def examine (A : Csr) (qinv : Array Int) (x : Srch) (j : Nat) : C Srch := do
  let wj ← rd x.w j
  if wj = 0 then .ok x
  else if wj = 1 then bfs_enqueue x j
  else do
    let I ← rd qinv j
    let i ← idx I
    bfs_enqueue_row A x i

/-- Reset of the marks (src/spasm_pivots.c:278-285). -/
def cleanup (A : Csr) (x : Srch) (i : Nat) : C (Array Int) := do
  let lo ← rd A.p i
  let hi ← rd A.p (i + 1)
  let w ← forRange lo hi x.w fun px w => do
    let j ← rd A.j px
    wr w j 0
  forRange 0 x.tail w fun px w => do
    let j ← rd x.queue px
    wr w j 0

/-- Program counter of a thread. -/
inductive Pc
  | idle
  | start
  | scatter (px : Nat)
  | bfs
  | commit (j : Nat)
  | register (j : Nat)
  | journal (j r : Nat)
  | publish (j r : Nat)
  | examine (target : Nat)
  | clean
  deriving DecidableEq

/-- A thread: program counter, current row, rows not started yet, `npiv_local`, search. -/
structure Thread where
  pc : Pc
  i : Nat
  todo : List Nat
  k : Nat
  x : Srch

/-- Shared variables and threads. -/
structure St (T : Nat) where
  lock : Option (Fin T)
  npiv : Nat
  pinv : Array Int
  qinv : Array Int
  journal : Array Nat
  th : Fin T → Thread

/-- Replace the state of thread `t`. -/
def St.set {T : Nat} (s : St T) (t : Fin T) (y : Thread) : St T :=
  { s with th := Function.update s.th t y }

/-- One step of thread `t`; `none` when it cannot move (finished, or waiting for the critical
section).  Line numbers refer to src/spasm_pivots.c. -/
def step {T : Nat} (A : Csr) (t : Fin T) (s : St T) : Option (C (St T)) :=
  let y := s.th t
  match y.pc with
  | .idle =>          -- 192-193
    match y.todo with
    | [] => none
    | i :: is => some (do
        let pi ← rd s.pinv i
        if 0 ≤ pi then .ok (s.set t { y with todo := is })
        else .ok (s.set t { y with pc := .start, i := i, todo := is }))
  | .start => some (do -- 199-207
      let lo ← rd A.p y.i
      .ok (s.set t { y with pc := .scatter lo, k := s.npiv,
                            x := { y.x with head := 0, tail := 0, surv := 0 } }))
  | .scatter px => some (do -- 207-215
      let hi ← rd A.p (y.i + 1)
      if px < hi then do
        let x ← scatter_entry A s.qinv y.x px
        .ok (s.set t { y with pc := .scatter (px + 1), x := x })
      else .ok (s.set t { y with pc := .bfs }))
  | .bfs => some (    -- 219-238
      if y.x.head < y.x.tail ∧ 0 < y.x.surv then do
        let x ← bfs_pop A s.qinv y.x
        .ok (s.set t { y with x := x })
      else if y.x.surv = 0 then .ok (s.set t { y with pc := .clean })
      else do
        let j ← survivor A y.x y.i
        .ok (s.set t { y with pc := .commit j }))
  | .commit j =>      -- 241-258
    match s.lock with
    | some _ => none
    | none =>
      if s.npiv = y.k then some (.ok { s.set t { y with pc := .register j } with lock := some t })
      else some (.ok (s.set t { y with pc := .examine s.npiv }))
  | .register j => some (do -- 246
      let r ← register_pivot y.i j s.pinv s.qinv
      .ok { s.set t { y with pc := .journal j r.1 } with pinv := r.2.1, qinv := r.2.2 })
  | .journal j r => some (do -- 247
      let a ← wr s.journal s.npiv j
      .ok { s.set t { y with pc := .publish j r } with journal := a })
  | .publish _ r =>   -- 248-250, 257-258
    some (.ok { s.set t { y with pc := .clean } with npiv := s.npiv + r, lock := none })
  | .examine target => some ( -- 261-274
      if y.k < target then do
        let j ← rd s.journal y.k
        let x ← examine A s.qinv y.x j
        .ok (s.set t { y with k := y.k + 1, x := x })
      else .ok (s.set t { y with pc := .bfs }))
  | .clean => some (do -- 276-285
      let w ← cleanup A y.x y.i
      .ok (s.set t { y with pc := .idle, x := { y.x with w := w } }))

/-- States reachable by any interleaving. -/
inductive Reach {T : Nat} (A : Csr) (s0 : St T) : St T → Prop
  | init : Reach A s0 s0
  | step {s s' : St T} {t : Fin T} : Reach A s0 s → step A t s = some (.ok s') → Reach A s0 s'

/-- Initial state (src/spasm_pivots.c:148-171): nothing found yet, marks are zero, the journal and the
queues are not initialized; thread `t` has the rows `rows t`. -/
def St.init {T : Nat} (A : Csr) (jk : Junk) (pinv qinv : Array Int) (rows : Fin T → List Nat) : St T :=
  { lock := none, npiv := 0, pinv := pinv, qinv := qinv, journal := mkArr A.n jk.nat,
    th := fun t => { pc := .idle, i := 0, todo := rows t, k := 0,
                     x := { w := mkArr A.m fun _ => 0, queue := mkArr A.m jk.nat, head := 0,
                            tail := 0, surv := 0 } } }

/-- All threads are done. -/
def St.Finished {T : Nat} (s : St T) : Prop := ∀ t, (s.th t).pc = .idle ∧ (s.th t).todo = []

end Spasm.Greedy
