import Verif.Model.Triplet
import Mathlib.Logic.Function.Basic
import Mathlib.Data.Fintype.Basic

/-
The protocol by which the threads of a parallel loop append their rows to a shared sparse matrix
that is enlarged when needed:

* src/spasm_schur.c:112-175 (spasm_schur, rows of S and entries of L, critical section
  `schur_complement`),
* src/spasm_kernel.c:64-108 (spasm_kernel, critical section `kernel`),
* src/spasm_rref.c:79-118 (spasm_rref, critical section `rref`).

All three have the same shape.  Inside the critical section, for each output buffer (S, then L if
present): if there is not enough room, spin until `writing == 0`, reallocate, and update the shared
pointers to the arrays of the buffer; then reserve the range of the row by advancing the shared
counters; at the end of the critical section `writing` is atomically incremented.  Outside of the
critical section, the thread writes its row through the shared pointers, then the row pointer, then
decrements `writing`.

The transition system interleaves the steps of the threads arbitrarily (sequential consistency).
A buffer is a group of component arrays that are reallocated together (S: j, x; L: i, j, x), each
accessed through its own shared pointer variable.  Steps that only touch data protected by the
critical section are merged when nothing can be observed in between: the test of the room and the
reservation are one step each, and `spasm_csr_realloc` is one step (it happens while no thread is
between its increment and its decrement of `writing`, which is proved); the updates of the pointers
are separate steps.  Writing through a pointer that does not point to the current allocation, or
beyond its size, is undefined behaviour.  Contents of `int` and `ZZp` arrays are integers.
-/

namespace Spasm.Commit

/-- A write of a row: value `v` at offset `off` in component array `c` of buffer `b`. -/
structure Wr where
  b : Nat
  off : Nat
  c : Nat
  v : Int
  deriving DecidableEq

/-- What a thread has computed for a row before the critical section: the number of entries
counted for each buffer (`row_snz`, `row_lnz`), the writes, in program order, of the second loop,
and the value stored in `p_out`. -/
structure Job where
  len : Nat → Nat
  ws : List Wr
  tag : Nat

/-- The number of entries written in the first buffer: `local_snz` has been incremented that many
times when it is stored in the row pointers. -/
def Job.emitted (j : Job) : Nat := (j.ws.filter fun w => decide (w.b = 0 ∧ w.c = 0)).length

/-- The parameters of an instance: number of buffers, number of component arrays of each buffer,
the quantity added to the counter in the test of the room, the new size. -/
structure Cfg where
  nb : Nat
  wid : Nat → Nat
  need : Nat → Nat → Nat
  grow : Nat → Nat → Nat → Nat

/-- Program counter of a thread. -/
inductive Pc
  | idle
  | test (b : Nat)
  | wait (b : Nat)
  | realloc (b : Nat)
  | refresh (b c : Nat)
  | reserve (b : Nat)
  | enter
  | unlock
  | tag
  | write (ws : List Wr)
  | rowptr
  | leave

/-- A thread: program counter, current row, rows not started yet, `local_i`, `local_snz` and
`local_lnz`. -/
structure Thread where
  pc : Pc
  job : Job
  todo : List Job
  li : Nat
  lo : Nat → Nat

/-- Shared variables: the owner of the critical section, `writing`, `Sn`, the counters `snz` and
`lnz`, the allocated sizes, the identity of the current allocation of each buffer, the allocation
each shared pointer points to, the contents, the row pointers and `p_out`. -/
structure St (T : Nat) where
  lock : Option (Fin T)
  writing : Nat
  rows : Nat
  used : Nat → Nat
  cap : Nat → Nat
  gen : Nat → Nat
  ptr : Nat → Nat → Nat
  mem : Nat → Nat → Nat → Int
  rowp : Array Nat
  tags : Array Nat
  th : Fin T → Thread

/-- Replace the state of thread `t`. -/
def St.set {T : Nat} (s : St T) (t : Fin T) (x : Thread) : St T :=
  { s with th := Function.update s.th t x }

/-- Pointwise update of a function. -/
def upd {α : Type} (f : Nat → α) (k : Nat) (v : α) : Nat → α := fun i => if i = k then v else f i

/-- Next program point after the reservation in buffer `b`. -/
def nextBuf (cfg : Cfg) (b : Nat) : Pc := if b + 1 < cfg.nb then .test (b + 1) else .enter

/-- One step of thread `t`; `none` when it cannot move (finished, or blocked at the entrance of the
critical section).  Line numbers refer to src/spasm_schur.c; `junk` is the content of fresh memory. -/
def step {T : Nat} (cfg : Cfg) (junk : Nat → Int) (t : Fin T) (s : St T) : Option (C (St T)) :=
  let x := s.th t
  match x.pc with
  | .idle =>      -- entrance of the critical section (114)
    match x.todo with
    | [] => none
    | j :: js =>
      match s.lock with
      | some _ => none
      | none => some (.ok { s.set t { x with pc := .test 0, job := j, todo := js } with
                            lock := some t })
  | .test b =>    -- 117, 133
    if s.used b + cfg.need b (x.job.len b) > s.cap b
    then some (.ok (s.set t { x with pc := .wait b }))
    else some (.ok (s.set t { x with pc := .reserve b }))
  | .wait b =>    -- 119-122, 135-138
    if s.writing > 0 then some (.ok s)
    else some (.ok (s.set t { x with pc := .realloc b }))
  | .realloc b => -- 123, 139
    some (.ok { s.set t { x with pc := .refresh b 0 } with
      cap := upd s.cap b (cfg.grow b (s.cap b) (x.job.len b)),
      gen := upd s.gen b (s.gen b + 1),
      mem := upd s.mem b (fun c k => if k < s.cap b then s.mem b c k else junk k) })
  | .refresh b c => -- 124-125, 140-142
    if c < cfg.wid b
    then some (.ok { s.set t { x with pc := .refresh b (c + 1) } with
      ptr := upd s.ptr b (upd (s.ptr b) c (s.gen b)) })
    else some (.ok (s.set t { x with pc := .reserve b }))
  | .reserve b => -- 128-131, 144-145
    if b = 0
    then some (.ok { s.set t { x with pc := nextBuf cfg b, li := s.rows,
                                      lo := upd x.lo b (s.used b) } with
      rows := s.rows + 1, used := upd s.used b (s.used b + x.job.len b) })
    else some (.ok { s.set t { x with pc := nextBuf cfg b, lo := upd x.lo b (s.used b) } with
      used := upd s.used b (s.used b + x.job.len b) })
  | .enter =>     -- 147-148
    some (.ok { s.set t { x with pc := .unlock } with writing := s.writing + 1 })
  | .unlock =>    -- 149
    some (.ok { s.set t { x with pc := .tag } with lock := none })
  | .tag =>       -- 152-154
    some (do
      let a ← wr s.tags x.li x.job.tag
      .ok { s.set t { x with pc := .write x.job.ws } with tags := a })
  | .write [] => some (.ok (s.set t { x with pc := .rowptr }))
  | .write (w :: ws) => -- 156-171
    if s.ptr w.b w.c = s.gen w.b ∧ x.lo w.b + w.off < s.cap w.b
    then some (.ok { s.set t { x with pc := .write ws } with
      mem := upd s.mem w.b (upd (s.mem w.b) w.c (upd (s.mem w.b w.c) (x.lo w.b + w.off) w.v)) })
    else some (.error .ub)
  | .rowptr =>    -- 172
    some (do
      let a ← wr s.rowp (x.li + 1) (x.lo 0 + x.job.emitted)
      .ok { s.set t { x with pc := .leave } with rowp := a })
  | .leave =>     -- 174-175
    some (.ok { s.set t { x with pc := .idle } with writing := s.writing - 1 })

/-- States reachable by any interleaving. -/
inductive Reach {T : Nat} (cfg : Cfg) (junk : Nat → Int) (s0 : St T) : St T → Prop
  | init : Reach cfg junk s0 s0
  | step {s s' : St T} {t : Fin T} :
      Reach cfg junk s0 s → step cfg junk t s = some (.ok s') → Reach cfg junk s0 s'

/-- Initial state: capacities `cap`, `used b` entries already in buffer `b`, thread `t` has the
rows `jobs t`. -/
def St.init {T : Nat} (cap used : Nat → Nat) (mem : Nat → Nat → Nat → Int) (rowp tags : Array Nat)
    (junkJob : Job) (jobs : Fin T → List Job) : St T :=
  { lock := none, writing := 0, rows := 0, used := used, cap := cap, gen := fun _ => 0,
    ptr := fun _ _ => 0, mem := mem, rowp := rowp, tags := tags,
    th := fun t => { pc := .idle, job := junkJob, todo := jobs t, li := 0, lo := fun _ => 0 } }

/-- All threads are done. -/
def St.Finished {T : Nat} (s : St T) : Prop := ∀ t, (s.th t).pc = .idle ∧ (s.th t).todo = []

/-- The CSR matrix held by buffer 0 (component 0: column indices, component 1: values). -/
def St.toCsr {T : Nat} (s : St T) (n m : Nat) (F : Field) : Csr :=
  { n := n, m := m, p := s.rowp, j := mkArr (s.cap 0) (fun k => (s.mem 0 0 k).toNat),
    x := some (mkArr (s.cap 0) (fun k => s.mem 0 1 k)), F := F }

/-- The triplet matrix held by buffer 1 (components: row indices, column indices, values). -/
def St.toTriplet {T : Nat} (s : St T) (n m : Nat) (F : Field) : Triplet :=
  { n := n, m := m, nz := s.used 1, i := mkArr (s.cap 1) (fun k => (s.mem 1 0 k).toNat),
    j := mkArr (s.cap 1) (fun k => (s.mem 1 1 k).toNat),
    x := some (mkArr (s.cap 1) (fun k => s.mem 1 2 k)), F := F }

end Spasm.Commit
