import Verif.Model.Schur
import Verif.Model.Kernel
import Verif.Model.Rref

/-
The commit protocol of Model/Commit.lean on a machine whose threads have store buffers: a write is first put into the
buffer of its thread, where only this thread sees it; it reaches the memory later.  Writes of a thread to different
locations may reach the memory in any order, writes to the same location keep theirs.  (x86 processors are such machines,
with less freedom: there writes reach the memory in program order.)

Accesses that are not subject to this: the lock of the critical section, whose entry and exit imply a flush in OpenMP
(the thread waits until its buffer is empty), and the counter `writing`, which is only modified by `atomic update`.  An
atomic update acts directly on the memory.  Whether it also waits until the buffer of its thread is empty depends on the
machine: it does on x86 (instructions with the `lock` prefix); it does not have to according to OpenMP (since version 5.0
an `atomic` construct without a memory-order clause is `relaxed`).  The parameter `strong` makes this choice.

Not modelled: reads that are performed early, reorderings by the compiler.
-/

namespace Spasm.Commit

/-- A write of a thread.
* `cell`: in component array `c` of buffer `b`, at position `k`, of the allocation number `g`;
* `tag`: in `p_out`; `rowp`: in the row pointers;
* `ptr`: a pointer to a component array is set to allocation `g`;
* `block`: a buffer has been reallocated: its new size, number and contents;
* `rows`, `used`: the counters `Sn` and `snz`, `lnz`. -/
inductive Item
  | cell (b g c k : Nat) (v : Int)
  | tag (i v : Nat)
  | rowp (i v : Nat)
  | ptr (b c g : Nat)
  | block (b cap gen : Nat) (mem : Nat → Nat → Int)
  | rows (v : Nat)
  | used (b v : Nat)

/-- The effect of a write on the memory. -/
def Item.apply {T : Nat} (i : Item) (s : St T) : St T :=
  match i with
  | .cell b _ c k v => { s with mem := upd s.mem b (upd (s.mem b) c (upd (s.mem b c) k v)) }
  | .tag i v => { s with tags := s.tags.setIfInBounds i v }
  | .rowp i v => { s with rowp := s.rowp.setIfInBounds i v }
  | .ptr b c g => { s with ptr := upd s.ptr b (upd (s.ptr b) c g) }
  | .block b cap gen mem => { s with cap := upd s.cap b cap, gen := upd s.gen b gen, mem := upd s.mem b mem }
  | .rows v => { s with rows := v }
  | .used b v => { s with used := upd s.used b v }

/-- A write reaches the memory.  Undefined behaviour: the write goes to an allocation that has been freed, or beyond its
size. -/
def Item.put {T : Nat} (i : Item) (s : St T) : C (St T) :=
  match i with
  | .cell b g _ k _ => if g = s.gen b ∧ k < s.cap b then .ok (i.apply s) else .error .ub
  | _ => .ok (i.apply s)

/-- The two writes have a location in common. -/
def Item.conf : Item → Item → Bool
  | .cell b _ c k _, .cell b' _ c' k' _ => b == b' && c == c' && k == k'
  | .cell b _ _ _ _, .block b' _ _ _ => b == b'
  | .block b _ _ _, .cell b' _ _ _ _ => b == b'
  | .block b _ _ _, .block b' _ _ _ => b == b'
  | .tag i _, .tag i' _ => i == i'
  | .rowp i _, .rowp i' _ => i == i'
  | .ptr b c _, .ptr b' c' _ => b == b' && c == c'
  | .rows _, .rows _ => true
  | .used b _, .used b' _ => b == b'
  | _, _ => false

/-- The memory, with the registers of the threads, and the store buffers (oldest write first). -/
structure Buf (T : Nat) where
  s : St T
  buf : Fin T → List Item

/-- What thread `t` reads: the memory with its own pending writes. -/
def Buf.view {T : Nat} (m : Buf T) (t : Fin T) : St T := (m.buf t).foldl (fun s i => i.apply s) m.s

/-- Thread `t` continues as `x` after putting the writes `l` into its buffer. -/
def Buf.push {T : Nat} (m : Buf T) (t : Fin T) (x : Thread) (l : List Item) : Buf T :=
  ⟨m.s.set t x, Function.update m.buf t (m.buf t ++ l)⟩

/-- One step of the program of thread `t`; line numbers refer to src/spasm_schur.c.  As `step`, except that reads take
the pending writes of the thread into account, and that writes go to its buffer. -/
def bstep {T : Nat} (strong : Bool) (cfg : Cfg) (junk : Nat → Int) (t : Fin T) (m : Buf T) : Option (C (Buf T)) :=
  let x := m.s.th t
  let v := m.view t
  match x.pc with
  | .idle =>      -- entrance of the critical section, with a flush (114)
    match x.todo with
    | [] => none
    | j :: js =>
      match m.s.lock, m.buf t with
      | none, [] => some (.ok { m with s := { m.s.set t { x with pc := .test 0, job := j, todo := js } with
                                              lock := some t } })
      | _, _ => none
  | .test b =>    -- 117, 133
    if v.used b + cfg.need b (x.job.len b) > v.cap b
    then some (.ok (m.push t { x with pc := .wait b } []))
    else some (.ok (m.push t { x with pc := .reserve b } []))
  | .wait b =>    -- 119-122, 135-138
    if m.s.writing > 0 then some (.ok m)
    else some (.ok (m.push t { x with pc := .realloc b } []))
  | .realloc b => -- 123, 139
    some (.ok (m.push t { x with pc := .refresh b 0 }
      [.block b (cfg.grow b (v.cap b) (x.job.len b)) (v.gen b + 1)
        (fun c k => if k < v.cap b then v.mem b c k else junk k)]))
  | .refresh b c => -- 124-125, 140-142
    if c < cfg.wid b
    then some (.ok (m.push t { x with pc := .refresh b (c + 1) } [.ptr b c (v.gen b)]))
    else some (.ok (m.push t { x with pc := .reserve b } []))
  | .reserve b => -- 128-131, 144-145
    if b = 0
    then some (.ok (m.push t { x with pc := nextBuf cfg b, li := v.rows, lo := upd x.lo b (v.used b) }
      [.rows (v.rows + 1), .used b (v.used b + x.job.len b)]))
    else some (.ok (m.push t { x with pc := nextBuf cfg b, lo := upd x.lo b (v.used b) }
      [.used b (v.used b + x.job.len b)]))
  | .enter =>     -- atomic update (147-148)
    if strong = true ∧ m.buf t ≠ [] then none
    else some (.ok { m with s := { m.s.set t { x with pc := .unlock } with writing := m.s.writing + 1 } })
  | .unlock =>    -- exit of the critical section, with a flush (149)
    if m.buf t ≠ [] then none
    else some (.ok { m with s := { m.s.set t { x with pc := .tag } with lock := none } })
  | .tag =>       -- 152-154
    if x.li < v.tags.size
    then some (.ok (m.push t { x with pc := .write x.job.ws } [.tag x.li x.job.tag]))
    else some (.error .ub)
  | .write [] => some (.ok (m.push t { x with pc := .rowptr } []))
  | .write (w :: ws) => -- 156-171
    some (.ok (m.push t { x with pc := .write ws }
      [.cell w.b (v.ptr w.b w.c) w.c (x.lo w.b + w.off) w.v]))
  | .rowptr =>    -- 172
    if x.li + 1 < v.rowp.size
    then some (.ok (m.push t { x with pc := .leave } [.rowp (x.li + 1) (x.lo 0 + x.job.emitted)]))
    else some (.error .ub)
  | .leave =>     -- atomic update (174-175)
    if strong = true ∧ m.buf t ≠ [] then none
    else some (.ok { m with s := { m.s.set t { x with pc := .idle } with writing := m.s.writing - 1 } })

/-- The pending write number `k` of thread `t` reaches the memory; `none` if there is no such write, or if an older one
of this thread goes to the same location. -/
def bput {T : Nat} (t : Fin T) (k : Nat) (m : Buf T) : Option (C (Buf T)) :=
  match (m.buf t)[k]? with
  | none => none
  | some i =>
    if ((m.buf t).take k).any (fun j => i.conf j) then none
    else some (do
      let s ← i.put m.s
      .ok ⟨s, Function.update m.buf t ((m.buf t).eraseIdx k)⟩)

/-- States reachable by any interleaving. -/
inductive BReach {T : Nat} (strong : Bool) (cfg : Cfg) (junk : Nat → Int) (m0 : Buf T) : Buf T → Prop
  | init : BReach strong cfg junk m0 m0
  | step {m m' : Buf T} {t : Fin T} :
      BReach strong cfg junk m0 m → bstep strong cfg junk t m = some (.ok m') → BReach strong cfg junk m0 m'
  | put {m m' : Buf T} {t : Fin T} {k : Nat} :
      BReach strong cfg junk m0 m → bput t k m = some (.ok m') → BReach strong cfg junk m0 m'

/-- Initial state: the buffers are empty. -/
def Buf.init {T : Nat} (s : St T) : Buf T := ⟨s, fun _ => []⟩

/-- All threads are done and all their writes have reached the memory. -/
def Buf.Finished {T : Nat} (m : Buf T) : Prop := m.s.Finished ∧ ∀ t, m.buf t = []

end Spasm.Commit

namespace Spasm

open Commit

/-- A possible result of `spasm_schur` on a machine with store buffers; see `SchurRun`.  At the end of the parallel region
there is a barrier, which implies a flush. -/
def SchurRunBuf (strong : Bool) (jk : Junk) (A : Csr) (p : Array Nat) (n : Nat) (U : Csr) (qinv : Array Int)
    (size : Nat) (L : Option Triplet) (p_in : Option (Array Nat)) (p_out : Array Nat)
    (S : Csr) (L' : Option Triplet) (p_out' : Array Nat) : Prop :=
  ∃ (T : Nat) (rows : Fin T → List Nat) (jobs : Fin T → List Job) (S0 : Csr) (m : Buf T),
    ∑ t, (rows t : Multiset Nat) = Multiset.range n ∧
    (∀ t, schur_thread jk A U qinv L.isSome p_in p (rows t) = .ok (jobs t)) ∧
    csr_alloc jk n A.m size A.F.p true = .ok S0 ∧
    BReach strong (schurCfg A.m L.isSome) jk.int (Buf.init (schur_init S0 L p_out jobs)) m ∧ m.Finished ∧
    schur_finish jk m.s n A.m S0.F L = .ok (S, L') ∧ m.s.tags = p_out'

/-- A possible result of `spasm_kernel` on a machine with store buffers; see `KernelRun`. -/
def KernelRunBuf (strong : Bool) (jk : Junk) (U : Csr) (qinv : Array Int) (K : Csr) : Prop :=
  ∃ (T : Nat) (cols : Fin T → List Nat) (jobs : Fin T → List Job) (Ut K0 : Csr)
    (utqinv : Array Int) (m : Buf T),
    ∑ t, (cols t : Multiset Nat) = Multiset.range U.m ∧
    kernel_pre jk U qinv = .ok (Ut, K0, utqinv) ∧
    (∀ t, kernel_thread jk U.n U.m Ut qinv utqinv (cols t) = .ok (jobs t)) ∧
    BReach strong kernelCfg jk.int (Buf.init (rows_init K0 U.m jobs)) m ∧ m.Finished ∧
    K = m.s.toCsr K0.n K0.m K0.F

/-- A possible result of `spasm_rref` on a machine with store buffers; see `RrefRun`. -/
def RrefRunBuf (strong : Bool) (jk : Junk) (U : Csr) (qinv Rqinv : Array Int) (R : Csr) (Rqinv' : Array Int) : Prop :=
  ∃ (T : Nat) (rows : Fin T → List Nat) (jobs : Fin T → List Job) (R0 : Csr) (k : Nat) (m : Buf T),
    ∑ t, (rows t : Multiset Nat) = Multiset.range U.n ∧
    nnz U = .ok k ∧ csr_alloc jk U.n U.m k U.F.p true = .ok R0 ∧
    (∀ t, rref_thread jk U qinv (rows t) = .ok (jobs t)) ∧
    BReach strong (rrefCfg U.m) jk.int (Buf.init (rows_init R0 U.n jobs)) m ∧ m.Finished ∧
    R = m.s.toCsr R0.n R0.m R0.F ∧ rref_qinv R Rqinv = .ok Rqinv'

end Spasm
