import Verif.Model.Kernel

/-
Model of `spasm_rref` (src/spasm_rref.c:22-147).  Same conventions as Model/Kernel.lean.
-/

namespace Spasm

open Commit Finset

/-- One buffer; test of the room on line 84, new size on line 90. -/
def rrefCfg (m : Nat) : Cfg :=
  { nb := 1, wid := fun _ => 2, need := fun _ _ => m, grow := fun _ nzmax _ => 2 * nzmax + m }

/-- Moves the pivot to the front (src/spasm_rref.c:63-69). -/
def rref_front (m pivot : Nat) (w : Dfs) : C Dfs := do
  let (_, xj) ← forBrk (w.top + 1) m w.xj fun px xj => do
    let j ← rd xj px
    if j = pivot then do
      let t ← rd xj w.top
      let xj ← wr xj px t
      let xj ← wr xj w.top pivot
      .ok (.brk xj)
    else .ok (.cont xj)
  let t ← rd xj w.top
  cassert (t = pivot)
  .ok { w with xj := xj }

/-- The body of the parallel loop for row `i` (src/spasm_rref.c:57-77, 105-114): workspace, `x`,
`qinv_local`, row to be committed. -/
def rref_row (U : Csr) (i : Nat) (w : Dfs) (x ql : Array Int) :
    C (Dfs × Array Int × Array Int × Job) := do
  let pi ← rd U.p i
  let pivot ← rd U.j pi
  let qp ← rd ql pivot
  cassert (qp = (i : Int))
  let ql ← wr ql pivot (-1)
  let (w, x) ← sparse_triangular_solve U U i w x ql
  let w ← rref_front U.m pivot w
  let row_nz ← forRange w.top U.m 0 fun px (s : Nat) => do
    let j ← rd w.xj px
    let qj ← rd ql j
    let v ← rd x j
    if qj < 0 ∧ v ≠ 0 then .ok (s + 1) else .ok s
  let (ws, _) ← forRange w.top U.m ([], 0) fun px (s : List Wr × Nat) => do
    let j ← rd w.xj px
    let qj ← rd ql j
    let v ← rd x j
    if qj < 0 ∧ v ≠ 0 then .ok (s.1 ++ [⟨0, s.2, 0, j⟩, ⟨0, s.2, 1, v⟩], s.2 + 1)
    else .ok s
  let ql ← wr ql pivot i
  .ok (w, x, ql, { len := fun _ => row_nz, ws := ws, tag := i })

/-- The iterations `is` of the parallel loop, in order. -/
def rref_rows (U : Csr) : List Nat → Dfs → Array Int → Array Int → C (List Job)
  | [], _, _, _ => .ok []
  | i :: is, w, x, ql => do
    let (w, x, ql, job) ← rref_row U i w x ql
    let jobs ← rref_rows U is w x ql
    .ok (job :: jobs)

/-- One thread (src/spasm_rref.c:46-53). -/
def rref_thread (jk : Junk) (U : Csr) (qinv : Array Int) (is : List Nat) : C (List Job) := do
  let z := mkArr U.m fun _ => 0
  let ql ← forRange 0 U.m (mkArr U.m jk.int) fun j ql => do
    let v ← rd qinv j
    wr ql j v
  rref_rows U is ⟨0, 0, z, z, z⟩ (mkArr U.m jk.int) ql

/-- The two final loops (src/spasm_rref.c:131-140), done by all the threads; modelled as sequential
loops (the iterations write distinct entries: the pivots are on distinct columns; in any order in Model/RrefLoops.lean).
`int px = Rp[i]` is modelled without truncation. -/
def rref_qinv (R : Csr) (Rqinv : Array Int) : C (Array Int) := do
  let a ← forRange 0 R.m Rqinv fun j a => wr a j (-1)
  forRange 0 R.n a fun i a => do
    let px ← rd R.p i
    let j ← rd R.j px
    wr a j (i : Int)

/-- `(R, Rqinv')` is a possible result of `spasm_rref(fact, Rqinv)`. -/
def RrefRun (jk : Junk) (U : Csr) (qinv Rqinv : Array Int) (R : Csr) (Rqinv' : Array Int) : Prop :=
  ∃ (T : Nat) (rows : Fin T → List Nat) (jobs : Fin T → List Job) (R0 : Csr) (k : Nat) (s : St T),
    ∑ t, (rows t : Multiset Nat) = Multiset.range U.n ∧
    nnz U = .ok k ∧ csr_alloc jk U.n U.m k U.F.p true = .ok R0 ∧
    (∀ t, rref_thread jk U qinv (rows t) = .ok (jobs t)) ∧
    Reach (rrefCfg U.m) jk.int (rows_init R0 U.n jobs) s ∧ s.Finished ∧
    R = s.toCsr R0.n R0.m R0.F ∧ rref_qinv R Rqinv = .ok Rqinv'

end Spasm
