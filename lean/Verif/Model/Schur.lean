import Verif.Model.Triangular
import Verif.Model.Lu
import Verif.Model.Commit
import Mathlib.Algebra.BigOperators.Group.Finset.Basic
import Mathlib.Data.Multiset.Range

/-
Model of `spasm_schur` (src/spasm_schur.c:61-193).

Each thread runs `schur_thread` on the iterations OpenMP gives it; this computes, for each
iteration, the lengths of the row and the writes of the second loop.  The commits are interleaved
by the transition system of Model/Commit.lean.  The computation of the writes can be done before
the critical section because it only reads data private to the thread (`x`, `xj`) or never modified
in the parallel region (`qinv`, `p_in`).

Not modelled: messages, and the progress message of thread 0 which reads `Sn` and `snz` outside of
the critical section.  The estimated density is replaced by an arbitrary initial size of `S`.
-/

namespace Spasm

open Commit Finset

/-- Buffers: S (arrays j, x), then L (arrays i, j, x) if present; tests on lines 117 and 133, new
sizes on lines 123 and 139. -/
def schurCfg (m : Nat) (hasL : Bool) : Cfg :=
  { nb := if hasL then 2 else 1, wid := fun b => if b = 0 then 2 else 3,
    need := fun _ len => len, grow := fun _ nzmax _ => 2 * nzmax + m }

/-- The body of the parallel loop for row `inew` of `A` (src/spasm_schur.c:98-110, 152-171), with
the workspace of the thread; returns the workspace and the row to be committed. -/
def schur_row (A U : Csr) (qinv : Array Int) (hasL : Bool) (p_in : Option (Array Nat)) (inew : Nat)
    (w : Dfs) (x : Array Int) : C (Dfs × Array Int × Job) := do
  let (w, x) ← sparse_triangular_solve U A inew w x qinv
  let (row_snz, row_lnz) ← forRange w.top A.m (0, 0) fun px (s : Nat × Nat) => do
    let j ← rd w.xj px
    let v ← rd x j
    if v = 0 then .ok s
    else do
      let qj ← rd qinv j
      if qj < 0 then .ok (s.1 + 1, s.2) else .ok (s.1, s.2 + 1)
  let i_orig ← permAt p_in inew
  let (ws, _, _) ← forRange w.top A.m ([], 0, 0) fun px (s : List Wr × Nat × Nat) => do
    let j ← rd w.xj px
    let v ← rd x j
    if v = 0 then .ok s
    else do
      let qj ← rd qinv j
      if qj < 0 then
        .ok (s.1 ++ [⟨0, s.2.1, 0, j⟩, ⟨0, s.2.1, 1, v⟩], s.2.1 + 1, s.2.2)
      else if hasL then
        .ok (s.1 ++ [⟨1, s.2.2, 0, i_orig⟩, ⟨1, s.2.2, 1, qj⟩, ⟨1, s.2.2, 2, v⟩],
          s.2.1, s.2.2 + 1)
      else .ok s
  .ok (w, x, { len := fun b => if b = 0 then row_snz else row_lnz, ws := ws, tag := i_orig })

/-- The iterations `is` of the parallel loop, in order (src/spasm_schur.c:96-97). -/
def schur_rows (A U : Csr) (qinv : Array Int) (hasL : Bool) (p_in : Option (Array Nat))
    (p : Array Nat) : List Nat → Dfs → Array Int → C (List Job)
  | [], _, _ => .ok []
  | i :: is, w, x => do
    let inew ← rd p i
    let (w, x, job) ← schur_row A U qinv hasL p_in inew w x
    let jobs ← schur_rows A U qinv hasL p_in p is w x
    .ok (job :: jobs)

/-- One thread: allocates `x` and `xj`, clears `xj` (src/spasm_schur.c:89-92). -/
def schur_thread (jk : Junk) (A U : Csr) (qinv : Array Int) (hasL : Bool)
    (p_in : Option (Array Nat)) (p : Array Nat) (is : List Nat) : C (List Job) :=
  let z := mkArr A.m fun _ => 0
  schur_rows A U qinv hasL p_in p is ⟨0, 0, z, z, z⟩ (mkArr A.m jk.int)

/-- Initial state of the shared variables (src/spasm_schur.c:73-83).  `p_out` is the array given by
the caller (an array that nobody reads if it is NULL); `L` must have values. -/
def schur_init (S : Csr) (L : Option Triplet) (p_out : Array Nat) {T : Nat}
    (jobs : Fin T → List Job) : St T :=
  St.init
    (fun b => if b = 0 then S.nzmax else match L with | some L => L.i.size | none => 0)
    (fun b => if b = 0 then 0 else match L with | some L => L.nz | none => 0)
    (fun b c k => if b = 0 then (if c = 0 then (S.j.g k : Int) else (S.x.getD #[]).g k)
      else match L with
        | some L => if c = 0 then (L.i.g k : Int) else if c = 1 then (L.j.g k : Int)
          else (L.x.getD #[]).g k
        | none => 0)
    S.p p_out ⟨fun _ => 0, [], 0⟩ jobs

/-- End of the function (src/spasm_schur.c:187-192). -/
def schur_finish (jk : Junk) {T : Nat} (s : St T) (n m : Nat) (F : Field) (L : Option Triplet) :
    C (Csr × Option Triplet) := do
  let S ← csr_realloc jk (s.toCsr n m F) (-1)
  .ok (S, L.map fun L => s.toTriplet L.n L.m L.F)

/-- `(S, L', p_out')` is a possible result of `spasm_schur(A, p, n, fact, ., L, p_in, p_out)` with
initial size `size`: there is a number of threads, an assignment of the iterations to the threads,
and an interleaving leading to it. -/
def SchurRun (jk : Junk) (A : Csr) (p : Array Nat) (n : Nat) (U : Csr) (qinv : Array Int)
    (size : Nat) (L : Option Triplet) (p_in : Option (Array Nat)) (p_out : Array Nat)
    (S : Csr) (L' : Option Triplet) (p_out' : Array Nat) : Prop :=
  ∃ (T : Nat) (rows : Fin T → List Nat) (jobs : Fin T → List Job) (S0 : Csr) (s : St T),
    ∑ t, (rows t : Multiset Nat) = Multiset.range n ∧
    (∀ t, schur_thread jk A U qinv L.isSome p_in p (rows t) = .ok (jobs t)) ∧
    csr_alloc jk n A.m size A.F.p true = .ok S0 ∧
    Reach (schurCfg A.m L.isSome) jk.int (schur_init S0 L p_out jobs) s ∧ s.Finished ∧
    schur_finish jk s n A.m S0.F L = .ok (S, L') ∧ s.tags = p_out'

end Spasm
