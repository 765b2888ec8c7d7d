import Verif.Model.Schur

/-
Model of `spasm_kernel` and `spasm_kernel_from_rref` (src/spasm_kernel.c).

As for `spasm_schur`, each thread computes its rows, and the commits are interleaved by the
transition system of Model/Commit.lean.  Not modelled: messages (and the progress message of
thread 0 which reads `Kn` and `nnz` outside of the critical section).
-/

namespace Spasm

open Commit Finset

/-- One buffer; test of the room on line 70, new size on line 77. -/
def kernelCfg : Cfg :=
  { nb := 1, wid := fun _ => 2, need := fun _ len => len, grow := fun _ nzmax len => 2 * nzmax + len }

/-- `Utqinv` (src/spasm_kernel.c:32-37). -/
def kernel_utqinv (jk : Junk) (n m : Nat) (qinv : Array Int) : C (Array Int) :=
  forRange 0 m (mkArr n jk.int) fun j a => do
    let i ← rd qinv j
    if 0 ≤ i then wr a i.toNat (j : Int) else .ok a

/-- The body of the parallel loop for a non-pivotal column `j` (src/spasm_kernel.c:54-62, 92-103);
`n` is the number of rows of `U`.  The protocol of Model/Commit.lean also stores a tag for each row
(`p_out` of `spasm_schur`): there is no such array here, the tag is a ghost. -/
def kernel_row (n : Nat) (Ut : Csr) (utqinv : Array Int) (j : Nat) (w : Dfs) (x : Array Int) :
    C (Dfs × Array Int × Job) := do
  let (w, x) ← sparse_triangular_solve Ut Ut j w x utqinv
  let row_nz ← forRange w.top n 1 fun px (s : Nat) => do
    let jj ← rd w.xj px
    let v ← rd x jj
    if v ≠ 0 then .ok (s + 1) else .ok s
  let ws : List Wr := [⟨0, 0, 0, j⟩, ⟨0, 0, 1, -1⟩]
  let (ws, _) ← forRange w.top n (ws, 1) fun px (s : List Wr × Nat) => do
    let jj ← rd w.xj px
    let v ← rd x jj
    if v ≠ 0 then do
      let ii ← rd utqinv jj
      .ok (s.1 ++ [⟨0, s.2, 0, ii⟩, ⟨0, s.2, 1, v⟩], s.2 + 1)
    else .ok s
  .ok (w, x, { len := fun _ => row_nz, ws := ws, tag := j })

/-- The iterations `js` of the parallel loop, in order (src/spasm_kernel.c:51-53). -/
def kernel_rows (n : Nat) (Ut : Csr) (qinv utqinv : Array Int) :
    List Nat → Dfs → Array Int → C (List Job)
  | [], _, _ => .ok []
  | j :: js, w, x => do
    let qj ← rd qinv j
    if 0 ≤ qj then kernel_rows n Ut qinv utqinv js w x
    else do
      let (w, x, job) ← kernel_row n Ut utqinv j w x
      let jobs ← kernel_rows n Ut qinv utqinv js w x
      .ok (job :: jobs)

/-- One thread: `x` has `m` entries, `xj` has `3 n` (src/spasm_kernel.c:44-47). -/
def kernel_thread (jk : Junk) (n m : Nat) (Ut : Csr) (qinv utqinv : Array Int) (js : List Nat) :
    C (List Job) :=
  let z := mkArr n fun _ => 0
  kernel_rows n Ut qinv utqinv js ⟨0, 0, z, z, z⟩ (mkArr m jk.int)

/-- What precedes the parallel region (src/spasm_kernel.c:16-37): `Ut`, `K`, `Utqinv`. -/
def kernel_pre (jk : Junk) (U : Csr) (qinv : Array Int) : C (Csr × Csr × Array Int) := do
  cassert (U.n ≤ U.m)
  let Ut ← transpose jk U true
  let k ← nnz U
  let K ← csr_alloc jk (U.m - U.n) U.m k U.F.p true
  let utqinv ← kernel_utqinv jk U.n U.m qinv
  .ok (Ut, K, utqinv)

/-- Initial state of the shared variables for an output matrix with no row yet; `n` rows of (ghost)
tags.  Also used by `spasm_rref`. -/
def rows_init (K : Csr) (n : Nat) {T : Nat} (jobs : Fin T → List Job) : St T :=
  St.init (fun _ => K.nzmax) (fun _ => 0)
    (fun _ c k => if c = 0 then (K.j.g k : Int) else (K.x.getD #[]).g k)
    K.p (mkArr n fun _ => 0) ⟨fun _ => 0, [], 0⟩ jobs

/-- `K` is a possible result of `spasm_kernel`. -/
def KernelRun (jk : Junk) (U : Csr) (qinv : Array Int) (K : Csr) : Prop :=
  ∃ (T : Nat) (cols : Fin T → List Nat) (jobs : Fin T → List Job) (Ut K0 : Csr)
    (utqinv : Array Int) (s : St T),
    ∑ t, (cols t : Multiset Nat) = Multiset.range U.m ∧
    kernel_pre jk U qinv = .ok (Ut, K0, utqinv) ∧
    (∀ t, kernel_thread jk U.n U.m Ut qinv utqinv (cols t) = .ok (jobs t)) ∧
    Reach kernelCfg jk.int (rows_init K0 U.m jobs) s ∧ s.Finished ∧
    K = s.toCsr K0.n K0.m K0.F

/-- `spasm_kernel_from_rref` (src/spasm_kernel.c:133-179).  `Kx[nnz] = prime - 1` converts to a
32-bit signed integer.  `int px = Rp[i]` is modelled without truncation.  The size on line 153 is a
difference of natural numbers (a negative size would make `malloc` fail). -/
def kernel_from_rref (jk : Junk) (R : Csr) (qinv : Array Int) : C Csr := do
  let n := R.n
  let m := R.m
  cassert (n ≤ m)
  let Rt ← transpose jk R true
  let p ← forRange 0 n (mkArr n jk.nat) fun i p => do
    let px ← rd R.p i
    let j ← rd R.j px
    wr p i j
  let nz ← nnz R
  let K ← csr_alloc jk (m - n) m (nz - n + m - n) R.F.p true
  let K := { K with n := 0 }
  let (K, cnt) ← forRange 0 m (K, 0) fun j (s : Csr × Nat) => do
    let qj ← rd qinv j
    if 0 ≤ qj then .ok s
    else do
      let K ← s.1.setJ s.2 j
      let K ← K.setX s.2 (toI32 (R.F.p - 1))
      let lo ← rd Rt.p j
      let hi ← rd Rt.p (j + 1)
      let (K, cnt) ← forRange lo hi (K, s.2 + 1) fun px (s : Csr × Nat) => do
        let i ← rd Rt.j px
        let pi ← rd p i
        let K ← s.1.setJ s.2 pi
        let v ← rdX Rt px
        let K ← K.setX s.2 v
        .ok (K, s.2 + 1)
      let K := { K with n := K.n + 1 }
      let K ← K.setP K.n cnt
      .ok (K, cnt)
  cassert (K.n = m - n)
  cassert ((cnt : Int) = (nz : Int) - n + m - n)
  .ok K

end Spasm
