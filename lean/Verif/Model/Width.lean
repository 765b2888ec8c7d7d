import Verif.Model.Triplet
import Verif.Model.Kernel
import Verif.Model.Rref
import Verif.Model.Scc

/-
The functions of the library in which a position in the arrays of a matrix, which is an `i64` everywhere else, goes
through a variable of type `int`.  These are the models of Model/Triplet.lean, Model/Kernel.lean, Model/Rref.lean and
Model/Scc.lean again, but with the conversions and the overflows.  (In tools/stack.c, the conversion is already in
Model/Tools.lean.)
-/

namespace Spasm

/-- `k` iterations of `f` with an `int` counter that starts at `lo`: the increment is undefined when it overflows. -/
def forIntN {σ : Type} (lo : Nat) : Nat → σ → (Nat → σ → C σ) → C σ
  | 0, s, _ => .ok s
  | k + 1, s, f => do
    let s' ← f lo s
    let _ ← i32 ((lo : Int) + 1)
    forIntN (lo + 1) k s' f

/-- `for (int it = 0; it < nz; it++) s = f(it, s)` where `nz` is an `i64`. -/
def forInt {σ : Type} (nz : Nat) (s : σ) (f : Nat → σ → C σ) : C σ := forIntN 0 nz s f

/-- The first part of `spasm_compress` (src/spasm_triplet.c:99-148), as `compress_sort`; the counter of the first loop
(src/spasm_triplet.c:124) is an `int`. -/
def compress_sort_int (jk : Junk) (T : Triplet) : C Csr := do
  let A ← csr_alloc jk T.n T.m T.nz T.F.p T.x.isSome
  let w ← forInt T.nz (mkArr T.n fun _ => 0) fun it w => do
    let i ← rd T.i it
    cassert (decide (i < T.n))
    let c ← rd w i
    wr w i (c + 1)
  let (A, w, sum) ← forRange 0 T.n (A, w, 0) fun k (s : Csr × Array Nat × Nat) => do
    let A ← s.1.setP k s.2.2
    let c ← rd s.2.1 k
    let t ← rd A.p k
    let w ← wr s.2.1 k t
    .ok (A, w, s.2.2 + c)
  let A ← A.setP T.n sum
  let (A, _) ← forRange 0 T.nz (A, w) fun k (s : Csr × Array Nat) => do
    let i ← rd T.i k
    let px ← rd s.2 i
    let w ← wr s.2 i (px + 1)
    let j ← rd T.j k
    let A ← s.1.setJ px j
    let A ← if A.x.isSome then do
        let tx ← deref T.x
        let v ← rd tx k
        A.setX px v
      else .ok A
    .ok (A, w)
  .ok A

/-- `spasm_compress` (src/spasm_triplet.c:99-158), as `compress`. -/
def compress_int (jk : Junk) (T : Triplet) : C Csr := do
  let A ← compress_sort_int jk T
  let A ← deduplicate jk A
  remove_explicit_zeroes jk A

/-- `spasm_kernel_from_rref` (src/spasm_kernel.c:133-179), as `kernel_from_rref`; `int px = Rp[i]` on line 149 is a
conversion. -/
def kernel_from_rref_int (jk : Junk) (R : Csr) (qinv : Array Int) : C Csr := do
  let n := R.n
  let m := R.m
  cassert (n ≤ m)
  let Rt ← transpose jk R true
  let p ← forRange 0 n (mkArr n jk.nat) fun i p => do
    let px ← rd R.p i
    let j ← rdI R.j (toI32 px)
    wr p i j
  let nz ← nnz R
  let K ← csr_alloc jk (m - n) m (nz - n + m - n) R.F.p true
  let K := { K with n := 0 }
  let (K, cnt) ← forRange 0 m (K, 0) fun j (s : Csr × Nat) => do
    let qj ← rd qinv j
    if 0 ≤ qj then .ok s
    else do
      let K ← s.1.setJ s.2 j
      let K ← K.setX s.2 (toI32 (R.F.p - 1))
      let lo ← rd Rt.p j
      let hi ← rd Rt.p (j + 1)
      let (K, cnt) ← forRange lo hi (K, s.2 + 1) fun px (s : Csr × Nat) => do
        let i ← rd Rt.j px
        let pi ← rd p i
        let K ← s.1.setJ s.2 pi
        let v ← rdX Rt px
        let K ← K.setX s.2 v
        .ok (K, s.2 + 1)
      let K := { K with n := K.n + 1 }
      let K ← K.setP K.n cnt
      .ok (K, cnt)
  cassert (K.n = m - n)
  cassert ((cnt : Int) = (nz : Int) - n + m - n)
  .ok K

/-- The two final loops of `spasm_rref` (src/spasm_rref.c:131-140), as `rref_qinv`; `int px = Rp[i]` on line 137 is a
conversion. -/
def rref_qinv_int (R : Csr) (Rqinv : Array Int) : C (Array Int) := do
  let a ← forRange 0 R.m Rqinv fun j a => wr a j (-1)
  forRange 0 R.n a fun i a => do
    let px ← rd R.p i
    let j ← rdI R.j (toI32 px)
    wr a j (i : Int)

/-- As `scc_scan`; `int p = Ap[j] + px` (src/spasm_scc.c:61) is a conversion. -/
def scc_scan_int (A : Csr) (j lo px2 : Nat) (s : Scc) : C (Nat × Bool × Array Int) := do
  let ps ← rd s.pstack j
  let (px, b, low) ← forBrk ps px2 (false, s.low) fun px (t : Bool × Array Int) => do
    let k ← rdI A.j (toI32 ((lo : Int) + px))
    let mk ← rd s.marks k
    if 0 ≤ mk then do
      let lj ← rd t.2 j
      let lk ← rd t.2 k
      let low ← wr t.2 j (min lj lk)
      .ok (.cont (false, low))
    else .ok (.brk (true, t.2))
  .ok (px, b, low)

/-- As `scc_push` (src/spasm_scc.c:61, 68-72). -/
def scc_push_int (A : Csr) (j lo px : Nat) (s : Scc) : C Scc := do
  let k ← rdI A.j (toI32 ((lo : Int) + px))
  let pstack ← wr s.pstack j (px + 1)
  let stack ← wr s.stack s.top k
  let prev ← wr s.prev k (j : Int)
  .ok { s with pstack := pstack, stack := stack, top := s.top + 1, prev := prev, j := (k : Int) }

/-- As `scc_step` (src/spasm_scc.c:52-94). -/
def scc_step_int (A : Csr) (j : Nat) (s : Scc) : C Scc := do
  let s ← scc_init j s
  let lo ← rd A.p j
  let hi ← rd A.p (j + 1)
  let (px, b, low) ← scc_scan_int A j lo (hi - lo) s
  if b then scc_push_int A j lo px { s with low := low }
  else if px = hi - lo then do
    let s ← scc_root A.n j { s with low := low }
    scc_back j s
  else .ok { s with low := low }

/-- As `scc_dfs` (src/spasm_scc.c:47-95). -/
def scc_dfs_int (A : Csr) (i : Nat) (s : Scc) : C Scc := do
  let stack ← wr s.stack 0 i
  whileFuel (2 * A.n + 1) { s with stack := stack, top := 1, j := (i : Int) } fun s => do
    if 0 ≤ s.j then do
      let s ← scc_step_int A s.j.toNat s
      .ok (.cont s)
    else .ok (.brk s)

/-- `spasm_strongly_connected_components` (src/spasm_scc.c:14-117), as `strongly_connected_components`. -/
def strongly_connected_components_int (jk : Junk) (A : Csr) : C Dm := do
  cassert (decide (A.n = A.m))
  let P := dm_alloc jk A.n A.n
  let (marks, prev, pstack) ← forRange 0 A.n (mkArr A.n jk.int, mkArr A.n jk.int, mkArr A.n jk.nat)
    fun i (s : Array Int × Array Int × Array Nat) => do
      let marks ← wr s.1 i (-1)
      let prev ← wr s.2.1 i (-1)
      let pstack ← wr s.2.2 i 0
      .ok (marks, prev, pstack)
  let rr ← wr P.r 0 0
  let s ← forRange 0 A.n
    (⟨-1, 0, 0, 0, 0, P.p, rr, pstack, marks, prev, mkArr A.n jk.nat, mkArr A.n jk.int⟩ : Scc)
    fun i s => do
      let mk ← rd s.marks i
      if 0 ≤ mk then .ok s else scc_dfs_int A i s
  scc_finish A P s

end Spasm
