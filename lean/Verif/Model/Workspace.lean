import Verif.Model.Gplu
import Verif.Model.Dense
import Verif.Model.Density
import Verif.Model.Rref

/-
The workspace of the sparse triangular solver as the code has it: one array `xj` of `3 m` cells of type `int`, in
which `spasm_reach` makes two more pointers, `pstack = xj + m` and `marks = pstack + m`.

Model/Reach.lean splits this array in three, and an access past the end of a part is undefined there.  Here there is one
array: an access past the end of a part falls in the next one.  The functions below are those of Model/Reach.lean,
Model/Triangular.lean and of all their callers, over this one array.  The callers allocate the array; they compute its
size, and the bound of the loop that clears it, as a product of type `int`: undefined when it overflows.
-/

namespace Spasm

open Commit

/-- `int *xj = spasm_malloc(3 * m * sizeof(*xj)); for (int j = 0; j < 3 * m; j++) xj[j] = 0;`
(src/spasm_schur.c:24-26, 90-92, 285-287, src/spasm_rref.c:47-49, src/spasm_kernel.c:45-47,
src/spasm_echelonize.c:77-79).  The product `3 * m` is an `int`.  That `malloc` succeeds is an assumption. -/
def ws_alloc (jk : Junk) (m : Nat) : C (Array Nat) := do
  let k ← i32 (3 * (m : Int))
  forRange 0 k.toNat (mkArr k.toNat jk.nat) fun j xj => wr xj j 0

/-- State of the loop of `spasm_dfs`: `h` is `head + 1`, `ws` is the whole workspace. -/
structure Ws where
  top : Nat
  h : Nat
  ws : Array Nat
  deriving DecidableEq, Inhabited

/-- `top -= 1; xj[top] = xj[head]; head -= 1` (src/spasm_reach.c:53-55, 76-78). -/
def ws_pop (s : Ws) : C Ws := do
  let top ← idx ((s.top : Int) - 1)
  let v ← rd s.ws (s.h - 1)
  let ws ← wr s.ws top v
  .ok { s with top := top, ws := ws, h := s.h - 1 }

/-- One iteration of the loop of `spasm_dfs` (src/spasm_reach.c:40-80); `ps` and `mk` are the positions in the workspace
the pointers `pstack` and `marks` point to. -/
def ws_step (A : Csr) (ps mk : Nat) (qinv : Array Int) (s : Ws) : C (Step Ws) :=
  if s.h = 0 then .ok (.brk s)
  else do
    let head := s.h - 1
    let j ← rd s.ws head
    let i ← rd qinv j
    let mj ← rd s.ws (mk + j)
    let s ← if mj = 0 then do
        let ws ← wr s.ws (mk + j) 1
        let ws ← wr ws (ps + head) 0
        .ok { s with ws := ws }
      else .ok s
    if i < 0 then do
      let s ← ws_pop s
      .ok (.cont s)
    else do
      let i ← idx i
      let p2 ← row_weight A i
      let k0 ← rd s.ws (ps + head)
      let (k, s) ← forBrk k0 p2 s fun k (s : Ws) => do
        let pi ← rd A.p i
        let j ← rd A.j (pi + k)
        let mj ← rd s.ws (mk + j)
        if mj ≠ 0 then .ok (.cont s)
        else do
          let ws ← wr s.ws (ps + head) (k + 1)
          let ws ← wr ws (head + 1) j
          .ok (.brk { s with ws := ws, h := s.h + 1 })
      if k = p2 then do
        let s ← ws_pop s
        .ok (.cont s)
      else .ok (.cont s)

/-- `spasm_dfs` (src/spasm_reach.c:21-82); the bound on the number of iterations is as in `dfs`. -/
def ws_dfs (jstart : Nat) (A : Csr) (top : Nat) (ws : Array Nat) (ps mk : Nat) (qinv : Array Int) : C Ws := do
  let ws ← wr ws 0 jstart
  whileFuel (2 * A.m + 1) ⟨top, 1, ws⟩ (ws_step A ps mk qinv)

/-- `spasm_reach` (src/spasm_reach.c:98-135): `pstack = xj + m`, `marks = pstack + m`. -/
def ws_reach (A B : Csr) (k l : Nat) (ws : Array Nat) (qinv : Array Int) : C Ws := do
  let m := A.m
  let ps := m
  let mk := ps + m
  let lo ← rd B.p k
  let hi ← rd B.p (k + 1)
  let s ← forRange lo hi ⟨m, 0, ws⟩ fun px (s : Ws) => do
    let j ← rd B.j px
    let mj ← rd s.ws (mk + j)
    if mj = 0 then ws_dfs j A s.top s.ws ps mk qinv
    else .ok s
  let ws ← forRange s.top l s.ws fun px ws => do
    let j ← rd ws px
    wr ws (mk + j) 0
  .ok { s with ws := ws }

/-- `spasm_sparse_triangular_solve` (src/spasm_triangular.c:109-147). -/
def ws_solve (U B : Csr) (k : Nat) (ws : Array Nat) (x : Array Int) (qinv : Array Int) : C (Ws × Array Int) := do
  let s ← ws_reach U B k U.m ws qinv
  let x ← forRange s.top U.m x fun px x => do
    let j ← rd s.ws px
    wr x j 0
  let x ← scatter B k 1 x
  let x ← forRange s.top U.m x fun px x => do
    let j ← rd s.ws px
    let i ← rd qinv j
    if i < 0 then .ok x
    else do
      let i ← idx i
      let backup ← rd x j
      let mxj ← ZZp_neg backup
      let x ← scatter U i mxj x
      let xj ← rd x j
      cassert (decide (xj = 0))
      wr x j backup
  .ok (s, x)

/-! ### The callers

The loops of the callers only read `top` and cells `xj[px]`: the functions of the other files for these loops take the
workspace as a `Dfs`, whose field `xj` is here the whole array. -/

/-- The workspace as the loops of the callers see it. -/
def Ws.view (s : Ws) : Dfs := ⟨s.top, 0, s.ws, #[], #[]⟩

/-- As `schur_row` (src/spasm_schur.c:98-110, 152-171). -/
def schur_row_ws (A U : Csr) (qinv : Array Int) (hasL : Bool) (p_in : Option (Array Nat)) (inew : Nat)
    (ws : Array Nat) (x : Array Int) : C (Array Nat × Array Int × Job) := do
  let (w, x) ← ws_solve U A inew ws x qinv
  let (row_snz, row_lnz) ← forRange w.top A.m (0, 0) fun px (s : Nat × Nat) => do
    let j ← rd w.ws px
    let v ← rd x j
    if v = 0 then .ok s
    else do
      let qj ← rd qinv j
      if qj < 0 then .ok (s.1 + 1, s.2) else .ok (s.1, s.2 + 1)
  let i_orig ← permAt p_in inew
  let (wl, _, _) ← forRange w.top A.m ([], 0, 0) fun px (s : List Wr × Nat × Nat) => do
    let j ← rd w.ws px
    let v ← rd x j
    if v = 0 then .ok s
    else do
      let qj ← rd qinv j
      if qj < 0 then
        .ok (s.1 ++ [⟨0, s.2.1, 0, j⟩, ⟨0, s.2.1, 1, v⟩], s.2.1 + 1, s.2.2)
      else if hasL then
        .ok (s.1 ++ [⟨1, s.2.2, 0, i_orig⟩, ⟨1, s.2.2, 1, qj⟩, ⟨1, s.2.2, 2, v⟩],
          s.2.1, s.2.2 + 1)
      else .ok s
  .ok (w.ws, x, { len := fun b => if b = 0 then row_snz else row_lnz, ws := wl, tag := i_orig })

/-- As `schur_rows` (src/spasm_schur.c:96-97). -/
def schur_rows_ws (A U : Csr) (qinv : Array Int) (hasL : Bool) (p_in : Option (Array Nat))
    (p : Array Nat) : List Nat → Array Nat → Array Int → C (List Job)
  | [], _, _ => .ok []
  | i :: is, ws, x => do
    let inew ← rd p i
    let (ws, x, job) ← schur_row_ws A U qinv hasL p_in inew ws x
    let jobs ← schur_rows_ws A U qinv hasL p_in p is ws x
    .ok (job :: jobs)

/-- One thread of `spasm_schur` (src/spasm_schur.c:87-171). -/
def schur_thread_ws (jk : Junk) (A U : Csr) (qinv : Array Int) (hasL : Bool)
    (p_in : Option (Array Nat)) (p : Array Nat) (is : List Nat) : C (List Job) := do
  let ws ← ws_alloc jk A.m
  schur_rows_ws A U qinv hasL p_in p is ws (mkArr A.m jk.int)

/-- As `rref_front`: moves the pivot to the front (src/spasm_rref.c:63-69). -/
def rref_front_ws (m pivot : Nat) (w : Ws) : C Ws := do
  let (_, ws) ← forBrk (w.top + 1) m w.ws fun px ws => do
    let j ← rd ws px
    if j = pivot then do
      let t ← rd ws w.top
      let ws ← wr ws px t
      let ws ← wr ws w.top pivot
      .ok (.brk ws)
    else .ok (.cont ws)
  let t ← rd ws w.top
  cassert (t = pivot)
  .ok { w with ws := ws }

/-- As `rref_row` (src/spasm_rref.c:57-77, 105-114). -/
def rref_row_ws (U : Csr) (i : Nat) (ws : Array Nat) (x ql : Array Int) :
    C (Array Nat × Array Int × Array Int × Job) := do
  let pi ← rd U.p i
  let pivot ← rd U.j pi
  let qp ← rd ql pivot
  cassert (qp = (i : Int))
  let ql ← wr ql pivot (-1)
  let (w, x) ← ws_solve U U i ws x ql
  let w ← rref_front_ws U.m pivot w
  let row_nz ← forRange w.top U.m 0 fun px (s : Nat) => do
    let j ← rd w.ws px
    let qj ← rd ql j
    let v ← rd x j
    if qj < 0 ∧ v ≠ 0 then .ok (s + 1) else .ok s
  let (wl, _) ← forRange w.top U.m ([], 0) fun px (s : List Wr × Nat) => do
    let j ← rd w.ws px
    let qj ← rd ql j
    let v ← rd x j
    if qj < 0 ∧ v ≠ 0 then .ok (s.1 ++ [⟨0, s.2, 0, j⟩, ⟨0, s.2, 1, v⟩], s.2 + 1)
    else .ok s
  let ql ← wr ql pivot i
  .ok (w.ws, x, ql, { len := fun _ => row_nz, ws := wl, tag := i })

/-- As `rref_rows`. -/
def rref_rows_ws (U : Csr) : List Nat → Array Nat → Array Int → Array Int → C (List Job)
  | [], _, _, _ => .ok []
  | i :: is, ws, x, ql => do
    let (ws, x, ql, job) ← rref_row_ws U i ws x ql
    let jobs ← rref_rows_ws U is ws x ql
    .ok (job :: jobs)

/-- One thread of `spasm_rref` (src/spasm_rref.c:44-114). -/
def rref_thread_ws (jk : Junk) (U : Csr) (qinv : Array Int) (is : List Nat) : C (List Job) := do
  let ws ← ws_alloc jk U.m
  let ql ← forRange 0 U.m (mkArr U.m jk.int) fun j ql => do
    let v ← rd qinv j
    wr ql j v
  rref_rows_ws U is ws (mkArr U.m jk.int) ql

/-- As `kernel_row` (src/spasm_kernel.c:54-62, 92-103). -/
def kernel_row_ws (n : Nat) (Ut : Csr) (utqinv : Array Int) (j : Nat) (ws : Array Nat) (x : Array Int) :
    C (Array Nat × Array Int × Job) := do
  let (w, x) ← ws_solve Ut Ut j ws x utqinv
  let row_nz ← forRange w.top n 1 fun px (s : Nat) => do
    let jj ← rd w.ws px
    let v ← rd x jj
    if v ≠ 0 then .ok (s + 1) else .ok s
  let wl : List Wr := [⟨0, 0, 0, j⟩, ⟨0, 0, 1, -1⟩]
  let (wl, _) ← forRange w.top n (wl, 1) fun px (s : List Wr × Nat) => do
    let jj ← rd w.ws px
    let v ← rd x jj
    if v ≠ 0 then do
      let ii ← rd utqinv jj
      .ok (s.1 ++ [⟨0, s.2, 0, ii⟩, ⟨0, s.2, 1, v⟩], s.2 + 1)
    else .ok s
  .ok (w.ws, x, { len := fun _ => row_nz, ws := wl, tag := j })

/-- As `kernel_rows` (src/spasm_kernel.c:51-53). -/
def kernel_rows_ws (n : Nat) (Ut : Csr) (qinv utqinv : Array Int) :
    List Nat → Array Nat → Array Int → C (List Job)
  | [], _, _ => .ok []
  | j :: js, ws, x => do
    let qj ← rd qinv j
    if 0 ≤ qj then kernel_rows_ws n Ut qinv utqinv js ws x
    else do
      let (ws, x, job) ← kernel_row_ws n Ut utqinv j ws x
      let jobs ← kernel_rows_ws n Ut qinv utqinv js ws x
      .ok (job :: jobs)

/-- One thread of `spasm_kernel`: the workspace has `3 n` cells (src/spasm_kernel.c:42-103). -/
def kernel_thread_ws (jk : Junk) (n m : Nat) (Ut : Csr) (qinv utqinv : Array Int) (js : List Nat) :
    C (List Job) := do
  let ws ← ws_alloc jk n
  kernel_rows_ws n Ut qinv utqinv js ws (mkArr m jk.int)

/-- As `density_row` (src/spasm_schur.c:33-38). -/
def density_row_ws (A U : Csr) (qinv : Array Int) (inew : Nat) (ws : Array Nat) (x : Array Int) :
    C (Array Nat × Array Int × Nat) := do
  let (w, x) ← ws_solve U A inew ws x qinv
  let k ← forRange w.top A.m 0 fun px (k : Nat) => do
    let j ← rd w.ws px
    let qj ← rd qinv j
    if qj < 0 then do
      let v ← rd x j
      if v ≠ 0 then .ok (k + 1) else .ok k
    else .ok k
  .ok (w.ws, x, k)

/-- As `density_rows` (src/spasm_schur.c:30-39). -/
def density_rows_ws (A U : Csr) (qinv : Array Int) (p : Array Nat) (n : Nat) (rand : Nat → Nat) :
    List Nat → Array Nat → Array Int → C Nat
  | [], _, _ => .ok 0
  | i :: is, ws, x => do
    let inew ← rd p (rand i % n)
    let (ws, x, k) ← density_row_ws A U qinv inew ws x
    let nnz ← density_rows_ws A U qinv p n rand is ws x
    .ok (k + nnz)

/-- One thread of `spasm_schur_estimate_density` (src/spasm_schur.c:22-42). -/
def density_thread_ws (jk : Junk) (A U : Csr) (qinv : Array Int) (p : Array Nat) (n : Nat) (rand : Nat → Nat)
    (is : List Nat) : C Nat := do
  let ws ← ws_alloc jk A.m
  density_rows_ws A U qinv p n rand is ws (mkArr A.m jk.int)

/-- As `schur_dense_row` (src/spasm_schur.c:292-318). -/
def schur_dense_row_ws (A U : Csr) (qinv : Array Int) (hasL : Bool) (p_in : Option (Array Nat))
    (dt : Datatype) (q p : Array Nat) (k : Nat) (ws : Array Nat) (x : Array Int) :
    C (Array Nat × Array Int × List DAct) := do
  let i ← rd p k
  let iorig ← permAt p_in i
  let x ← forRange 0 A.m x fun j x => wr x j 0
  let (w, x) ← ws_solve U A i ws x qinv
  let cells ← gather (A.m - U.n) q x dt (k * (A.m - U.n))
  let apps ← dense_coeffs hasL A.m iorig w.view x qinv
  .ok (w.ws, x, .out k iorig :: (cells ++ apps))

/-- As `schur_dense_rows`. -/
def schur_dense_rows_ws (A U : Csr) (qinv : Array Int) (hasL : Bool) (p_in : Option (Array Nat))
    (dt : Datatype) (q p : Array Nat) : List Nat → Array Nat → Array Int → C (List DAct)
  | [], _, _ => .ok []
  | k :: ks, ws, x => do
    let (ws, x, l) ← schur_dense_row_ws A U qinv hasL p_in dt q p k ws x
    let ls ← schur_dense_rows_ws A U qinv hasL p_in dt q p ks ws x
    .ok (l ++ ls)

/-- One thread of `spasm_schur_dense` (src/spasm_schur.c:282-318). -/
def schur_dense_thread_ws (jk : Junk) (A U : Csr) (qinv : Array Int) (hasL : Bool)
    (p_in : Option (Array Nat)) (dt : Datatype) (q p : Array Nat) (ks : List Nat) : C (List DAct) := do
  let ws ← ws_alloc jk A.m
  schur_dense_rows_ws A U qinv hasL p_in dt q p ks ws (mkArr A.m jk.int)

/-- State of `echelonize_GPLU`, as `Gplu`. -/
structure GpluWs where
  U : Csr
  unz : Nat
  qinv : Array Int
  L : Option Triplet
  lnz : Nat
  Lp : Option (Array Nat)
  since : Nat
  done : Bool
  ws : Array Nat
  x : Array Int

/-- As `gplu_row` (src/spasm_echelonize.c:94-171). -/
def gplu_row_ws (jk : Junk) (A : Csr) (p_in : Option (Array Nat)) (inew : Nat) (s : GpluWs) : C GpluWs := do
  let since := s.since + 1
  let U ← gplu_room jk s.U s.unz A.m
  let L ← gplu_roomL jk s.L s.lnz A.m
  let i_orig ← permAt p_in inew
  let (w, x) ← ws_solve U A inew s.ws s.x s.qinv
  let (jpiv, L, lnz) ← gplu_scan A.m w.view x s.qinv i_orig L s.lnz
  if jpiv = A.m then
    .ok { s with U := U, L := L, lnz := lnz, since := since, ws := w.ws, x := x }
  else do
    let (L, lnz, Lp) ← gplu_pivotL x i_orig jpiv U.n L lnz s.Lp
    let qinv ← wr s.qinv jpiv (U.n : Int)
    let U ← U.setJ s.unz jpiv
    let U ← U.setX s.unz 1
    let v ← rd x jpiv
    cassert (decide (v ≠ 0))
    let beta ← ZZp_inverse A.F v
    let (U, unz) ← gplu_copy A.F A.m w.view x qinv beta U (s.unz + 1)
    let U ← { U with n := U.n + 1 }.setP (U.n + 1) unz
    .ok ⟨U, unz, qinv, L, lnz, Lp, 0, false, w.ws, x⟩

/-- As `gplu_test` (src/spasm_echelonize.c:89-94). -/
def gplu_test_ws (test : Bool) (tc : Csr → Array Int → C Bool) (s : GpluWs) : C Bool :=
  if test then tc s.U s.qinv else .ok false

/-- As `gplu` (src/spasm_echelonize.c:54-191). -/
def gplu_ws (jk : Junk) (A : Csr) (p : Array Nat) (n : Nat) (p_in : Option (Array Nat)) (fact : Lu)
    (tc : Csr → Array Int → C Bool) : C Lu := do
  let r := min A.n A.m
  let unz ← nnz fact.U
  let lnz := match fact.Ltmp with | some L => L.nz | none => 0
  let ws ← ws_alloc jk A.m
  let (_, s) ← forBrk 0 n
    (⟨fact.U, unz, fact.qinv, fact.Ltmp, lnz, fact.p, 0, false, ws, mkArr A.m jk.int⟩ : GpluWs)
    fun i s => do
      if s.L.isNone ∧ s.U.n = r then .ok (.brk s)
      else do
        let test := decide (s.L.isNone ∧ s.done = false ∧ s.since > 10 ∧ s.since > n / 100)
        let stop ← gplu_test_ws test tc s
        if stop then .ok (.brk s)
        else do
          let inew ← rd p i
          let s ← gplu_row_ws jk A p_in inew (if test then { s with done := true } else s)
          .ok (.cont s)
  .ok { fact with U := s.U, qinv := s.qinv, p := s.Lp,
                  Ltmp := s.L.map fun L => { L with nz := s.lnz, m := s.U.n } }

/-! ### Whole runs -/

open Finset in
/-- As `SchurRun`. -/
def SchurRunWs (jk : Junk) (A : Csr) (p : Array Nat) (n : Nat) (U : Csr) (qinv : Array Int)
    (size : Nat) (L : Option Triplet) (p_in : Option (Array Nat)) (p_out : Array Nat)
    (S : Csr) (L' : Option Triplet) (p_out' : Array Nat) : Prop :=
  ∃ (T : Nat) (rows : Fin T → List Nat) (jobs : Fin T → List Job) (S0 : Csr) (s : St T),
    ∑ t, (rows t : Multiset Nat) = Multiset.range n ∧
    (∀ t, schur_thread_ws jk A U qinv L.isSome p_in p (rows t) = .ok (jobs t)) ∧
    csr_alloc jk n A.m size A.F.p true = .ok S0 ∧
    Reach (schurCfg A.m L.isSome) jk.int (schur_init S0 L p_out jobs) s ∧ s.Finished ∧
    schur_finish jk s n A.m S0.F L = .ok (S, L') ∧ s.tags = p_out'

open Finset in
/-- As `KernelRun`. -/
def KernelRunWs (jk : Junk) (U : Csr) (qinv : Array Int) (K : Csr) : Prop :=
  ∃ (T : Nat) (cols : Fin T → List Nat) (jobs : Fin T → List Job) (Ut K0 : Csr)
    (utqinv : Array Int) (s : St T),
    ∑ t, (cols t : Multiset Nat) = Multiset.range U.m ∧
    kernel_pre jk U qinv = .ok (Ut, K0, utqinv) ∧
    (∀ t, kernel_thread_ws jk U.n U.m Ut qinv utqinv (cols t) = .ok (jobs t)) ∧
    Reach kernelCfg jk.int (rows_init K0 U.m jobs) s ∧ s.Finished ∧
    K = s.toCsr K0.n K0.m K0.F

open Finset in
/-- As `RrefRun`. -/
def RrefRunWs (jk : Junk) (U : Csr) (qinv Rqinv : Array Int) (R : Csr) (Rqinv' : Array Int) : Prop :=
  ∃ (T : Nat) (rows : Fin T → List Nat) (jobs : Fin T → List Job) (R0 : Csr) (k : Nat) (s : St T),
    ∑ t, (rows t : Multiset Nat) = Multiset.range U.n ∧
    nnz U = .ok k ∧ csr_alloc jk U.n U.m k U.F.p true = .ok R0 ∧
    (∀ t, rref_thread_ws jk U qinv (rows t) = .ok (jobs t)) ∧
    Reach (rrefCfg U.m) jk.int (rows_init R0 U.n jobs) s ∧ s.Finished ∧
    R = s.toCsr R0.n R0.m R0.F ∧ rref_qinv R Rqinv = .ok Rqinv'

open Finset in
/-- As `DensityRun`. -/
def DensityRunWs (jk : Junk) (A : Csr) (p : Array Nat) (n : Nat) (U : Csr) (qinv : Array Int) (R : Nat)
    (rand : Nat → Nat) (nnz : Nat) : Prop :=
  ∃ (T : Nat) (its : Fin T → List Nat) (counts : Fin T → Nat),
    ∑ t, (its t : Multiset Nat) = Multiset.range R ∧
    (∀ t, density_thread_ws jk A U qinv p n rand (its t) = .ok (counts t)) ∧ nnz = ∑ t, counts t

open Finset in
/-- As `SchurDenseRun`. -/
def SchurDenseRunWs (jk : Junk) (a : DenseIn) (o : DenseOut) : Prop :=
  ∃ (T : Nat) (ks : Fin T → List Nat) (jobs : Fin T → List DAct) (L1 : Option Triplet) (s : DSt T),
    ∑ t, (ks t : Multiset Nat) = Multiset.range a.n ∧
    prepare_q a.A.m a.qinv a.q = .ok o.q ∧
    schur_dense_room jk a.n a.U a.L = .ok L1 ∧
    (∀ t, schur_dense_thread_ws jk a.A a.U a.qinv a.L.isSome a.p_in a.dt o.q a.p (ks t) = .ok (jobs t)) ∧
    DReach (dense_init a.S a.p_out L1 jobs) s ∧ s.Finished ∧
    o.S = s.S ∧ o.p_out = s.po ∧ o.L = L1.map s.toTriplet

/-! ### Another size computed with `int` -/

/-- `extra_unz = ((i64) (1 + 2*Sm - r)) * r` and `extra_lnz = ((i64) (2*n - r + 1)) * r / 2`, the room made by
`update_fact_after_LU` (src/spasm_echelonize.c:236-237): what is between the inner parentheses is an `int`. -/
def lu_extra (n Sm r : Nat) : C (Int × Int) := do
  let a ← i32 (2 * (Sm : Int))
  let a ← i32 (1 + a)
  let a ← i32 (a - r)
  let unz ← i64 (a * r)
  let b ← i32 (2 * (n : Int))
  let b ← i32 (b - r)
  let b ← i32 (b + 1)
  let c ← i64 (b * r)
  .ok (unz, c.tdiv 2)

end Spasm
