import Verif.Model.Echelonize
import Verif.Model.StoreBuffer
import Verif.Model.GreedyBuffer
import Verif.Model.Workspace

/-
`spasm_echelonize`, `spasm_kernel` and `spasm_rref` on a machine with store buffers, with the workspaces of the
triangular solver as they are in the code: the models of Model/Workspace.lean and Model/StoreBuffer.lean together.

As in these files: all sizes fit in the types of the code except `3*m` (src/spasm_schur.c:90 etc.), and the atomic
updates drain the store buffers (see `C70_relaxed` for what happens otherwise).
-/

namespace Spasm

open Commit

/-- A possible result of `spasm_schur` (src/spasm_schur.c:61-193): workspaces of `3*m` integers, store buffers. -/
def SchurRunMach (jk : Junk) (a : SchurIn) (o : SchurOut) : Prop :=
  ∃ (T : Nat) (rows : Fin T → List Nat) (jobs : Fin T → List Job) (S0 : Csr) (m : Buf T),
    ∑ t, (rows t : Multiset Nat) = Multiset.range a.n ∧
    (∀ t, schur_thread_ws jk a.A a.U a.qinv a.L.isSome a.p_in a.p (rows t) = .ok (jobs t)) ∧
    csr_alloc jk a.n a.A.m a.size a.A.F.p true = .ok S0 ∧
    BReach true (schurCfg a.A.m a.L.isSome) jk.int (Buf.init (schur_init S0 a.L a.p_out jobs)) m ∧ m.Finished ∧
    schur_finish jk m.s a.n a.A.m S0.F a.L = .ok (o.S, o.L) ∧ m.s.tags = o.p_out

/-- A possible result of `spasm_kernel` (src/spasm_kernel.c:9-127). -/
def KernelRunMach (jk : Junk) (U : Csr) (qinv : Array Int) (K : Csr) : Prop :=
  ∃ (T : Nat) (cols : Fin T → List Nat) (jobs : Fin T → List Job) (Ut K0 : Csr)
    (utqinv : Array Int) (m : Buf T),
    ∑ t, (cols t : Multiset Nat) = Multiset.range U.m ∧
    kernel_pre jk U qinv = .ok (Ut, K0, utqinv) ∧
    (∀ t, kernel_thread_ws jk U.n U.m Ut qinv utqinv (cols t) = .ok (jobs t)) ∧
    BReach true kernelCfg jk.int (Buf.init (rows_init K0 U.m jobs)) m ∧ m.Finished ∧
    K = m.s.toCsr K0.n K0.m K0.F

/-- A possible result of `spasm_rref` (src/spasm_rref.c:22-146). -/
def RrefRunMach (jk : Junk) (U : Csr) (qinv Rqinv : Array Int) (R : Csr) (Rqinv' : Array Int) : Prop :=
  ∃ (T : Nat) (rows : Fin T → List Nat) (jobs : Fin T → List Job) (R0 : Csr) (k : Nat) (m : Buf T),
    ∑ t, (rows t : Multiset Nat) = Multiset.range U.n ∧
    nnz U = .ok k ∧ csr_alloc jk U.n U.m k U.F.p true = .ok R0 ∧
    (∀ t, rref_thread_ws jk U qinv (rows t) = .ok (jobs t)) ∧
    BReach true (rrefCfg U.m) jk.int (Buf.init (rows_init R0 U.n jobs)) m ∧ m.Finished ∧
    R = m.s.toCsr R0.n R0.m R0.F ∧ rref_qinv R Rqinv = .ok Rqinv'

/-- As `echelonize_finish` (src/spasm_echelonize.c:588-597), with the workspace of `echelonize_GPLU`. -/
def mach_finish (jk : Junk) (env : Env) (opts : Opts) (s : Driver) : C Lu := do
  let p := shift s.p s.npiv
  let n ← csub s.n s.npiv
  if opts.tall ∧ env.skinny = true then lowrank jk env opts s.A p n s.fact
  else if opts.dense ∧ env.full = true then echelonize_dense jk env opts s.A p n s.p_in s.fact
  else if opts.gplu then gplu_ws jk s.A p n s.p_in s.fact fun U qinv => test_completion jk env s.A p n U qinv
  else .ok s.fact

/-- As `echelonize_rest` (src/spasm_echelonize.c:572-597). -/
def mach_rest (jk : Junk) (env : Env) (opts : Opts) (s : Driver) : C Lu :=
  if s.status = 1 then .ok s.fact
  else if s.status = 0 then mach_finish jk env opts { s with npiv := 0, p := mkArr s.n fun i => i }
  else mach_finish jk env opts s

/-- As `echelonize` (src/spasm_echelonize.c:473-617). -/
def mach_echelonize (jk : Junk) (env : Env) (opts : Opts) (A : Csr) : C Lu := do
  let opts := opts.norm
  let fact ← echelonize_init jk opts A
  let (_, s) ← forBrk 0 opts.max_round ⟨A, A.n, none, mkArr A.n jk.nat, 0, fact, 0⟩
    fun round s => echelonize_round jk env opts round s
  let fact ← mach_rest jk env opts s
  echelonize_cleanup jk opts A.m fact

end Spasm
