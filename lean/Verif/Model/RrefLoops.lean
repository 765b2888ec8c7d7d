import Verif.Model.Rref

/-
The two final loops of spasm_rref, whose iterations are distributed among the threads (`#pragma omp for`).  Each loop ends
with a barrier.  An iteration does one write to shared memory, and otherwise reads memory that no iteration writes: an
execution by several threads is an execution of the iterations in some order.
-/

namespace Spasm

/-- src/spasm_rref.c:131-133, the iterations in the order of the list. -/
def qinv_clear : List Nat → Array Int → C (Array Int)
  | [], a => .ok a
  | j :: l, a => do
    let a ← wr a j (-1)
    qinv_clear l a

/-- src/spasm_rref.c:135-140, the iterations in the order of the list. -/
def qinv_set (R : Csr) : List Nat → Array Int → C (Array Int)
  | [], a => .ok a
  | i :: l, a => do
    let px ← rd R.p i
    let j ← rd R.j px
    let a ← wr a j (i : Int)
    qinv_set R l a

/-- src/spasm_rref.c:131-140. -/
def rref_qinv_any (R : Csr) (Rqinv : Array Int) (l1 l2 : List Nat) : C (Array Int) := do
  let a ← qinv_clear l1 Rqinv
  qinv_set R l2 a

open Finset Commit in
/-- `(R, Rqinv')` is a possible result of `spasm_rref(fact, Rqinv)`, the iterations of the final loops being done in any
order. -/
def RrefRunAny (jk : Junk) (U : Csr) (qinv Rqinv : Array Int) (R : Csr) (Rqinv' : Array Int) : Prop :=
  ∃ (T : Nat) (rows : Fin T → List Nat) (jobs : Fin T → List Job) (R0 : Csr) (k : Nat) (s : St T) (l1 l2 : List Nat),
    ∑ t, (rows t : Multiset Nat) = Multiset.range U.n ∧
    nnz U = .ok k ∧ csr_alloc jk U.n U.m k U.F.p true = .ok R0 ∧
    (∀ t, rref_thread jk U qinv (rows t) = .ok (jobs t)) ∧
    Reach (rrefCfg U.m) jk.int (rows_init R0 U.n jobs) s ∧ s.Finished ∧
    R = s.toCsr R0.n R0.m R0.F ∧ l1.Perm (List.range R.m) ∧ l2.Perm (List.range R.n) ∧
    rref_qinv_any R Rqinv l1 l2 = .ok Rqinv'

end Spasm
