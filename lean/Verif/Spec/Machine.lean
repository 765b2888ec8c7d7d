import Verif.Model.Machine
import Verif.Spec.Driver
import Verif.Props.GreedyBuffer

/-
The environment of the driver on a machine with store buffers.
-/

namespace Spasm

/-- The environment of the driver on the machine: as `Env.Possible`, but the outcomes of the functions with parallel
phases are those of the machine (for matrices of at most 715827882 columns: with more, the size of the workspaces
overflows, see `C69_limit`). -/
structure Env.Machine (env : Env) (q : ℕ) : Prop where
  greedy : ∀ k A pinv qinv, (∃ r, Greedy.OutcomeBuf true A pinv qinv r) →
    ∃ r, env.greedy k A pinv qinv = .ok r ∧ Greedy.OutcomeBuf true A pinv qinv r
  schur : ∀ k (a : SchurIn), a.A.m ≤ 715827882 → SchurPre q a.A a.p a.n a.U a.qinv a.L a.p_in a.p_out →
    ∃ (jk : Junk) (o : SchurOut), env.schur k a = .ok o ∧ SchurRunMach jk a o
  dense : ∀ k (a : DenseIn), a.A.m ≤ 715827882 → DensePre q a →
    ∃ (jk : Junk) (o : DenseOut), env.dense k a = .ok o ∧ SchurDenseRunWs jk a o
  ff : env.ff.Correct q
  draw : ∀ k i, Small q (env.draw k i)

end Spasm
