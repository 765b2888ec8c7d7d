import Verif.Model.Echelonize
import Verif.Props.Greedy
import Verif.Props.Schur
import Verif.Proofs.Dense
import Verif.Spec.Ffpack

/-
Specification of the driver.
-/

namespace Spasm

open Finset

/-- Assumptions on the environment.  Each call to a function with parallel phases behaves as some run of the
threads, with any content of the uninitialized memory, provided that the arguments satisfy its precondition
(`SchurPre`, `DensePre`; there is such a run: C21, C29; in the greedy search, provided that there is some run);
the dense linear algebra library is correct; random numbers are residues. -/
structure Env.Possible (env : Env) (q : ℕ) : Prop where
  greedy : ∀ k A pinv qinv, (∃ r, Greedy.Outcome A pinv qinv r) →
    ∃ r, env.greedy k A pinv qinv = .ok r ∧ Greedy.Outcome A pinv qinv r
  schur : ∀ k (a : SchurIn), SchurPre q a.A a.p a.n a.U a.qinv a.L a.p_in a.p_out →
    ∃ (jk : Junk) (o : SchurOut), env.schur k a = .ok o ∧
      SchurRun jk a.A a.p a.n a.U a.qinv a.size a.L a.p_in a.p_out o.S o.L o.p_out
  dense : ∀ k (a : DenseIn), DensePre q a → ∃ (jk : Junk) (o : DenseOut), env.dense k a = .ok o ∧ SchurDenseRun jk a o
  ff : env.ff.Correct q
  draw : ∀ k i, Small q (env.draw k i)

/-- No Schur complement is computed. -/
def NoSchur (env : Env) (opts : Opts) : Prop :=
  opts.max_round = 0 ∨ env.few 0 = true ∨ env.thick 0 = true

/-- No finishing method is chosen. -/
def NoMethod (env : Env) (opts : Opts) : Prop :=
  opts.gplu = false ∧ ¬ (opts.dense = true ∧ env.full = true) ∧ ¬ (opts.tall = true ∧ env.skinny = true)

/-- All the random combinations of the rows `p[0..n)` of `B` used in the completion test belong to the row
space of `U`. -/
def Tested (q : ℕ) (env : Env) (B : Csr) (p : Array Nat) (n : Nat) (U : Csr) : Prop :=
  ∀ k, k < env.samples →
    (fun c => ∑ i ∈ range n, (env.draw k i : ZMod q) * B.entry q (p.g i) c) ∈ U.rowSpace q

/-- The search for rows of `U` was ended early: `U` and `n` rows of a matrix `B` span the row space of `A`,
and either a Schur complement was computed and `U` has at least as many rows as `B`, and as half of `A`, or the
completion test succeeded with the first `n'` of these rows (all of them, unless the low-rank method is
enabled). -/
def Early (q : ℕ) (env : Env) (opts : Opts) (A U : Csr) : Prop :=
  (opts.tall = true ∨ ¬ (opts.dense = true ∧ env.full = true)) ∧
  ∃ B p n, U.rowSpace q ⊔ spanOf (fun t => B.entry q (p.g t)) n = A.rowSpace q ∧ B.m = A.m ∧
    ((¬ NoSchur env opts ∧ B.n ≤ U.n ∧ A.n ≤ 2 * U.n) ∨
      ∃ n', n' ≤ n ∧ (opts.tall = false → n' = n) ∧ Tested q env B p n' U)

end Spasm
