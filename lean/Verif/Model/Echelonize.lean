import Verif.Model.Pivots
import Verif.Model.Dense
import Verif.Model.Triplet

/-
Model of the driver `spasm_echelonize`, of the dense finishing methods and of the completion test
(src/spasm_echelonize.c:30-51, 315-616).

What the outcome depends on besides the arguments is in `Env`: schedules of the parallel phases, dense
linear algebra library, random choices, and the decisions that are made with floating-point numbers
(proportion of pivots, densities, aspect ratio, yields).  All of these are arbitrary here.  They are computed
as in the code in Model/Numeric.lean (`spasm_schur_estimate_density` is in Model/Density.lean).

Not modelled: messages, timings, releasing memory.
-/

namespace Spasm

/-- The array that starts at `p + k`. -/
def shift (p : Array Nat) (k : Nat) : Array Nat := mkArr (p.size - k) fun i => p.g (k + i)

/-- `a - b`, where a negative result would be a failure. -/
def csub (a b : Nat) : C Nat := if b ≤ a then .ok (a - b) else .error .ub

/-- The fields of `struct echelonize_opts` (src/spasm.h:84-108) that are not floating-point numbers.  A
negative `max_round` is the same as 0 (the comment in src/spasm.h:97 says otherwise). -/
structure Opts where
  greedy : Bool
  tall : Bool
  dense : Bool
  gplu : Bool
  L : Bool
  complete : Bool
  max_round : Nat
  block : Int

/-- The arguments of `spasm_schur`. -/
structure SchurIn where
  A : Csr
  p : Array Nat
  n : Nat
  U : Csr
  qinv : Array Int
  size : Nat
  L : Option Triplet
  p_in : Option (Array Nat)
  p_out : Array Nat

/-- Its results: the Schur complement, `L` and `p_out`. -/
structure SchurOut where
  S : Csr
  L : Option Triplet
  p_out : Array Nat

/-- What the outcome depends on besides the arguments. -/
structure Env where
  /-- `spasm_find_cycle_free_pivots` in each round -/
  greedy : Nat → Csr → Array Int → Array Int → C (Nat × Array Int × Array Int)
  /-- `spasm_schur` in each round -/
  schur : Nat → SchurIn → C SchurOut
  /-- `spasm_schur_dense` for each chunk -/
  dense : Nat → DenseIn → C DenseOut
  ff : Ffpack
  /-- random residues (`random_comb`): the generator is seeded in the same way in each call -/
  draw : Nat → Nat → Int
  /-- values of `rand()` in each round of the low-rank method -/
  rand : Nat → Nat → Nat → Nat
  /-- `ceil(128 / log2(prime))` -/
  samples : Nat
  /-- `npiv < opts->min_pivot_proportion * spasm_min(n, m - U->n)` in each round -/
  few : Nat → Bool
  /-- `density > opts->sparsity_threshold` in each round -/
  thick : Nat → Bool
  /-- initial size of the Schur complement -/
  size : Nat → Nat
  /-- `aspect_ratio > opts->tall_and_skinny_ratio` -/
  skinny : Bool
  /-- `density > opts->sparsity_threshold` at the end -/
  full : Bool
  /-- `rr < opts->low_rank_ratio * Sn` for each chunk -/
  yield : Nat → Bool
  /-- `rr < 0.9 * Sn` in each round of the low-rank method -/
  less : Nat → Bool
  /-- initial weight in the low-rank method: `ceil(-log(0.01) * n / rank_ub)` or an option
  (src/spasm_echelonize.c:345) -/
  weight : Int
  /-- bound on the number of rounds of the low-rank method (not in the code) -/
  fuel : Nat

/-- Memory for dense matrices, uninitialised. -/
def dense_alloc (jk : Junk) (k : Nat) : Array ℚ := mkArr k fun i => (jk.int i : ℚ)

/-- The part of the completion test after the easy cases (src/spasm_echelonize.c:35-50). -/
def test_sample (jk : Junk) (env : Env) (A : Csr) (p : Array Nat) (n : Nat) (U : Csr)
    (qinv : Array Int) : C Bool := do
  let Sm ← csub A.m U.n
  let dt := datatype_choose A.F.p
  let (S, _) ← schur_dense_randomized jk A p n U qinv (dense_alloc jk (env.samples * Sm)) dt
    (mkArr Sm jk.nat) env.samples 0 env.draw (fun _ _ => 0)
  .ok (decide ((env.ff.rref A.F.p env.samples Sm S).1 = 0))

/-- `spasm_echelonize_test_completion` (src/spasm_echelonize.c:30-51). -/
def test_completion (jk : Junk) (env : Env) (A : Csr) (p : Array Nat) (n : Nat) (U : Csr)
    (qinv : Array Int) : C Bool := do
  let k ← nnz A
  if n = 0 ∨ k = 0 then .ok true else test_sample jk env A p n U qinv

/-! ### echelonize_dense_lowrank -/

structure LowRank where
  fact : Lu
  S : Array ℚ
  q : Array Nat
  n : Nat
  Sm : Nat
  rank_ub : Nat
  w : Int
  round : Nat

/-- `if (rr == 0) { if (test_completion) break; ...}` (src/spasm_echelonize.c:357-359). -/
def lowrank_test (jk : Junk) (env : Env) (A : Csr) (p : Array Nat) (rr : Nat) (s : LowRank) : C Bool :=
  if rr = 0 then test_completion jk env A p s.n s.fact.U s.fact.qinv else .ok false

/-- The new weight (src/spasm_echelonize.c:361, 364-365). -/
def lowrank_weight (rr : Nat) (less : Bool) (w : Int) : C Int :=
  let w := if rr = 0 then 0 else w
  if less then i32 (w * 2) else .ok w

/-- The end of an iteration (src/spasm_echelonize.c:357-373): `rref` is what the dense library returns. -/
def lowrank_next (jk : Junk) (env : Env) (A : Csr) (p q : Array Nat) (s : LowRank)
    (rref : Nat × Array ℚ × Array Nat) : C (Step LowRank) := do
  let stop ← lowrank_test jk env A p rref.1 s
  if stop then .ok (.brk s)
  else do
    let w ← lowrank_weight rref.1 (env.less s.round) s.w
    let fact ← update_U_after_rref jk rref.1 s.Sm rref.2.1 (datatype_choose A.F.p) rref.2.2 q s.fact
    let n ← csub s.n rref.1
    let Sm ← csub s.Sm rref.1
    let rank_ub ← csub s.rank_ub rref.1
    .ok (.cont ⟨fact, rref.2.1, q, n, Sm, rank_ub, w, s.round + 1⟩)

/-- One iteration (src/spasm_echelonize.c:347-374). -/
def lowrank_round (jk : Junk) (env : Env) (block : Int) (A : Csr) (p : Array Nat) (s : LowRank) :
    C (Step LowRank) := do
  let Sn := min (s.rank_ub : Int) block
  if Sn ≤ 0 then .ok (.brk s)
  else do
    let o ← schur_dense_randomized jk A p s.n s.fact.U s.fact.qinv s.S (datatype_choose A.F.p) s.q Sn.toNat
      s.w env.draw (env.rand s.round)
    lowrank_next jk env A p o.2 s (env.ff.rref A.F.p Sn.toNat s.Sm o.1)

/-- `echelonize_dense_lowrank` (src/spasm_echelonize.c:315-379). -/
def lowrank (jk : Junk) (env : Env) (opts : Opts) (A : Csr) (p : Array Nat) (n : Nat) (fact : Lu) : C Lu := do
  cassert (decide (opts.block > 0))
  let Sm ← csub A.m fact.U.n
  let s ← whileFuel env.fuel ⟨fact, dense_alloc jk (opts.block.toNat * Sm), mkArr Sm jk.nat, n, Sm, min n Sm, env.weight, 0⟩
    fun s => lowrank_round jk env opts.block A p s
  .ok s.fact

/-! ### echelonize_dense -/

structure DenseSt where
  fact : Lu
  S : Array ℚ
  q : Array Nat
  p_out : Array Nat
  pivotal : Array Bool
  processed : Nat
  round : Nat
  lowrank : Bool

/-- Echelonization of the chunk and transfer (src/spasm_echelonize.c:423-430). -/
def dense_transfer (jk : Junk) (env : Env) (opts : Opts) (prime : Int) (Sn Sm : Nat) (lnz_before : Nat)
    (o : DenseOut) (pivotal : Array Bool) (fact : Lu) : C (Lu × Array ℚ × Array Bool) :=
  let dt := datatype_choose prime
  if opts.L then do
    let r := env.ff.lu prime Sn Sm o.S
    let x ← update_fact_after_LU jk Sn Sm r.1 r.2.1 dt r.2.2.1 r.2.2.2 o.q (some o.p_out) lnz_before
      opts.complete pivotal fact
    .ok (x.1, r.2.1, x.2)
  else do
    let r := env.ff.rref prime Sn Sm o.S
    let fact ← update_U_after_rref jk r.1 Sm r.2.1 dt r.2.2 o.q fact
    .ok (fact, r.2.1, pivotal)

/-- `fact->Ltmp->nz` (src/spasm_echelonize.c:420). -/
def dense_lnz (opts : Opts) (fact : Lu) : C Nat :=
  if opts.L then do
    let L ← deref fact.Ltmp
    .ok L.nz
  else .ok 0

/-- One iteration (src/spasm_echelonize.c:412-450).  `p` is the initial pointer, not advanced. -/
def dense_round (jk : Junk) (env : Env) (opts : Opts) (A : Csr) (p : Array Nat) (n : Nat)
    (p_in : Option (Array Nat)) (s : DenseSt) : C (Step DenseSt) := do
  let Sn := min opts.block ((n : Int) - s.processed)
  if Sn ≤ 0 then .ok (.brk s)
  else do
    let Sn := Sn.toNat
    let Sm ← csub A.m s.fact.U.n
    let lnz_before ← dense_lnz opts s.fact
    let o ← env.dense s.round ⟨A, shift p s.processed, Sn, p_in, s.fact.U, s.fact.qinv, s.fact.Ltmp, s.S,
      datatype_choose A.F.p, s.q, s.p_out⟩
    let x ← dense_transfer jk env opts A.F.p Sn Sm lnz_before o s.pivotal { s.fact with Ltmp := o.L }
    let low := opts.tall && env.yield s.round
    let s : DenseSt := ⟨x.1, x.2.1, o.q, o.p_out, x.2.2, s.processed + Sn, s.round + 1, s.lowrank || low⟩
    if low then .ok (.brk s) else .ok (.cont s)

/-- `echelonize_dense` (src/spasm_echelonize.c:385-463).  The loop makes at most `n` iterations, plus the
one which notices the end. -/
def echelonize_dense (jk : Junk) (env : Env) (opts : Opts) (A : Csr) (p : Array Nat) (n : Nat)
    (p_in : Option (Array Nat)) (fact : Lu) : C Lu := do
  cassert (decide (opts.block > 0))
  let Sm ← csub A.m fact.U.n
  let s ← whileFuel (n + 1) ⟨fact, dense_alloc jk (opts.block.toNat * Sm), mkArr Sm jk.nat,
      mkArr opts.block.toNat jk.nat, mkArr A.n fun _ => false, 0, 0, false⟩
    fun s => dense_round jk env opts A p n p_in s
  let rank_ub := min ((A.n : Int) - s.fact.U.n) ((A.m : Int) - s.fact.U.n)
  if rank_ub > 0 ∧ n > s.processed ∧ s.lowrank = true then
    lowrank jk env opts A (shift p s.processed) (n - s.processed) s.fact
  else .ok s.fact

/-! ### spasm_echelonize -/

/-- The local variables.  `status`: 0 = `max_round` reached, 1 = nothing remains, 2 = early abort. -/
structure Driver where
  A : Csr
  n : Nat
  p_in : Option (Array Nat)
  p : Array Nat
  npiv : Nat
  fact : Lu
  status : Nat

/-- The end of a round: the next Schur complement (src/spasm_echelonize.c:552-565). -/
def echelonize_schur (jk : Junk) (env : Env) (round : Nat) (s : Driver) : C Driver := do
  let n ← csub s.n s.npiv
  let o ← env.schur round ⟨s.A, shift s.p s.npiv, n, s.fact.U, s.fact.qinv, env.size round, s.fact.Ltmp,
    s.p_in, mkArr n jk.nat⟩
  .ok { s with A := o.S, n := n, p_in := some o.p_out, fact := { s.fact with Ltmp := o.L } }

/-- One round (src/spasm_echelonize.c:525-565).  The array `p` has room for the rows of the original
matrix; only the part for the rows of the current matrix is used, and it is entirely rewritten in each
round: the array given to `spasm_pivots_extract_structural` is this part, uninitialised. -/
def echelonize_round (jk : Junk) (env : Env) (opts : Opts) (round : Nat) (s : Driver) : C (Step Driver) := do
  let k ← nnz s.A
  if k = 0 then .ok (.brk { s with status := 1 })
  else do
    let (npiv, fact, p) ← pivots_extract_structural jk s.A s.p_in s.fact (mkArr s.n jk.nat)
      (if opts.greedy then some (env.greedy round s.A) else none)
    let s := { s with npiv := npiv, fact := fact, p := p }
    if env.few round = true ∨ env.thick round = true then .ok (.brk { s with status := 2 })
    else do
      let s ← echelonize_schur jk env round s
      .ok (.cont s)

/-- The choice of a finishing method (src/spasm_echelonize.c:588-597). -/
def echelonize_finish (jk : Junk) (env : Env) (opts : Opts) (s : Driver) : C Lu := do
  let p := shift s.p s.npiv
  let n ← csub s.n s.npiv
  if opts.tall ∧ env.skinny = true then lowrank jk env opts s.A p n s.fact
  else if opts.dense ∧ env.full = true then echelonize_dense jk env opts s.A p n s.p_in s.fact
  else if opts.gplu then gplu jk s.A p n s.p_in s.fact fun U qinv => test_completion jk env s.A p n U qinv
  else .ok s.fact

/-- After the rounds (src/spasm_echelonize.c:572-597). -/
def echelonize_rest (jk : Junk) (env : Env) (opts : Opts) (s : Driver) : C Lu :=
  if s.status = 1 then .ok s.fact
  else if s.status = 0 then echelonize_finish jk env opts { s with npiv := 0, p := mkArr s.n fun i => i }
  else echelonize_finish jk env opts s

/-- `L` is put in its final form (src/spasm_echelonize.c:607-614). -/
def echelonize_L (jk : Junk) (opts : Opts) (fact : Lu) : C Lu :=
  if opts.L then do
    let L ← deref fact.Ltmp
    let Lp ← deref fact.p
    let Z ← compress jk { L with m := fact.U.n }
    .ok { fact with p := if fact.U.n = 0 ∧ jk.null0 then none else some (reallocArr Lp fact.U.n jk.nat),
                    L := some Z, Ltmp := none, complete := opts.complete }
  else .ok fact

/-- The end (src/spasm_echelonize.c:599-616). -/
def echelonize_cleanup (jk : Junk) (opts : Opts) (m : Nat) (fact : Lu) : C Lu := do
  let U ← csr_resize jk fact.U fact.U.n m
  let U ← csr_realloc jk U (-1)
  let fact ← echelonize_L jk opts { fact with U := U }
  .ok { fact with r := U.n }

/-- `L` and `p` at the beginning (src/spasm_echelonize.c:499-507).  `p` is filled with 0 instead of -1. -/
def echelonize_initL (jk : Junk) (opts : Opts) (A : Csr) : C (Option Triplet × Option (Array Nat)) :=
  if opts.L then do
    let k ← nnz A
    let L ← triplet_alloc jk A.n A.n k A.F.p true
    cassert L.x.isSome
    .ok (some L, some (mkArr A.n fun _ => 0))
  else .ok (none, none)

/-- The beginning (src/spasm_echelonize.c:492-514).  (`fact->r`, and `fact->complete` without `L`, are not
initialised.) -/
def echelonize_init (jk : Junk) (opts : Opts) (A : Csr) : C Lu := do
  let k ← nnz A
  let U ← csr_alloc jk A.n A.m k A.F.p true
  let (L, Lp) ← echelonize_initL jk opts A
  .ok ⟨0, false, none, { U with n := 0 }, mkArr A.m fun _ => -1, Lp, L⟩

/-- Sanity check of the options (src/spasm_echelonize.c:486-490). -/
def Opts.norm (opts : Opts) : Opts :=
  let L := opts.complete || opts.L
  { opts with L := L, tall := if L then false else opts.tall }

/-- `spasm_echelonize` (src/spasm_echelonize.c:473-617). -/
def echelonize (jk : Junk) (env : Env) (opts : Opts) (A : Csr) : C Lu := do
  let opts := opts.norm
  let fact ← echelonize_init jk opts A
  let (_, s) ← forBrk 0 opts.max_round ⟨A, A.n, none, mkArr A.n jk.nat, 0, fact, 0⟩
    fun round s => echelonize_round jk env opts round s
  let fact ← echelonize_rest jk env opts s
  echelonize_cleanup jk opts A.m fact

end Spasm
