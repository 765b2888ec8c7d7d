import Verif.Model.Samples
import Verif.Model.Prng

/-
`spasm_schur_dense_randomized` (src/spasm_schur.c:346-413) with the random numbers that it really uses, and with its
threads.  (In Model/Dense.lean the random numbers are parameters and the rows are computed in order.)
-/

namespace Spasm

/-- Uninitialised memory in the thread that computes row `k`: local variables of `SHA256_update`, of
`spasm_prng_seed_simple`, and `spasm_prng_ctx ctx` (src/spasm_schur.c:368).  `fuel` bounds the number of candidates
examined in each call to `spasm_prng_ZZp` (not in the code). -/
structure RandMem where
  jw : Nat → Sha.W
  jkb : Nat → Sha.B
  ctx : Nat → Prng
  fuel : Nat

/-- `(i == 0) ? 1 : spasm_prng_ZZp(&ctx)` (src/spasm_schur.c:383). -/
def rand_coeff (g : RandMem) (i : Nat) (ctx : Prng) : C (Int × Prng) :=
  if i = 0 then .ok (1, ctx) else prng_ZZp g.jw g.fuel ctx

/-- The body of the loops on the rows (src/spasm_schur.c:376-378, 382-384). -/
def rand_add (A : Csr) (row : C Nat) (coeff : Prng → C (Int × Prng)) (s : Prng × Array Int) :
    C (Prng × Array Int) := do
  let inew ← row
  let r ← coeff s.1
  let y ← scatter A inew r.1 s.2
  .ok (r.2, y)

/-- One random combination (src/spasm_schur.c:373-386); `rnd i` is the value of `rand()` in iteration `i`. -/
def random_comb_prng (g : RandMem) (A : Csr) (p : Array Nat) (n : Nat) (w : Int) (rnd : Nat → Nat)
    (s : Prng × Array Int) : C (Prng × Array Int) :=
  if w ≤ 0 then forRange 0 n s fun i s => rand_add A (rd p i) (prng_ZZp g.jw g.fuel) s
  else forRange 0 w.toNat s fun i s => rand_add A (rd p (rnd i % n)) (rand_coeff g i) s

/-- Iteration `k` (src/spasm_schur.c:368-398), with the vector `y` of the thread: the new `y`, and what is written
in `S`.  The counter `k` is converted to the 64-bit seed. -/
def random_row_prng (g : RandMem) (A : Csr) (p : Array Nat) (n : Nat) (U : Csr) (dt : Datatype) (q : Array Nat)
    (w : Int) (rnd : Nat → Nat) (k : Nat) (y : Array Int) : C (Array Int × List DAct) := do
  let ctx ← prng_seed_simple g.jw g.jkb A.F.p.toNat (BitVec.ofNat 64 k) 0 (g.ctx k)
  let y ← forRange 0 A.m y fun j y => wr y j 0
  let r ← random_comb_prng g A p n w rnd (ctx, y)
  let y ← random_elim U r.2
  let l ← gather (A.m - U.n) q y dt (k * (A.m - U.n))
  .ok (y, l)

/-- The iterations `ks` of the parallel loop, in order. -/
def random_rows_prng (g : RandMem) (A : Csr) (p : Array Nat) (n : Nat) (U : Csr) (dt : Datatype) (q : Array Nat)
    (w : Int) (rnd : Nat → Nat → Nat) : List Nat → Array Int → C (List DAct)
  | [], _ => .ok []
  | k :: ks, y => do
    let r ← random_row_prng g A p n U dt q w (rnd k) k y
    let ls ← random_rows_prng g A p n U dt q w rnd ks r.1
    .ok (r.2 ++ ls)

/-- One thread: allocates `y` (src/spasm_schur.c:364). -/
def random_thread (jk : Junk) (g : RandMem) (A : Csr) (p : Array Nat) (n : Nat) (U : Csr) (dt : Datatype)
    (q : Array Nat) (w : Int) (rnd : Nat → Nat → Nat) (ks : List Nat) : C (List DAct) :=
  random_rows_prng g A p n U dt q w rnd ks (mkArr A.m jk.int)

/-- The arguments of `spasm_schur_dense_randomized`. -/
structure RandIn where
  A : Csr
  p : Array Nat
  n : Nat
  U : Csr
  qinv : Array Int
  S : Array ℚ
  dt : Datatype
  q : Array Nat
  N : Nat
  w : Int

/-- `(S, q)` is a possible outcome of `spasm_schur_dense_randomized` (src/spasm_schur.c:346-413): there is a number of
threads, an assignment of the iterations to the threads, and an interleaving leading to it.  The threads share
only `S`.  (`rand()` is shared too; its values are arbitrary.) -/
def RandomRun (jk : Junk) (g : RandMem) (a : RandIn) (rnd : Nat → Nat → Nat) (o : Array ℚ × Array Nat) : Prop :=
  0 < a.n ∧ ∃ (T : Nat) (ks : Fin T → List Nat) (jobs : Fin T → List DAct) (s : DSt T),
    ∑ t, (ks t : Multiset Nat) = Multiset.range a.N ∧
    prepare_q a.A.m a.qinv a.q = .ok o.2 ∧
    (∀ t, random_thread jk g a.A a.p a.n a.U a.dt o.2 a.w rnd (ks t) = .ok (jobs t)) ∧
    DReach (dense_init a.S #[] none jobs) s ∧ s.Finished ∧ o.1 = s.S

/-- `b` is a possible outcome of `spasm_echelonize_test_completion` (src/spasm_echelonize.c:30-51). -/
def TestRun (jk : Junk) (g : RandMem) (ff : Ffpack) (lg2 : Dbl → Dbl) (A : Csr) (p : Array Nat) (n : Nat) (U : Csr)
    (qinv : Array Int) (b : Bool) : Prop :=
  ∃ k, nnz A = .ok k ∧
    if n = 0 ∨ k = 0 then b = true
    else ∃ Sn Sm o rnd, test_samples lg2 A.F.p = .ok Sn ∧ csub A.m U.n = .ok Sm ∧
      RandomRun jk g ⟨A, p, n, U, qinv, dense_alloc jk (Sn.toNat * Sm), datatype_choose A.F.p, mkArr Sm jk.nat, Sn.toNat, 0⟩
        rnd o ∧
      b = decide ((ff.rref A.F.p Sn.toNat Sm o.1).1 = 0)

end Spasm
