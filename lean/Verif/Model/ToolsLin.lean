import Verif.Model.Tools
import Verif.Model.Echelonize
import Verif.Model.Rref
import Verif.Model.Gesv

/-
Models of the programs of /repo/tools that echelonize a matrix.  The options are parameters; the messages on the
error output are not modelled, except the rank, the verdict on the certificate and the warnings of `solve`.  A missing
file (`fopen` fails) is not modelled.
-/

namespace Spasm

open Sha

/-! ### tools/transpose.c -/

/-- tools/transpose.c -/
def tool_transpose (jk : Junk) (jw : Nat → W) (f : List Char) : C (List Char) := do
  let (T, _) ← triplet_load jk jw f 42013 none
  let A ← compress jk T
  let At ← transpose jk A true
  csr_save At

/-! ### tools/rank.c -/

/-- The matrix and the hash of the file (tools/rank.c:82-90); `allow` is `args.allow_transpose` and `h0` what the
uninitialised `hash` contains. -/
def rank_input (jk : Junk) (jw : Nat → W) (h0 : Nat → B) (f : List Char) (prime : Int) (allow : Bool) :
    C (Csr × Array B) := do
  let (T, hash) ← triplet_load jk jw f prime (some (mkArr 32 h0))
  let T := if allow = true ∧ T.n < T.m then triplet_transpose T else T
  let A ← compress jk T
  let hash ← deref hash
  .ok (A, hash)

/-- tools/rank.c without `--certificate`: the rank that is printed (line 103). -/
def tool_rank (jk : Junk) (jw : Nat → W) (h0 : Nat → B) (env : Env) (opts : Opts) (f : List Char) (prime : Int)
    (allow : Bool) : C Nat := do
  let (A, _) ← rank_input jk jw h0 f prime allow
  let fact ← echelonize jk env opts A
  .ok fact.U.n

/-- The uninitialised memory and the bound on the number of steps of the generator of random numbers. -/
structure CertMem where
  jw : Nat → W
  jkb : Nat → B
  jb : Nat → Bool
  jk : Junk
  ctx : Prng
  fuel : Nat

/-- `assert(spasm_factorization_verify(A, fact, seed))` (tools/rank.c:107-109). -/
def rank_assert (M : CertMem) (A : Csr) (fact : Lu) (seed : BitVec 64) : C Unit := do
  let b ← fact_verify M.jw M.jkb M.jb M.jk M.ctx M.fuel A fact seed
  cassert b

/-- The certificate (tools/rank.c:106-123): the verdict of the program and the file it writes. -/
def rank_certificate (M : CertMem) (A : Csr) (hash : Array B) (fact : Lu) : C (Bool × List Char) := do
  rank_assert M A fact 42
  rank_assert M A fact 1337
  rank_assert M A fact 21011984
  let proof ← cert_create M.jw M.jk M.ctx M.fuel A hash fact
  let correct ← cert_verify M.jw M.jk M.ctx M.fuel A hash proof
  let t ← certificate_save proof
  .ok (correct, t)

/-- tools/rank.c with `--certificate` and `--output`: the rank, the verdict and the file. -/
def tool_rank_cert (jk : Junk) (jw : Nat → W) (h0 : Nat → B) (M : CertMem) (env : Env) (opts : Opts) (f : List Char)
    (prime : Int) (allow : Bool) : C (Nat × Bool × List Char) := do
  let (A, hash) ← rank_input jk jw h0 f prime allow
  let fact ← echelonize jk env { opts with L := true } A
  let (correct, t) ← rank_certificate M A hash fact
  .ok (fact.U.n, correct, t)

/-! ### tools/kernel.c -/

/-- tools/kernel.c:76-85, up to the echelonization; `left` is the option `--left`. -/
def kernel_input (jk : Junk) (jw : Nat → W) (env : Env) (opts : Opts) (f : List Char) (prime : Int) (left : Bool) :
    C Lu := do
  let (T, _) ← triplet_load jk jw f prime none
  let T := if left = true then triplet_transpose T else T
  let A ← compress jk T
  echelonize jk env opts A

/-- tools/kernel.c: `g` is a file that the program may write. -/
def KernelTool (jk : Junk) (jw : Nat → W) (env : Env) (opts : Opts) (f : List Char) (prime : Int) (left : Bool)
    (g : List Char) : Prop :=
  ∃ fact K, kernel_input jk jw env opts f prime left = .ok fact ∧ KernelRun jk fact.U fact.qinv K ∧
    csr_save K = .ok g

/-! ### tools/echelonize.c -/

/-- tools/echelonize.c:61-67, up to the echelonization. -/
def echelonize_input (jk : Junk) (jw : Nat → W) (env : Env) (opts : Opts) (f : List Char) (prime : Int) : C Lu := do
  let (T, _) ← triplet_load jk jw f prime none
  let A ← compress jk T
  echelonize jk env opts A

/-- tools/echelonize.c without `--rref`. -/
def tool_echelonize (jk : Junk) (jw : Nat → W) (env : Env) (opts : Opts) (f : List Char) (prime : Int) :
    C (List Char) := do
  let fact ← echelonize_input jk jw env opts f prime
  csr_save fact.U

/-- tools/echelonize.c with `--rref`: `g` is a file that the program may write.  The number of columns of `U` is
that of `A` (line 64). -/
def RrefTool (jk : Junk) (jw : Nat → W) (env : Env) (opts : Opts) (f : List Char) (prime : Int) (g : List Char) : Prop :=
  ∃ fact R rq, echelonize_input jk jw env opts f prime = .ok fact ∧
    RrefRun jk fact.U fact.qinv (mkArr fact.U.m jk.int) R rq ∧ csr_save R = .ok g

/-! ### tools/solve.c -/

/-- `(X, ok)` is a possible result of `spasm_gesv(fact, B, ok)`. -/
def GesvRun (jk : Junk) (fact : Lu) (B : Csr) (X : Csr) (ok : Nat → Bool) : Prop :=
  ∃ (L : Csr) (T : Nat) (rows : Fin T → List Nat) (oks : Fin T → List (Nat × Bool))
    (items : Fin T → List (Nat × Nat × Int)) (s : ASt (Nat × Nat × Int) T),
    fact.L = some L ∧ ∑ t, (rows t : Multiset Nat) = Multiset.range B.n ∧
    (∀ t, gesv_thread jk fact B L.n (rows t) = .ok (oks t, items t)) ∧
    AReach (ASt.init 0 (mkArr (L.n * B.n) fun k => (jk.nat k, jk.nat k, jk.int k)) items) s ∧ s.Finished ∧
    compress jk (s.toTriplet B.n L.n B.F) = .ok X ∧ ∀ t i b, (i, b) ∈ oks t → ok i = b

/-- tools/solve.c:76-98: the factorization of the first matrix and the second one. -/
def solve_input (jk : Junk) (jw : Nat → W) (h0 : Nat → B) (env : Env) (opts : Opts) (f g : List Char) (prime : Int) :
    C (Lu × Csr) := do
  let (T, hash) ← triplet_load jk jw f prime (some (mkArr 32 h0))
  let A ← compress jk T
  let (T, _) ← triplet_load jk jw g prime hash
  let B ← compress jk T
  let fact ← echelonize jk env { opts with L := true } A
  .ok (fact, B)

/-- tools/solve.c:105-107: the warnings. -/
def solve_warnings (n : Nat) (ok : Nat → Bool) : List Char :=
  (List.range n).flatMap fun i =>
    if ok i = false then "WARNING: no solution for row ".toList ++ fmtD (i : Int) ++ ['\n'] else []

/-- tools/solve.c: `w` are the warnings and `t` the file that the program may write. -/
def SolveTool (jk : Junk) (jw : Nat → W) (h0 : Nat → B) (env : Env) (opts : Opts) (f g : List Char) (prime : Int)
    (w t : List Char) : Prop :=
  ∃ fact B X ok, solve_input jk jw h0 env opts f g prime = .ok (fact, B) ∧ GesvRun jk fact B X ok ∧
    w = solve_warnings B.n ok ∧ csr_save X = .ok t

end Spasm
