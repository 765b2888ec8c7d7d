import Verif.Model.Density
import Verif.Model.Echelonize

/-
The driver `spasm_echelonize` with the decisions that are made with floating-point numbers
(src/spasm_echelonize.c:30-51, 315-616).

Model/Echelonize.lean leaves these decisions arbitrary (fields of `Env`).  Here they are computed as the code
does: proportion of pivots, estimated density, size of the Schur complements, aspect ratio, starting weight of
the low-rank method, yields.  The conversions of `double` values to integers are undefined for NaN, infinities
and values out of range.
-/

namespace Spasm

/-- The fields of `struct echelonize_opts` (src/spasm.h:84-108) that are floating-point numbers. -/
structure FOpts where
  min_pivot_proportion : Dbl
  sparsity_threshold : Dbl
  low_rank_ratio : Dbl
  tall_and_skinny_ratio : Dbl
  low_rank_start_weight : Dbl

/-- `spasm_echelonize_init_opts`, integer fields (src/spasm_echelonize.c:9-28). -/
def Opts.init : Opts :=
  { greedy := true, tall := true, dense := true, gplu := true, L := false, complete := false, max_round := 3,
    block := 1000 }

/-- `spasm_echelonize_init_opts`, floating-point fields (src/spasm_echelonize.c:20-27). -/
def FOpts.init : FOpts :=
  { min_pivot_proportion := .fin (rnd 53 (1 / 10)), sparsity_threshold := .fin (rnd 53 (1 / 20)),
    low_rank_ratio := .fin (1 / 2), tall_and_skinny_ratio := .fin 5, low_rank_start_weight := .fin (-1) }

/-- What the floating-point decisions depend on besides the data. -/
structure Num where
  o : FOpts
  /-- values of `rand()` in the estimates of each round -/
  rand : Nat → Nat → Nat
  /-- `-log(0.01)`, as computed by the C library -/
  mlog : ℚ

/-! ### Low-rank method -/

/-- `rr < 0.9 * Sn` (src/spasm_echelonize.c:364). -/
def lowrank_less (rr Sn : Nat) : Bool :=
  (Dbl.ofInt rr).lt ((Dbl.fin (rnd 53 (9 / 10))).mul (Dbl.ofInt Sn))

/-- One iteration (src/spasm_echelonize.c:347-374). -/
def num_lowrank_round (jk : Junk) (env : Env) (block : Int) (A : Csr) (p : Array Nat) (s : LowRank) :
    C (Step LowRank) := do
  let Sn := min (s.rank_ub : Int) block
  if Sn ≤ 0 then .ok (.brk s)
  else do
    let o ← schur_dense_randomized jk A p s.n s.fact.U s.fact.qinv s.S (datatype_choose A.F.p) s.q Sn.toNat
      s.w env.draw (env.rand s.round)
    let r := env.ff.rref A.F.p Sn.toNat s.Sm o.1
    lowrank_next jk { env with less := fun _ => lowrank_less r.1 Sn.toNat } A p o.2 s r

/-- The starting weight (src/spasm_echelonize.c:344-345). -/
def num_weight (nm : Num) (n Sm : Nat) : C Int :=
  (if nm.o.low_rank_start_weight.lt (.fin 0) then
    (((Dbl.fin nm.mlog).mul (Dbl.ofInt n)).div (Dbl.ofInt (min n Sm : Nat))).ceil
  else nm.o.low_rank_start_weight).toI32

/-- `echelonize_dense_lowrank` (src/spasm_echelonize.c:315-379). -/
def num_lowrank (jk : Junk) (env : Env) (nm : Num) (opts : Opts) (A : Csr) (p : Array Nat) (n : Nat)
    (fact : Lu) : C Lu := do
  cassert (decide (opts.block > 0))
  let Sm ← csub A.m fact.U.n
  let w ← num_weight nm n Sm
  let s ← whileFuel env.fuel ⟨fact, dense_alloc jk (opts.block.toNat * Sm), mkArr Sm jk.nat, n, Sm, min n Sm, w, 0⟩
    fun s => num_lowrank_round jk env opts.block A p s
  .ok s.fact

/-! ### Dense method -/

/-- The rank of the chunk: result of FFPACK (src/spasm_echelonize.c:423-430). -/
def dense_rank (env : Env) (opts : Opts) (prime : Int) (Sn Sm : Nat) (S : Array ℚ) : Nat :=
  if opts.L then (env.ff.lu prime Sn Sm S).1 else (env.ff.rref prime Sn Sm S).1

/-- `opts->enable_tall_and_skinny && (rr < opts->low_rank_ratio * Sn)` (src/spasm_echelonize.c:446). -/
def dense_yield (nm : Num) (rr Sn : Nat) : Bool :=
  (Dbl.ofInt rr).lt (nm.o.low_rank_ratio.mul (Dbl.ofInt Sn))

/-- One iteration (src/spasm_echelonize.c:412-450). -/
def num_dense_round (jk : Junk) (env : Env) (nm : Num) (opts : Opts) (A : Csr) (p : Array Nat) (n : Nat)
    (p_in : Option (Array Nat)) (s : DenseSt) : C (Step DenseSt) := do
  let Sn := min opts.block ((n : Int) - s.processed)
  if Sn ≤ 0 then .ok (.brk s)
  else do
    let Sn := Sn.toNat
    let Sm ← csub A.m s.fact.U.n
    let lnz_before ← dense_lnz opts s.fact
    let o ← env.dense s.round ⟨A, shift p s.processed, Sn, p_in, s.fact.U, s.fact.qinv, s.fact.Ltmp, s.S,
      datatype_choose A.F.p, s.q, s.p_out⟩
    let x ← dense_transfer jk env opts A.F.p Sn Sm lnz_before o s.pivotal { s.fact with Ltmp := o.L }
    let low := opts.tall && dense_yield nm (dense_rank env opts A.F.p Sn Sm o.S) Sn
    let s : DenseSt := ⟨x.1, x.2.1, o.q, o.p_out, x.2.2, s.processed + Sn, s.round + 1, s.lowrank || low⟩
    if low then .ok (.brk s) else .ok (.cont s)

/-- `echelonize_dense` (src/spasm_echelonize.c:385-463). -/
def num_dense (jk : Junk) (env : Env) (nm : Num) (opts : Opts) (A : Csr) (p : Array Nat) (n : Nat)
    (p_in : Option (Array Nat)) (fact : Lu) : C Lu := do
  cassert (decide (opts.block > 0))
  let Sm ← csub A.m fact.U.n
  let s ← whileFuel (n + 1) ⟨fact, dense_alloc jk (opts.block.toNat * Sm), mkArr Sm jk.nat,
      mkArr opts.block.toNat jk.nat, mkArr A.n fun _ => false, 0, 0, false⟩
    fun s => num_dense_round jk env nm opts A p n p_in s
  let rank_ub := min ((A.n : Int) - s.fact.U.n) ((A.m : Int) - s.fact.U.n)
  if rank_ub > 0 ∧ n > s.processed ∧ s.lowrank = true then
    num_lowrank jk env nm opts A (shift p s.processed) (n - s.processed) s.fact
  else .ok s.fact

/-! ### Driver -/

/-- The local variables, with the last value of `density`. -/
structure NumDriver where
  d : Driver
  density : Dbl

/-- `npiv < opts->min_pivot_proportion * spasm_min(n, m - U->n)` (src/spasm_echelonize.c:537). -/
def num_few (nm : Num) (npiv n : Nat) (rest : Int) : Bool :=
  (Dbl.ofInt npiv).lt (nm.o.min_pivot_proportion.mul (Dbl.ofInt (min (n : Int) rest)))

/-- The room for the Schur complement: the number shown in the message (src/spasm_echelonize.c:553) and the
initial size in `spasm_schur` (src/spasm_schur.c:69-71). -/
def num_size (jk : Junk) (nm : Num) (round : Nat) (s : Driver) (density : Dbl) : C Nat := do
  let n ← csub s.n s.npiv
  let _ ← ((density.mul (Dbl.ofInt n)).mul (Dbl.ofInt ((s.A.m : Int) - s.fact.U.n))).toI64
  schur_size jk s.A (shift s.p s.npiv) n s.fact.U s.fact.qinv (fun i => nm.rand round (100 + i)) density

/-- The density estimated after the search for pivots (src/spasm_echelonize.c:545). -/
def num_density (jk : Junk) (nm : Num) (round : Nat) (s : Driver) : C Dbl := do
  let n ← csub s.n s.npiv
  estimate_density jk s.A (shift s.p s.npiv) n s.fact.U s.fact.qinv 100 (nm.rand round)

/-- The end of a round, once there are enough pivots (src/spasm_echelonize.c:545-565). -/
def num_next (jk : Junk) (env : Env) (nm : Num) (round : Nat) (s : Driver) : C (Step NumDriver) := do
  let density ← num_density jk nm round s
  if nm.o.sparsity_threshold.lt density then .ok (.brk ⟨{ s with status := 2 }, density⟩)
  else do
    let size ← num_size jk nm round s density
    let s ← echelonize_schur jk { env with size := fun _ => size } round s
    .ok (.cont ⟨s, density⟩)

/-- One round (src/spasm_echelonize.c:525-565). -/
def num_round (jk : Junk) (env : Env) (nm : Num) (opts : Opts) (round : Nat) (s : NumDriver) :
    C (Step NumDriver) := do
  let k ← nnz s.d.A
  if k = 0 then .ok (.brk { s with d := { s.d with status := 1 } })
  else do
    let (npiv, fact, p) ← pivots_extract_structural jk s.d.A s.d.p_in s.d.fact (mkArr s.d.n jk.nat)
      (if opts.greedy then some (env.greedy round s.d.A) else none)
    let d := { s.d with npiv := npiv, fact := fact, p := p }
    if num_few nm npiv d.n ((d.A.m : Int) - fact.U.n) then .ok (.brk { s with d := { d with status := 2 } })
    else num_next jk env nm round d

/-- `aspect_ratio > opts->tall_and_skinny_ratio` (src/spasm_echelonize.c:586-588). -/
def num_skinny (nm : Num) (n : Nat) (rest : Int) : Bool :=
  nm.o.tall_and_skinny_ratio.lt ((Dbl.ofInt n).div (Dbl.ofInt rest))

/-- The choice of a finishing method (src/spasm_echelonize.c:586-597). -/
def num_finish (jk : Junk) (env : Env) (nm : Num) (opts : Opts) (density : Dbl) (s : Driver) : C Lu := do
  let p := shift s.p s.npiv
  let n ← csub s.n s.npiv
  if opts.tall ∧ num_skinny nm n ((s.A.m : Int) - s.fact.U.n) = true then num_lowrank jk env nm opts s.A p n s.fact
  else if opts.dense ∧ nm.o.sparsity_threshold.lt density = true then
    num_dense jk env nm opts s.A p n s.p_in s.fact
  else if opts.gplu then gplu jk s.A p n s.p_in s.fact fun U qinv => test_completion jk env s.A p n U qinv
  else .ok s.fact

/-- After the rounds (src/spasm_echelonize.c:572-597). -/
def num_rest (jk : Junk) (env : Env) (nm : Num) (opts : Opts) (s : NumDriver) : C Lu :=
  if s.d.status = 1 then .ok s.d.fact
  else if s.d.status = 0 then
    num_finish jk env nm opts s.density { s.d with npiv := 0, p := mkArr s.d.n fun i => i }
  else num_finish jk env nm opts s.density s.d

/-- The density of the input (src/spasm_echelonize.c:518). -/
def num_density0 (A : Csr) (k : Nat) : Dbl :=
  ((Dbl.ofInt k).div (Dbl.ofInt A.n)).div (Dbl.ofInt A.m)

/-- `spasm_echelonize` (src/spasm_echelonize.c:473-617). -/
def echelonize_num (jk : Junk) (env : Env) (nm : Num) (opts : Opts) (A : Csr) : C Lu := do
  let opts := opts.norm
  let fact ← echelonize_init jk opts A
  let k ← nnz A
  let (_, s) ← forBrk 0 opts.max_round ⟨⟨A, A.n, none, mkArr A.n jk.nat, 0, fact, 0⟩, num_density0 A k⟩
    fun round s => num_round jk env nm opts round s
  let fact ← num_rest jk env nm opts s
  echelonize_cleanup jk opts A.m fact

end Spasm
