import Verif.Model.Sha256
import Verif.Model.ZZp

/-
Model of src/spasm_prng.c.
-/

namespace Spasm

open Sha

/-- `spasm_prng_ctx` (src/spasm.h:127-135).  The arrays `block` (11 words) and `hash` (8 words) are kept
as bytes: the code stores `htonl(v)` and reads back through `htonl`, i.e. big-endian words in memory
whatever the machine. -/
structure Prng where
  block : Array B
  hash : Array B
  prime : Nat
  mask : W
  counter : Int
  i : Nat
  field : Field

/-- src/spasm_prng.c:7-16.  `counter` is an `int`: its overflow is undefined. -/
def rehash (jk : Nat → W) (ctx : Prng) : C Prng := do
  let hctx ← SHA256_update jk SHA256_init ctx.block 44
  let r ← SHA256_final jk ctx.hash hctx
  let counter ← i32 (ctx.counter + 1)
  let block ← HOST_l2c (BitVec.ofInt 32 counter) ctx.block 36
  .ok { ctx with hash := r.1, counter := counter, block := block, i := 0 }

/-- the test at lines 23-24 -/
def prng_refill (jk : Nat → W) (ctx : Prng) : C Prng :=
  if ctx.i = 8 then rehash jk ctx else .ok ctx

/-- src/spasm_prng.c:21-28 -/
def prng_u32 (jk : Nat → W) (ctx : Prng) : C (W × Prng) := do
  let ctx ← prng_refill jk ctx
  let res ← HOST_c2l ctx.hash (4 * ctx.i)
  .ok (res, { ctx with i := ctx.i + 1 })

/-- src/spasm_prng.c:33-40.  The loop has no bound; `fuel` limits the number of iterations. -/
def prng_ZZp (jk : Nat → W) : Nat → Prng → C (Int × Prng)
  | 0, _ => .error .fuel
  | fuel + 1, ctx => do
    let r ← prng_u32 jk ctx
    let x := r.1 &&& r.2.mask
    if x.toNat < r.2.prime then do
      let z ← ZZp_init r.2.field x.toNat
      .ok (z, r.2)
    else prng_ZZp jk fuel r.2

/-- src/spasm_prng.c:50-53 -/
def prng_mask (prime : Nat) : C Nat :=
  whileFuel 64 1 (fun mask => if mask < prime then .ok (.cont (2 * mask)) else .ok (.brk mask))

/-- src/spasm_prng.c:45-60.  `ctx->prime` is a `u32`. -/
@[irreducible] def prng_seed (jk : Nat → W) (seed : Array B) (prime : Nat) (seq : W) (ctx : Prng) : C Prng := do
  let block ← forRange 0 32 ctx.block (fun i b => do
    let s ← rd seed i
    wr b i s)
  let mask ← prng_mask prime
  let block ← HOST_l2c (BitVec.ofNat 32 prime) block 32
  let block ← HOST_l2c 0 block 36
  let block ← HOST_l2c seq block 40
  let F ← field_init prime
  rehash jk { ctx with block := block, prime := prime % 2 ^ 32, mask := BitVec.ofNat 32 (mask - 1),
                       counter := 0, field := F }

/-- src/spasm_prng.c:65-73 -/
@[irreducible] def prng_seed_simple (jk : Nat → W) (jkb : Nat → B) (prime : Nat) (seed : BitVec 64) (seq : W)
    (ctx : Prng) : C Prng := do
  let block ← HOST_l2c ((seed &&& 0xffffffff#64).truncate 32) (mkArr 32 jkb) 0
  let block ← HOST_l2c ((seed >>> 32).truncate 32) block 4
  let block ← forRange 2 8 block (fun i b => HOST_l2c 0 b (4 * i))
  prng_seed jk block prime seq ctx

end Spasm
