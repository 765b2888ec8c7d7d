import Verif.Model.Bytes

/-
The functions of src/spasm_certificate.c that call `malloc` without looking at its result.  Blocks are granted or not by a
parameter (`grant k b`: is the `k`-th block, of `b` bytes, granted?).  A `NULL` pointer is an array without cells: all accesses are undefined.
-/

namespace Spasm

open Sha

/-- `malloc(count * sizeof(int))`, not checked (src/spasm_certificate.c:175-178, 249-252). -/
def raw_block (grant : Nat → Nat → Bool) (k : Nat) (jk : Junk) (count : Int) : Array Int :=
  if grant k (bytes count 4) then mkArr (bytes count 4 / 4) jk.int else #[]

/-- `spasm_rank_certificate_load` (src/spasm_certificate.c:243-270). -/
def certificate_load_mem (grant : Nat → Nat → Bool) (jk : Junk) (jc : Nat → Char) (c0 : Cert) (f : List Char) :
    C (Bool × Cert) := do
  let (r, f) ← scanD 31 f
  match r with
  | none => .ok (false, c0)
  | some r =>
    let c := { c0 with r := r.toNat, i := raw_block grant 0 jk r, j := raw_block grant 1 jk r,
                       x := raw_block grant 2 jk r, y := raw_block grant 3 jk r }
    let (prime, f) ← scanD 63 f
    match prime with
    | none => .ok (false, c)
    | some prime =>
      let f := skipWs f
      if f.isEmpty then .ok (false, { c with prime := prime })
      else do
        let l := (takeLine 64 f).1
        let f := (takeLine 64 f).2
        let hash ← forRange 0 32 c.hash fun i h =>
          wr h i (strtoul16 (cstr [hash_buffer jc l (2 * i), hash_buffer jc l (2 * i + 1)]))
        let (i, f) ← load_list r.toNat c.i f
        let (i, f) ← load_list r.toNat i f
        let (x, f) ← load_list r.toNat c.x f
        let (y, _) ← load_list r.toNat c.y f
        .ok (true, ⟨r.toNat, prime, hash, i, c.j, x, y⟩)

/-- `spasm_factorization_verify` (src/spasm_certificate.c:164-219). -/
def fact_verify_mem (grant : Nat → Nat → Bool) (jw : Nat → W) (jkb : Nat → B) (jb : Nat → Bool) (jk : Junk) (ctx0 : Prng)
    (fuel : Nat) (A : Csr) (fact : Lu) (seed : BitVec 64) : C Bool := do
  let L ← match fact.L with
    | some L => .ok L
    | none => .error .assertFail
  let U := fact.U
  let x := raw_block grant 0 jk A.n
  let y := raw_block grant 1 jk U.n
  let z := raw_block grant 2 jk A.m
  let t := raw_block grant 3 jk A.m
  let _ ← alloc_cells (grant 4) A.n 1
  let piv ← fact_pivotal A.n U.n fact.p jb
  let ctx ← prng_seed_simple jw jkb A.F.p.toNat seed 0 ctx0
  let z ← forRange 0 A.m z fun j z => wr z j 0
  let t ← forRange 0 A.m t fun j t => wr t j 0
  let y ← forRange 0 U.n y fun k y => wr y k 0
  let s ← fact_chal jw fuel A.n piv x ctx
  let t ← xApy s.2 A t
  let y ← xApy s.2 L y
  let z ← xApy y U z
  forRange 0 A.m true fun j ok => do
    let zj ← rd z j
    let tj ← rd t j
    .ok (if zj ≠ tj then false else ok)

end Spasm
