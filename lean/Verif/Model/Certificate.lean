import Verif.Model.Prng
import Verif.Model.Solve

/-
Model of the rank certificates and of the verification of factorizations (src/spasm_certificate.c).

Throughout, `jw` is what the stack arrays of the hash function contain, `ctx0` what the
uninitialised generator contains, `jk` what `malloc` returns, and `fuel` bounds the number of
iterations of each call to `spasm_prng_ZZp`, whose loop has no bound in C.
-/

namespace Spasm

open Sha

/-- `struct spasm_rank_certificate` (src/spasm.h:110-118); a negative `r` (only possible after reading
a file) is represented by 0, since `r` is only compared with indices. -/
structure Cert where
  r : Nat
  prime : Int
  hash : Array B
  i : Array Int
  j : Array Int
  x : Array Int
  y : Array Int
  deriving DecidableEq

/-- `BOT` (src/spasm_certificate.c:74,140). -/
def BOT : Int := 0x7fffffff

/-- `for (k = 0; k < r; k++) x[ii[k]] = v[k];` (src/spasm_certificate.c:125-128,143-146) -/
def cert_put (r : Nat) (ii v x : Array Int) : C (Array Int) :=
  forRange 0 r x fun k x => do
    let i ← rd ii k
    let vk ← rd v k
    wrI x i vk

/-- `for (k = 0; k < r; k++) out[k] = x[ii[k]];` (src/spasm_certificate.c:68-71,88-91) -/
def cert_get (r : Nat) (ii x out : Array Int) : C (Array Int) :=
  forRange 0 r out fun k out => do
    let i ← rd ii k
    let v ← rdI x i
    wr out k v

/-! ### Verification -/

/-- src/spasm_certificate.c:103-105 -/
def cert_hash_eq (a b : Array B) : C Bool := do
  let r ← forBrk 0 32 () fun i _ => do
    let x ← rd a i
    let y ← rd b i
    if x ≠ y then .ok (.brk ()) else .ok (.cont ())
  .ok (decide (r.1 = 32))

/-- src/spasm_certificate.c:110-115 -/
def cert_range (n m : Nat) (c : Cert) : C Bool := do
  let r ← forBrk 0 c.r () fun k _ => do
    let i ← rd c.i k
    if i < 0 ∨ (n : Int) ≤ i then .ok (.brk ())
    else do
      let j ← rd c.j k
      if j < 0 ∨ (m : Int) ≤ j then .ok (.brk ()) else .ok (.cont ())
  .ok (decide (r.1 = c.r))

/-- src/spasm_certificate.c:132-137: comparison of `y` with the challenge -/
def cert_cmp (jw : Nat → W) (fuel : Nat) (c : Cert) (y : Array Int) (ctx : Prng) : C (Prng × Bool) :=
  forRange 0 c.r (ctx, true) fun k s => do
    let j ← rd c.j k
    let yj ← rdI y j
    let v ← prng_ZZp jw fuel s.1
    .ok (v.2, if yj ≠ v.1 then false else s.2)

/-- src/spasm_certificate.c:148-150: fills the rows holding `BOT` with the challenge -/
def cert_fill (jw : Nat → W) (fuel n : Nat) (x : Array Int) (ctx : Prng) : C (Prng × Array Int) :=
  forRange 0 n (ctx, x) fun i s => do
    let xi ← rd s.2 i
    if xi = BOT then do
      let v ← prng_ZZp jw fuel s.1
      let x ← wr s.2 i v.1
      .ok (v.2, x)
    else .ok s

/-- src/spasm_certificate.c:154-157 -/
def cert_zero (m : Nat) (y : Array Int) (correct : Bool) : C Bool :=
  forRange 0 m correct fun j ok => do
    let yj ← rd y j
    .ok (if yj ≠ 0 then false else ok)

/-- src/spasm_certificate.c:117-160 -/
def cert_check (jw : Nat → W) (jk : Junk) (ctx0 : Prng) (fuel : Nat) (A : Csr) (c : Cert) : C Bool := do
  let ctx ← prng_seed jw c.hash c.prime.toNat 0 ctx0
  let x ← forRange 0 A.n (mkArr A.n jk.int) fun i x => wr x i 0
  let x ← cert_put c.r c.i c.x x
  let y ← forRange 0 A.m (mkArr A.m jk.int) fun j y => wr y j 0
  let y ← xApy x A y
  let s ← cert_cmp jw fuel c y ctx
  let x ← forRange 0 A.n x fun i x => wr x i BOT
  let x ← cert_put c.r c.i c.y x
  let t ← cert_fill jw fuel A.n x s.1
  let y ← forRange 0 A.m y fun j y => wr y j 0
  let y ← xApy t.2 A y
  cert_zero A.m y s.2

/-- `spasm_certificate_rank_verify` (src/spasm_certificate.c:97-161). -/
def cert_verify (jw : Nat → W) (jk : Junk) (ctx0 : Prng) (fuel : Nat) (A : Csr) (hash : Array B) (c : Cert) :
    C Bool := do
  let h ← cert_hash_eq hash c.hash
  if h = false then .ok false
  else if A.F.p ≠ c.prime then .ok false
  else do
    let g ← cert_range A.n A.m c
    if g = false then .ok false
    else cert_check jw jk ctx0 fuel A c

/-! ### Creation -/

/-- src/spasm_certificate.c:45-46 -/
def cert_rows (r : Nat) (p : Option (Array Nat)) (ii : Array Int) : C (Array Int) :=
  forRange 0 r ii fun k ii => do
    let a ← deref p
    let i ← rd a k
    wr ii k (i : Int)

/-- src/spasm_certificate.c:47-52 -/
def cert_cols (m : Nat) (qinv : Array Int) (jj : Array Int) : C (Nat × Array Int) :=
  forRange 0 m (0, jj) fun j s => do
    let i ← rd qinv j
    if 0 ≤ i then do
      let jj ← wr s.2 s.1 (j : Int)
      .ok (s.1 + 1, jj)
    else .ok s

/-- src/spasm_certificate.c:63-66 -/
def cert_rhs (jw : Nat → W) (fuel r : Nat) (jj y : Array Int) (ctx : Prng) : C (Prng × Array Int) :=
  forRange 0 r (ctx, y) fun k s => do
    let j ← rd jj k
    let v ← prng_ZZp jw fuel s.1
    let y ← wrI s.2 j v.1
    .ok (v.2, y)

/-- src/spasm_certificate.c:77-80 -/
def cert_mark (r : Nat) (ii x : Array Int) : C (Array Int) :=
  forRange 0 r x fun k x => do
    let i ← rd ii k
    wrI x i 0

/-- src/spasm_certificate.c:81-83 -/
def cert_neg (jw : Nat → W) (fuel n : Nat) (x : Array Int) (ctx : Prng) : C (Prng × Array Int) :=
  forRange 0 n (ctx, x) fun i s => do
    let xi ← rd s.2 i
    if xi = BOT then do
      let v ← prng_ZZp jw fuel s.1
      let w ← ZZp_neg v.1
      let x ← wr s.2 i w
      .ok (v.2, x)
    else .ok s

/-- `spasm_certificate_rank_create` (src/spasm_certificate.c:21-95). -/
def cert_create (jw : Nat → W) (jk : Junk) (ctx0 : Prng) (fuel : Nat) (A : Csr) (hash : Array B) (fact : Lu) :
    C Cert := do
  let L ← match fact.L with
    | some L => .ok L
    | none => .error .assertFail
  let U := fact.U
  let r := U.n
  let h ← forRange 0 32 (mkArr 32 fun _ => (0 : B)) fun i h => do
    let b ← rd hash i
    wr h i b
  let ii ← cert_rows r fact.p (mkArr r jk.int)
  let s ← cert_cols U.m fact.qinv (mkArr r jk.int)
  let jj := s.2
  let ctx ← prng_seed jw hash A.F.p.toNat 0 ctx0
  let y ← forRange 0 U.m (mkArr U.m jk.int) fun j y => wr y j 0
  let t ← cert_rhs jw fuel r jj y ctx
  let a ← solve jk fact t.2 (mkArr L.n jk.int)
  let xx ← cert_get r ii a.1 (mkArr r jk.int)
  let x ← forRange 0 L.n a.1 fun i x => wr x i BOT
  let x ← cert_mark r ii x
  let u ← cert_neg jw fuel L.n x t.1
  let y ← forRange 0 U.m t.2 fun j y => wr y j 0
  let y ← xApy u.2 A y
  let a ← solve jk fact y u.2
  let yy ← cert_get r ii a.1 (mkArr r jk.int)
  .ok { r := r, prime := A.F.p, hash := h, i := ii, j := jj, x := xx, y := yy }

/-! ### Verification of a factorization -/

/-- src/spasm_certificate.c:182-189; the array of `bool` starts with arbitrary contents -/
def fact_pivotal (n r : Nat) (p : Option (Array Nat)) (jb : Nat → Bool) : C (Array Bool) := do
  let piv ← forRange 0 n (mkArr n jb) fun i piv => wr piv i false
  forRange 0 r piv fun j piv => do
    let a ← deref p
    let i ← rd a j
    wr piv i true

/-- src/spasm_certificate.c:199-205 (`complete` is always false there) -/
def fact_chal (jw : Nat → W) (fuel n : Nat) (piv : Array Bool) (x : Array Int) (ctx : Prng) :
    C (Prng × Array Int) :=
  forRange 0 n (ctx, x) fun i s => do
    let v ← prng_ZZp jw fuel s.1
    let b ← rd piv i
    let x ← wr s.2 i (if b then v.1 else 0)
    .ok (v.2, x)

/-- `spasm_factorization_verify` (src/spasm_certificate.c:164-219).  The assertion `Lp[j] >= 0` is
implied by the type of `p` in the model. -/
def fact_verify (jw : Nat → W) (jkb : Nat → B) (jb : Nat → Bool) (jk : Junk) (ctx0 : Prng) (fuel : Nat) (A : Csr)
    (fact : Lu) (seed : BitVec 64) : C Bool := do
  let L ← match fact.L with
    | some L => .ok L
    | none => .error .assertFail
  let U := fact.U
  let piv ← fact_pivotal A.n U.n fact.p jb
  let ctx ← prng_seed_simple jw jkb A.F.p.toNat seed 0 ctx0
  let z ← forRange 0 A.m (mkArr A.m jk.int) fun j z => wr z j 0
  let t ← forRange 0 A.m (mkArr A.m jk.int) fun j t => wr t j 0
  let y ← forRange 0 U.n (mkArr U.n jk.int) fun k y => wr y k 0
  let s ← fact_chal jw fuel A.n piv (mkArr A.n jk.int) ctx
  let t ← xApy s.2 A t
  let y ← xApy s.2 L y
  let z ← xApy y U z
  forRange 0 A.m true fun j ok => do
    let zj ← rd z j
    let tj ← rd t j
    .ok (if zj ≠ tj then false else ok)

end Spasm
