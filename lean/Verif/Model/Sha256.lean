import Verif.Prelude

/-
Model of src/sha256.c.  `u32` is `BitVec 32`, `u8` is `BitVec 8`, `size_t` lengths are natural
numbers.  The machine is taken to be little-endian (the branch sha256.c:268-303 for big-endian machines
reads the same words and performs the same rounds).
-/

namespace Spasm.Sha

abbrev W := BitVec 32
abbrev B := BitVec 8

/-- `spasm_sha256_ctx` (src/spasm.h:120-125).  `data` is the block buffer, seen as bytes as the code
does. -/
structure Ctx where
  h : Array W
  Nl : W
  Nh : W
  data : Array B
  num : Nat
  md_len : Nat

/-- src/sha256.c:39-51 -/
def SHA256_init : Ctx :=
  { h := #[0x6a09e667#32, 0xbb67ae85#32, 0x3c6ef372#32, 0xa54ff53a#32,
           0x510e527f#32, 0x9b05688c#32, 0x1f83d9ab#32, 0x5be0cd19#32],
    Nl := 0, Nh := 0, data := mkArr 64 (fun _ => 0), num := 0, md_len := 32 }

/-- Macro ROTATE, src/sha256.c:80 -/
def ROTATE (a : W) (n : Nat) : W := (a <<< n) ||| ((a &&& 0xffffffff#32) >>> (32 - n))

/-- Macro HOST_c2l, src/sha256.c:81-84 (reads four bytes at `off`). -/
def HOST_c2l (c : Array B) (off : Nat) : C W := do
  let b0 ← rd c off
  let b1 ← rd c (off + 1)
  let b2 ← rd c (off + 2)
  let b3 ← rd c (off + 3)
  .ok (((b0.zeroExtend 64 <<< 24) ||| (b1.zeroExtend 64 <<< 16) ||| (b2.zeroExtend 64 <<< 8) |||
    b3.zeroExtend 64).truncate 32)

/-- Macro HOST_l2c, src/sha256.c:85-89 (writes four bytes at `off`). -/
def HOST_l2c (l : W) (c : Array B) (off : Nat) : C (Array B) := do
  let c ← wr c off (((l >>> 24) &&& 0xff#32).truncate 8)
  let c ← wr c (off + 1) (((l >>> 16) &&& 0xff#32).truncate 8)
  let c ← wr c (off + 2) (((l >>> 8) &&& 0xff#32).truncate 8)
  wr c (off + 3) ((l &&& 0xff#32).truncate 8)

/-- src/sha256.c:179-196 -/
def K256 : Array W := #[
  0x428a2f98#32, 0x71374491#32, 0xb5c0fbcf#32, 0xe9b5dba5#32,
  0x3956c25b#32, 0x59f111f1#32, 0x923f82a4#32, 0xab1c5ed5#32,
  0xd807aa98#32, 0x12835b01#32, 0x243185be#32, 0x550c7dc3#32,
  0x72be5d74#32, 0x80deb1fe#32, 0x9bdc06a7#32, 0xc19bf174#32,
  0xe49b69c1#32, 0xefbe4786#32, 0x0fc19dc6#32, 0x240ca1cc#32,
  0x2de92c6f#32, 0x4a7484aa#32, 0x5cb0a9dc#32, 0x76f988da#32,
  0x983e5152#32, 0xa831c66d#32, 0xb00327c8#32, 0xbf597fc7#32,
  0xc6e00bf3#32, 0xd5a79147#32, 0x06ca6351#32, 0x14292967#32,
  0x27b70a85#32, 0x2e1b2138#32, 0x4d2c6dfc#32, 0x53380d13#32,
  0x650a7354#32, 0x766a0abb#32, 0x81c2c92e#32, 0x92722c85#32,
  0xa2bfe8a1#32, 0xa81a664b#32, 0xc24b8b70#32, 0xc76c51a3#32,
  0xd192e819#32, 0xd6990624#32, 0xf40e3585#32, 0x106aa070#32,
  0x19a4c116#32, 0x1e376c08#32, 0x2748774c#32, 0x34b0bcb5#32,
  0x391c0cb3#32, 0x4ed8aa4a#32, 0x5b9cca4f#32, 0x682e6ff3#32,
  0x748f82ee#32, 0x78a5636f#32, 0x84c87814#32, 0x8cc70208#32,
  0x90befffa#32, 0xa4506ceb#32, 0xbef9a3f7#32, 0xc67178f2#32]

/-- src/sha256.c:203-206 -/
def Sigma0 (x : W) : W := ROTATE x 30 ^^^ ROTATE x 19 ^^^ ROTATE x 10
def Sigma1 (x : W) : W := ROTATE x 26 ^^^ ROTATE x 21 ^^^ ROTATE x 7
def sigma0 (x : W) : W := ROTATE x 25 ^^^ ROTATE x 14 ^^^ (x >>> 3)
def sigma1 (x : W) : W := ROTATE x 15 ^^^ ROTATE x 13 ^^^ (x >>> 10)

/-- src/sha256.c:208-209 -/
def Ch (x y z : W) : W := (x &&& y) ^^^ (~~~x &&& z)
def Maj (x y z : W) : W := (x &&& y) ^^^ (x &&& z) ^^^ (y &&& z)

/-- The eight local variables a, ..., h of `sha256_block_data_order` are an array `v`; `reg i t` is the
variable given as argument number `t` of the macro in round `i`: (a, b, ..., h) in round 0,
(h, a, ..., g) in round 1, ... (src/sha256.c:274-303, 308-354, 358-365). -/
def reg (i t : Nat) : Nat := (t + 8 - i % 8) % 8

/-- Macro ROUND_00_15 (src/sha256.c:211-214) called with the arguments of round `i`. -/
def ROUND_00_15 (i : Nat) (T1 : W) (v : Array W) : C (Array W) := do
  let k ← rd K256 i
  let T1 := T1 + (v.g (reg i 7) + Sigma1 (v.g (reg i 4)) +
    Ch (v.g (reg i 4)) (v.g (reg i 5)) (v.g (reg i 6)) + k)
  let v := v.upd (reg i 7) (Sigma0 (v.g (reg i 0)) +
    Maj (v.g (reg i 0)) (v.g (reg i 1)) (v.g (reg i 2)))
  let v := v.upd (reg i 3) (v.g (reg i 3) + T1)
  .ok (v.upd (reg i 7) (v.g (reg i 7) + T1))

/-- Macro ROUND_16_63, src/sha256.c:216-220 -/
def ROUND_16_63 (i : Nat) (X v : Array W) : C (Array W × Array W) := do
  let s0 ← rd X ((i + 1) &&& 0x0f)
  let s1 ← rd X ((i + 14) &&& 0x0f)
  let x0 ← rd X (i &&& 0x0f)
  let x9 ← rd X ((i + 9) &&& 0x0f)
  let T1 := x0 + (sigma0 s0 + sigma1 s1 + x9)
  let X ← wr X (i &&& 0x0f) T1
  let v ← ROUND_00_15 i T1 v
  .ok (X, v)

/-- One iteration of the loop of `sha256_block_data_order` (src/sha256.c:235-376) on the block that
starts at `off`.  `jk` is the initial contents of X. -/
def block1 (jk : Nat → W) (h : Array W) (data : Array B) (off : Nat) : C (Array W) := do
  let (X, v) ← forRange 0 16 (mkArr 16 jk, h) (fun i (X, v) => do
    let l ← HOST_c2l data (off + 4 * i)
    let X ← wr X i l
    let v ← ROUND_00_15 i l v
    .ok (X, v))
  let (_, v) ← forRange 16 64 (X, v) (fun i (X, v) => ROUND_16_63 i X v)
  forRange 0 8 h (fun t h => do
    let x ← rd h t
    wr h t (x + v.g t))

/-- src/sha256.c:222-377: `num` blocks, from `off` on. -/
def sha256_block_data_order (jk : Nat → W) (h : Array W) (data : Array B) (off num : Nat) :
    C (Array W) :=
  forRange 0 num h (fun b h => block1 jk h data (off + 64 * b))

/-- `memcpy(dst + d, src + s, k)` -/
def memcpy (dst : Array B) (d : Nat) (src : Array B) (s k : Nat) : C (Array B) :=
  forRange 0 k dst (fun t dst => do
    let x ← rd src (s + t)
    wr dst (d + t) x)

/-- `memset(dst + d, 0, k)` -/
def memset0 (dst : Array B) (d k : Nat) : C (Array B) :=
  forRange 0 k dst (fun t dst => wr dst (d + t) 0)

/-- Length counter, src/sha256.c:102-107 -/
def update_count (c : Ctx) (len : Nat) : Ctx :=
  let l := c.Nl + (BitVec.ofNat 32 len <<< 3)
  let Nh := if l < c.Nl then c.Nh + 1 else c.Nh
  { c with Nh := Nh + BitVec.ofNat 32 (len >>> 29), Nl := l }

/-- src/sha256.c:135-148: whole blocks directly from the input, the rest to the buffer. -/
def update_rest (jk : Nat → W) (c : Ctx) (data : Array B) (off len : Nat) : C Ctx := do
  let n := len / 64
  let h ← sha256_block_data_order jk c.h data off n
  let off := off + n * 64
  let len := len - n * 64
  if len ≠ 0 then do
    let p ← memcpy c.data 0 data off len
    .ok { c with h := h, data := p, num := len }
  else .ok { c with h := h }

/-- src/sha256.c:93-150 -/
def SHA256_update (jk : Nat → W) (c : Ctx) (data : Array B) (len : Nat) : C Ctx :=
  if len = 0 then .ok c
  else
    let c := update_count c len
    let n := c.num
    if n ≠ 0 then
      if 64 ≤ len ∨ 64 ≤ len + n then do
        let p ← memcpy c.data n data 0 (64 - n)
        let h ← sha256_block_data_order jk c.h p 0 1
        let n := 64 - n
        let p ← memset0 p 0 64
        update_rest jk { c with h := h, data := p, num := 0 } data n (len - n)
      else do
        let p ← memcpy c.data n data 0 len
        .ok { c with data := p, num := c.num + len }
    else update_rest jk c data 0 len

/-- src/sha256.c:160-164: when there is no room for the length, the buffer is completed with zeros and
processed. -/
def final_full (jk : Nat → W) (h : Array W) (p : Array B) (n : Nat) :
    C (Array W × Array B × Nat) :=
  if 64 - 8 < n then do
    let p ← memset0 p n (64 - n)
    let h ← sha256_block_data_order jk h p 0 1
    .ok (h, p, 0)
  else .ok (h, p, n)

/-- src/sha256.c:152-176.  `md` is the output buffer. -/
def SHA256_final (jk : Nat → W) (md : Array B) (c : Ctx) : C (Array B × Ctx) := do
  let p ← wr c.data c.num 0x80#8
  let (h, p, n) ← final_full jk c.h p (c.num + 1)
  let p ← memset0 p n (64 - 8 - n)
  let p ← HOST_l2c c.Nh p 56
  let p ← HOST_l2c c.Nl p 60
  let h ← sha256_block_data_order jk h p 0 1
  let p ← memset0 p 0 64
  cassert (c.md_len == 32)
  let md ← forRange 0 8 md (fun nn md => do
    let ll ← rd h nn
    HOST_l2c ll md (4 * nn))
  .ok (md, { c with h := h, data := p, num := 0 })

end Spasm.Sha
