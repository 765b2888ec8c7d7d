import Mathlib.Data.Nat.Find
import Mathlib.Data.List.Basic

/-
SHA-256 as defined in FIPS 180-4, written without reference to the code.
-/

namespace Spasm.Fips

abbrev Word := BitVec 32
abbrev Byte := BitVec 8

/-- The first 64 prime numbers. -/
def primes : List Nat :=
  (List.range 312).filter fun n => decide (2 ≤ n) && (List.range n).all fun d => decide (d < 2) || n % d ≠ 0

/-- Integer `k`-th root. -/
def root (k n : Nat) : Nat := Nat.findGreatest (fun r => r ^ k ≤ n) n

/-- Constants (4.2.2): first 32 bits of the fractional parts of the cube roots of the primes. -/
def K (t : Nat) : Word := BitVec.ofNat 32 (root 3 (primes.getD t 0 * 2 ^ (3 * 32)))

/-- Functions (4.1.2), with right rotations. -/
def rotr (n : Nat) (x : Word) : Word := (x >>> n) ||| (x <<< (32 - n))
def ch (x y z : Word) : Word := (x &&& y) ^^^ (~~~x &&& z)
def maj (x y z : Word) : Word := (x &&& y) ^^^ (x &&& z) ^^^ (y &&& z)
def S0 (x : Word) : Word := rotr 2 x ^^^ rotr 13 x ^^^ rotr 22 x
def S1 (x : Word) : Word := rotr 6 x ^^^ rotr 11 x ^^^ rotr 25 x
def s0 (x : Word) : Word := rotr 7 x ^^^ rotr 18 x ^^^ (x >>> 3)
def s1 (x : Word) : Word := rotr 17 x ^^^ rotr 19 x ^^^ (x >>> 10)

/-- Message schedule (6.2.2, step 1). -/
def sched (M : Nat → Word) (t : Nat) : Word :=
  if t < 16 then M t
  else s1 (sched M (t - 2)) + sched M (t - 7) + s0 (sched M (t - 15)) + sched M (t - 16)
termination_by t

/-- Working variables, and hash values. -/
structure Regs where
  (a b c d e f g h : Word)

/-- Initial hash value (5.3.3): first 32 bits of the fractional parts of the square roots of the first
eight primes. -/
def H0 : Regs :=
  let r (t : Nat) : Word := BitVec.ofNat 32 (root 2 (primes.getD t 0 * 2 ^ (2 * 32)))
  ⟨r 0, r 1, r 2, r 3, r 4, r 5, r 6, r 7⟩

/-- One round (6.2.2, step 3). -/
def round (s : Regs) (k w : Word) : Regs :=
  let T1 := s.h + S1 s.e + ch s.e s.f s.g + k + w
  let T2 := S0 s.a + maj s.a s.b s.c
  ⟨T1 + T2, s.a, s.b, s.c, s.d + T1, s.e, s.f, s.g⟩

/-- `t` rounds. -/
def rounds (M : Nat → Word) (s : Regs) : Nat → Regs
  | 0 => s
  | t + 1 => round (rounds M s t) (K t) (sched M t)

/-- Processing of one block (6.2.2). -/
def compress (s : Regs) (M : Nat → Word) : Regs :=
  let v := rounds M s 64
  ⟨v.a + s.a, v.b + s.b, v.c + s.c, v.d + s.d, v.e + s.e, v.f + s.f, v.g + s.g, v.h + s.h⟩

/-- Big-endian word. -/
def word (b0 b1 b2 b3 : Byte) : Word := b0 ++ b1 ++ b2 ++ b3

/-- Words of block number `k` of a sequence of bytes. -/
def blockWords (f : Nat → Byte) (k t : Nat) : Word :=
  word (f (64 * k + 4 * t)) (f (64 * k + 4 * t + 1)) (f (64 * k + 4 * t + 2)) (f (64 * k + 4 * t + 3))

/-- Hash value after `k` blocks. -/
def hashBlocks (f : Nat → Byte) : Nat → Regs
  | 0 => H0
  | k + 1 => compress (hashBlocks f k) (blockWords f k)

/-- Big-endian bytes of a word. -/
def bytes (w : Word) : List Byte :=
  [w.extractLsb' 24 8, w.extractLsb' 16 8, w.extractLsb' 8 8, w.extractLsb' 0 8]

/-- Big-endian bytes of a double word. -/
def bytes64 (w : BitVec 64) : List Byte := bytes (w.extractLsb' 32 32) ++ bytes (w.extractLsb' 0 32)

/-- Padding (5.1.1): a bit 1, as few zeros as possible, the length in bits on 64 bits. -/
def pad (m : List Byte) : List Byte :=
  m ++ [0x80#8] ++ List.replicate ((64 - (m.length + 9) % 64) % 64) 0 ++
    bytes64 (BitVec.ofNat 64 (8 * m.length))

/-- The digest of a message. -/
def sha256 (m : List Byte) : List Byte :=
  let p := pad m
  let s := hashBlocks (fun i => p.getD i 0) (p.length / 64)
  bytes s.a ++ bytes s.b ++ bytes s.c ++ bytes s.d ++ bytes s.e ++ bytes s.f ++ bytes s.g ++ bytes s.h

end Spasm.Fips
