import Verif.Spec.Sha256
import Mathlib.Data.Nat.Log

/-
SHA-256 in counter mode.
-/

namespace Spasm

open Fips

/-- Block number `c` of the stream. -/
def streamBlock (seed : List Byte) (prime seq : Word) (c : Nat) : List Byte :=
  sha256 (seed ++ bytes prime ++ bytes (BitVec.ofNat 32 c) ++ bytes seq)

/-- Word number `t` of the stream. -/
def stream (seed : List Byte) (prime seq : Word) (t : Nat) : Word :=
  let b := streamBlock seed prime seq (t / 8)
  word (b.getD (4 * (t % 8)) 0) (b.getD (4 * (t % 8) + 1) 0) (b.getD (4 * (t % 8) + 2) 0)
    (b.getD (4 * (t % 8) + 3) 0)

/-- Candidate number `t`: the low bits of word `t`, as few as possible to cover `0, ..., q-1`. -/
def draw (seed : List Byte) (q : ℕ) (seq : Word) (t : Nat) : Nat :=
  (stream seed (BitVec.ofNat 32 q) seq t).toNat % 2 ^ Nat.clog 2 q

/-- The 32 bytes that `spasm_prng_seed_simple` makes of a 64-bit seed. -/
def simpleSeed (seed : BitVec 64) : List Byte :=
  bytes (seed.extractLsb' 0 32) ++ bytes (seed.extractLsb' 32 32) ++ List.replicate 24 0

end Spasm
