import Verif.Prelude
import Mathlib.Data.Rat.Floor

/-
Model of src/spasm_ZZp.c: arithmetic modulo p on balanced representatives.

Integers are mathematical integers with explicit range checks (`i64`): signed overflow is
`ub`.  Doubles are exact rationals; each floating point operation is followed by `rnd 53`,
rounding to nearest, ties to even, on 53 significant bits (IEEE-754 binary64 without
overflow/underflow: all the values met here are 0 or have absolute value in [2^-33, 2^65]).
-/

namespace Spasm

/-- 2^e for a signed exponent. -/
def pow2 (e : Int) : ℚ := if 0 ≤ e then (2 : ℚ) ^ e.toNat else 1 / (2 : ℚ) ^ (-e).toNat

/-- Exponent of the binade of `x ≠ 0`: the `e` with `2^e ≤ |x| < 2^(e+1)`. -/
def binade (x : ℚ) : Int :=
  let e : Int := (Nat.log2 x.num.natAbs : Int) - (Nat.log2 x.den : Int)
  if pow2 e ≤ |x| then e else e - 1

/-- Nearest integer, ties to even. -/
def nearestEven (x : ℚ) : Int :=
  let f := ⌊x⌋
  if x - f < 1 / 2 then f
  else if 1 / 2 < x - f then f + 1
  else if f % 2 = 0 then f else f + 1

/-- Rounding to `bits` significant bits, to nearest, ties to even. -/
def rnd (bits : Nat) (x : ℚ) : ℚ :=
  if x = 0 then 0
  else
    let u := pow2 (binade x - bits + 1)
    nearestEven (x / u) * u

/-- Truncation toward zero. -/
def truncQ (x : ℚ) : Int := if 0 ≤ x then ⌊x⌋ else ⌈x⌉

/-- An `i64` operation whose exact result is `x`: undefined on overflow. -/
def i64 (x : Int) : C Int := if -2^63 ≤ x ∧ x < 2^63 then .ok x else .error .ub

/-- An `int` (32-bit) operation whose exact result is `x`: undefined on overflow. -/
def i32 (x : Int) : C Int := if -2^31 ≤ x ∧ x < 2^31 then .ok x else .error .ub

/-- Conversion of an `i64` to `i32` (implementation-defined: reduction modulo 2^32). -/
def toI32 (x : Int) : Int := Int.bmod x (2^32)

/-- Conversion double to `i64`: truncation; undefined if out of range (C99 6.3.1.4). -/
def d2i (x : ℚ) : C Int := i64 (truncQ x)

/-- `struct spasm_field_struct` (src/spasm.h:30-35). -/
structure Field where
  p : Int
  halfp : Int
  mhalfp : Int
  dinvp : ℚ
  deriving DecidableEq, Inhabited

/-- `spasm_field_init` (src/spasm_ZZp.c:5-15).  For `p < 0` the other members are left
uninitialised; the model puts zeros there (they are never read: `p = -1` marks a matrix
without values). -/
def field_init (p : Int) : C Field :=
  if p < 0 then .ok ⟨p, 0, 0, 0⟩
  else do
    cassert (2 ≤ p)
    cassert (p ≤ 0xfffffffb)
    .ok ⟨p, Int.tdiv p 2, Int.tdiv p 2 - p + 1, rnd 53 (1 / rnd 53 p)⟩

/-- `NORMALISE` (src/spasm_ZZp.c:17-24); the result is converted to `i32`. -/
def NORMALISE (F : Field) (x : Int) : C Int :=
  if x < F.mhalfp then do
    let y ← i64 (x + F.p)
    .ok (toI32 y)
  else if x > F.halfp then do
    let y ← i64 (x - F.p)
    .ok (toI32 y)
  else .ok (toI32 x)

/-- `spasm_ZZp_init` (src/spasm_ZZp.c:26-30). `%` truncates toward zero; `% 0` is undefined. -/
def ZZp_init (F : Field) (x : Int) : C Int :=
  if F.p = 0 then .error .ub else NORMALISE F (Int.tmod x F.p)

/-- `spasm_ZZp_add` (src/spasm_ZZp.c:32-35). -/
def ZZp_add (F : Field) (a b : Int) : C Int := do
  let s ← i64 (a + b)
  NORMALISE F s

/-- `spasm_ZZp_sub` (src/spasm_ZZp.c:37-40). -/
def ZZp_sub (F : Field) (a b : Int) : C Int := do
  let s ← i64 (a - b)
  NORMALISE F s

/-- `spasm_ZZp_mul` (src/spasm_ZZp.c:42-46), for a rounding function `r`. -/
def ZZp_mulR (r : ℚ → ℚ) (F : Field) (a b : Int) : C Int := do
  let q ← d2i (r (r ((a : ℚ) * (b : ℚ)) * F.dinvp))
  let ab ← i64 (a * b)
  let qp ← i64 (q * F.p)
  let s ← i64 (ab - qp)
  NORMALISE F s

/-- `spasm_ZZp_mul` with IEEE binary64. -/
def ZZp_mul : Field → Int → Int → C Int := ZZp_mulR (rnd 53)

/-- One iteration of the loop of `gcdext` (src/spasm_ZZp.c:54-63); state `(t, u, r, s)`. -/
def gcdext_step (st : Int × Int × Int × Int) : C (Step (Int × Int × Int × Int)) :=
  let (t, u, r, s) := st
  if s = 0 then .ok (.brk st)
  else do
    let q ← i64 (Int.tdiv r s)
    let qu ← i64 (q * u)
    let u' ← i64 (t - qu)
    let qs ← i64 (q * s)
    let s' ← i64 (r - qs)
    .ok (.cont (u, u', s, s'))

/-- `gcdext` (src/spasm_ZZp.c:49-65). -/
def gcdext (a p : Int) : C Int := do
  cassert (0 ≤ a)
  let (t, _, _, _) ← whileFuel (a.toNat + 1) (0, 1, p, a) gcdext_step
  .ok t

/-- `spasm_ZZp_inverse` (src/spasm_ZZp.c:67-74). -/
def ZZp_inverse (F : Field) (a : Int) : C Int := do
  let aa ← if a < 0 then i64 (a + F.p) else .ok a
  let inva ← gcdext aa F.p
  NORMALISE F inva

/-- `spasm_ZZp_axpy` (src/spasm_ZZp.c:77-84), for a rounding function `r`. -/
def ZZp_axpyR (r : ℚ → ℚ) (F : Field) (a x y : Int) : C Int := do
  let q ← d2i (r (r (r ((a : ℚ) * (x : ℚ)) + (y : ℚ)) * F.dinvp))
  let ax ← i64 (a * x)
  let axy ← i64 (ax + y)
  let qp ← i64 (q * F.p)
  let s ← i64 (axy - qp)
  NORMALISE F s

/-- `spasm_ZZp_axpy` with IEEE binary64. -/
def ZZp_axpy : Field → Int → Int → Int → C Int := ZZp_axpyR (rnd 53)

/-- `spasm_ZZp_axpy` when the compiler contracts `a*x + y` into a fused multiply-add
(allowed by `-ffp-contract=fast`, the GCC default on targets with FMA). -/
def ZZp_axpyFma (r : ℚ → ℚ) (F : Field) (a x y : Int) : C Int := do
  let q ← d2i (r (r ((a : ℚ) * (x : ℚ) + (y : ℚ)) * F.dinvp))
  let ax ← i64 (a * x)
  let axy ← i64 (ax + y)
  let qp ← i64 (q * F.p)
  let s ← i64 (axy - qp)
  NORMALISE F s

/-- Unary minus on a `spasm_ZZp` (an `int`). -/
def ZZp_neg (a : Int) : C Int := i32 (-a)

end Spasm
