import Verif.Model.Schur

/-
Model of `spasm_schur_estimate_density` (src/spasm_schur.c:11-43) and of the size which `spasm_schur`
derives from it (src/spasm_schur.c:69-71), with the floating-point operations they use.

A `double` is a rational number, an infinity or NaN; a finite result is rounded to 53 bits (overflow to
infinity and underflow are not modelled: the operands are options and counts).  There is no negative zero:
the divisors are conversions of integers, whose zero is positive.
-/

namespace Spasm

open Finset

/-- A `double`. -/
inductive Dbl where
  | nan
  | inf (neg : Bool)
  | fin (x : ℚ)
deriving DecidableEq

namespace Dbl

/-- Conversion of an integer. -/
def ofInt (k : Int) : Dbl := .fin (rnd 53 (k : ℚ))

/-- `a * b`. -/
def mul : Dbl → Dbl → Dbl
  | .nan, _ => .nan
  | _, .nan => .nan
  | .inf s, .inf t => .inf (s != t)
  | .inf s, .fin y => if y = 0 then .nan else .inf (s != decide (y < 0))
  | .fin x, .inf t => if x = 0 then .nan else .inf (t != decide (x < 0))
  | .fin x, .fin y => .fin (rnd 53 (x * y))

/-- `a / b`. -/
def div : Dbl → Dbl → Dbl
  | .nan, _ => .nan
  | _, .nan => .nan
  | .inf _, .inf _ => .nan
  | .inf s, .fin y => .inf (s != decide (y < 0))
  | .fin _, .inf _ => .fin 0
  | .fin x, .fin y =>
    if y = 0 then (if x = 0 then .nan else .inf (decide (x < 0))) else .fin (rnd 53 (x / y))

/-- `a < b`: false as soon as an operand is NaN. -/
def lt : Dbl → Dbl → Bool
  | .nan, _ => false
  | _, .nan => false
  | .inf s, .inf t => s && !t
  | .inf s, .fin _ => s
  | .fin _, .inf t => !t
  | .fin x, .fin y => decide (x < y)

/-- `ceil(a)`. -/
def ceil : Dbl → Dbl
  | .fin x => .fin ⌈x⌉
  | a => a

/-- Conversion to `long long`: truncation; undefined for NaN, infinities and values out of range
(C11 6.3.1.4). -/
def toI64 : Dbl → C Int
  | .fin x => i64 (truncQ x)
  | _ => .error .ub

/-- Conversion to `int`. -/
def toI32 : Dbl → C Int
  | .fin x => i32 (truncQ x)
  | _ => .error .ub

end Dbl

/-- The nonzero entries of a row of the Schur complement (src/spasm_schur.c:33-38), with the workspace of the
thread. -/
def density_row (A U : Csr) (qinv : Array Int) (inew : Nat) (w : Dfs) (x : Array Int) :
    C (Dfs × Array Int × Nat) := do
  let (w, x) ← sparse_triangular_solve U A inew w x qinv
  let k ← forRange w.top A.m 0 fun px (k : Nat) => do
    let j ← rd w.xj px
    let qj ← rd qinv j
    if qj < 0 then do
      let v ← rd x j
      if v ≠ 0 then .ok (k + 1) else .ok k
    else .ok k
  .ok (w, x, k)

/-- The iterations `is` of the parallel loop, in order (src/spasm_schur.c:30-39); `rand i` is the result of
`rand()` in iteration `i`. -/
def density_rows (A U : Csr) (qinv : Array Int) (p : Array Nat) (n : Nat) (rand : Nat → Nat) :
    List Nat → Dfs → Array Int → C Nat
  | [], _, _ => .ok 0
  | i :: is, w, x => do
    let inew ← rd p (rand i % n)
    let (w, x, k) ← density_row A U qinv inew w x
    let nnz ← density_rows A U qinv p n rand is w x
    .ok (k + nnz)

/-- One thread: its part of the sum (src/spasm_schur.c:22-42). -/
def density_thread (jk : Junk) (A U : Csr) (qinv : Array Int) (p : Array Nat) (n : Nat) (rand : Nat → Nat)
    (is : List Nat) : C Nat :=
  let z := mkArr A.m fun _ => 0
  density_rows A U qinv p n rand is ⟨0, 0, z, z, z⟩ (mkArr A.m jk.int)

/-- `nnz` is a possible value at the end of the parallel region: there is a number of threads and an
assignment of the `R` iterations to the threads such that the sum of the counts is `nnz` (clause
`reduction(+:nnz)`, src/spasm_schur.c:29). -/
def DensityRun (jk : Junk) (A : Csr) (p : Array Nat) (n : Nat) (U : Csr) (qinv : Array Int) (R : Nat)
    (rand : Nat → Nat) (nnz : Nat) : Prop :=
  ∃ (T : Nat) (its : Fin T → List Nat) (counts : Fin T → Nat),
    ∑ t, (its t : Multiset Nat) = Multiset.range R ∧
    (∀ t, density_thread jk A U qinv p n rand (its t) = .ok (counts t)) ∧ nnz = ∑ t, counts t

/-- The average (src/spasm_schur.c:42). -/
def density_ratio (m Un R nnz : Nat) : Dbl :=
  ((Dbl.ofInt nnz).div (Dbl.ofInt ((m : Int) - Un))).div (Dbl.ofInt R)

/-- `spasm_schur_estimate_density` with one thread (src/spasm_schur.c:11-43). -/
def estimate_density (jk : Junk) (A : Csr) (p : Array Nat) (n : Nat) (U : Csr) (qinv : Array Int) (R : Nat)
    (rand : Nat → Nat) : C Dbl :=
  if n = 0 then .ok (.fin 0)
  else do
    let nnz ← density_thread jk A U qinv p n rand (List.range R)
    .ok (density_ratio A.m U.n R nnz)

/-- The density used by `spasm_schur` (src/spasm_schur.c:69-70). -/
def schur_density (jk : Junk) (A : Csr) (p : Array Nat) (n : Nat) (U : Csr) (qinv : Array Int)
    (rand : Nat → Nat) (est_density : Dbl) : C Dbl :=
  if est_density.lt (.fin 0) then estimate_density jk A p n U qinv 100 rand else .ok est_density

/-- The initial size of the Schur complement in `spasm_schur` (src/spasm_schur.c:69-73).  With a negative
size, `malloc` is asked for more than half of the memory and the program exits (src/spasm_util.c:64-70). -/
def schur_size (jk : Junk) (A : Csr) (p : Array Nat) (n : Nat) (U : Csr) (qinv : Array Int)
    (rand : Nat → Nat) (est_density : Dbl) : C Nat := do
  let d ← schur_density jk A p n U qinv rand est_density
  let size ← ((d.mul (Dbl.ofInt n)).mul (Dbl.ofInt A.m)).toI64
  if size < 0 then .error .exitErr else .ok size.toNat

end Spasm
