import Verif.Model.Dense

/-
Model of the calls to FFLAS-FFPACK in src/spasm_ffpack.cpp.  The library itself is not modelled: its two functions are
parameters.
-/

namespace Spasm

/-- The two functions of FFPACK in use, for each type of coefficients: the arguments are the modulus (of the field
`GFp`), `n`, `m`, the matrix, its leading dimension, and the memory for the two permutations; the results are the rank,
the matrix and the permutations. -/
structure FfLib where
  /-- `FFPACK::pReducedRowEchelonForm` -/
  rref : Datatype → Int → Nat → Nat → Array ℚ → Nat → Array Nat → Array Nat → Nat × Array ℚ × Array Nat × Array Nat
  /-- `FFPACK::pPLUQ`, with `FflasUnit` -/
  pluq : Datatype → Int → Nat → Nat → Array ℚ → Nat → Array Nat → Array Nat → Nat × Array ℚ × Array Nat × Array Nat

/-- `std::swap(M[i], M[j])` -/
def swap_cells (M : Array Nat) (i j : Nat) : C (Array Nat) := do
  let a ← rd M i
  let b ← rd M j
  let M ← wr M i b
  wr M j a

/-- `FFPACK::LAPACKPerm2MathPerm (M, P, N)` (called in src/spasm_ffpack.cpp:41, 71-72).  It belongs to the library. -/
def lapack_to_math (M P : Array Nat) (N : Nat) : C (Array Nat) := do
  let M ← forRange 0 N M fun i M => wr M i i
  forRange 0 N M fun i M => do
    let j ← rd P i
    swap_cells M i j

/-- Memory for a permutation, filled with zeros (src/spasm_ffpack.cpp:29-34, 58-63). -/
def ff_zeros (jk : Junk) (k : Nat) : C (Array Nat) := forRange 0 k (mkArr k jk.nat) fun i P => wr P i 0

/-- `ffpack_rref` (src/spasm_ffpack.cpp:22-45). -/
def ffpack_rref (jk : Junk) (lib : FfLib) (dt : Datatype) (prime : Int) (n m : Nat) (A : Array ℚ) (ldA : Nat)
    (qinv : Array Nat) : C (Nat × Array ℚ × Array Nat) := do
  let P ← ff_zeros jk n
  let Qt ← ff_zeros jk m
  let r := lib.rref dt prime n m A ldA P Qt
  let qinv ← lapack_to_math qinv r.2.2.2 m
  .ok (r.1, r.2.1, qinv)

/-- `ffpack_LU` (src/spasm_ffpack.cpp:52-76). -/
def ffpack_LU (jk : Junk) (lib : FfLib) (dt : Datatype) (prime : Int) (n m : Nat) (A : Array ℚ) (ldA : Nat)
    (p qinv : Array Nat) : C (Nat × Array ℚ × Array Nat × Array Nat) := do
  let P ← ff_zeros jk n
  let Qt ← ff_zeros jk m
  let r := lib.pluq dt prime n m A ldA P Qt
  let p ← lapack_to_math p r.2.2.1 n
  let qinv ← lapack_to_math qinv r.2.2.2 m
  .ok (r.1, r.2.1, p, qinv)

/-- The library as the rest of the code sees it: `spasm_ffpack_rref` and `spasm_ffpack_LU` (src/spasm_ffpack.cpp:79-97),
called (src/spasm_echelonize.c:46, 355, 425, 428) with the type that `spasm_datatype_choose` selects, leading dimension
`m`, and memory for the permutations.  Simplification: this memory has the size of the permutations; in C it may be
larger.  If the call is not defined, the result is meaningless. -/
def FfLib.glue (lib : FfLib) (jk : Junk) : Ffpack where
  rref prime n m S :=
    match ffpack_rref jk lib (datatype_choose prime) prime n m S m (mkArr m jk.nat) with
    | .ok r => r
    | .error _ => (0, #[], #[])
  lu prime n m S :=
    match ffpack_LU jk lib (datatype_choose prime) prime n m S m (mkArr n jk.nat) (mkArr m jk.nat) with
    | .ok r => r
    | .error _ => (0, #[], #[], #[])

end Spasm
