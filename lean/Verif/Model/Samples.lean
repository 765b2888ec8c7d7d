import Verif.Model.Echelonize
import Verif.Model.Density

/-
The completion test of src/spasm_echelonize.c with its number of random combinations, which is a parameter in
Model/Echelonize.lean.
-/

namespace Spasm

/-- `ceil(128 / log2(prime))` (src/spasm_echelonize.c:39); `lg2` is the function of the C library. -/
def test_samples (lg2 : Dbl → Dbl) (prime : Int) : C Int :=
  ((Dbl.fin 128).div (lg2 (Dbl.ofInt prime))).ceil.toI64

/-- `spasm_echelonize_test_completion` (src/spasm_echelonize.c:30-51), as `test_completion`.  A negative number of
combinations, with which the code would ask for a negative amount of memory, is taken for zero. -/
def test_completion_num (jk : Junk) (env : Env) (lg2 : Dbl → Dbl) (A : Csr) (p : Array Nat) (n : Nat) (U : Csr)
    (qinv : Array Int) : C Bool := do
  let k ← nnz A
  if n = 0 ∨ k = 0 then .ok true else do
    let Sn ← test_samples lg2 A.F.p
    test_sample jk { env with samples := Sn.toNat } A p n U qinv

end Spasm
