import Verif.Model.Rref
import Verif.Spec.Lu
import Mathlib.LinearAlgebra.Matrix.ToLin
import Mathlib.LinearAlgebra.LinearIndependent.Defs

/-
Specification of kernels and of reduced row echelon forms.
-/

namespace Spasm

open Finset

/-- The `r` first rows of `K`, as vectors of size `m`. -/
def Csr.vecs (K : Csr) (q r m : ℕ) : Fin r → Fin m → ZMod q := fun k c => K.entry q k c

/-- The rows of `K` are a basis of the right kernel of `U`. -/
structure IsKernel (q : ℕ) (U K : Csr) : Prop where
  n_eq : K.n + U.n = U.m
  m_eq : K.m = U.m
  indep : LinearIndependent (ZMod q) (K.vecs q K.n U.m)
  span : Submodule.span (ZMod q) (Set.range (K.vecs q K.n U.m)) =
    LinearMap.ker (Matrix.mulVecLin (U.toMat q))

/-- `R`, with pivots located by `rq`, is the reduced row echelon form of `U` (up to the order of the
rows): echelonized, no entry on the column of the pivot of another row, same row space. -/
structure IsRref (q : ℕ) (U R : Csr) (rq : Array Int) : Prop where
  ech : Echelon q R rq
  n_eq : R.n = U.n
  m_eq : R.m = U.m
  nodup : R.NoDup
  nozero : R.NoZero
  reduced : ∀ i k, i < R.n → k < R.n → i ≠ k → ¬ R.InRow k (R.pivot i)
  sub : ∀ i, i < R.n → InSpan q U (R.entry q i)
  sup : ∀ i, i < U.n → InSpan q R (U.entry q i)

end Spasm
