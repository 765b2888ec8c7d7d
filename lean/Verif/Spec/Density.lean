import Verif.Model.Density
import Verif.Spec.Lu

/-
Specification of the density of a Schur complement.
-/

namespace Spasm

open Finset

/-- `v` is row `r` of `A` after elimination of the pivotal columns by means of the rows of `U`. -/
def RedRow (q : ℕ) (A U : Csr) (qinv : Array Int) (r : Nat) (v : Nat → ZMod q) : Prop :=
  (∀ c, c < A.m → 0 ≤ qinv.g c → v c = 0) ∧
  ∃ ℓ : Nat → ZMod q, ∀ c, c < A.m → A.entry q r c = v c + ∑ i ∈ range U.n, ℓ i * U.entry q i c

/-- Number of nonzero coordinates of a vector of size `m`. -/
def nnzVec {q : ℕ} (m : Nat) (v : Nat → ZMod q) : Nat := #{c ∈ range m | v c ≠ 0}

end Spasm
