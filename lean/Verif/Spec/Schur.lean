import Verif.Model.Schur
import Verif.Spec.Lu
import Verif.Spec.Triplet

/-
Specification of Schur complements.
-/

namespace Spasm

open Finset

/-- Row `k` of `S` is row `r k` of `A` after elimination of all the pivotal columns by means of the
rows of `U`, with coefficients `ℓ k`. -/
structure IsSchur (q : ℕ) (A U : Csr) (qinv : Array Int) (n : Nat) (r : Nat → Nat) (S : Csr)
    (ℓ : Nat → Nat → ZMod q) : Prop where
  wfv : S.WFV q
  n_eq : S.n = n
  m_eq : S.m = A.m
  nodup : S.NoDup
  nozero : S.NoZero
  elim : ∀ k, k < n → ∀ c, S.InRow k c → qinv.g c < 0
  eq : ∀ k, k < n → ∀ c, c < A.m →
    A.entry q (r k) c = S.entry q k c + ∑ i ∈ range U.n, ℓ k i * U.entry q i c

end Spasm
