import Verif.Model.Dense
import Verif.Spec.Schur

/-
Specification of the dense part of the echelonization.
-/

namespace Spasm

open Finset

/-- `q` lists the columns without a pivot, in increasing order. -/
structure IsQ (qinv : Array Int) (m k : Nat) (q : Array Nat) : Prop where
  size : k ≤ q.size
  lt : ∀ t, t < k → q.g t < m
  neg : ∀ t, t < k → qinv.g (q.g t) < 0
  mono : ∀ s t, s < t → t < k → q.g s < q.g t
  surj : ∀ j, j < m → qinv.g j < 0 → ∃ t, t < k ∧ q.g t = j

/-- The vector of size `m` which has coordinates `f` on the columns `q` and is zero elsewhere. -/
def onCols {q : ℕ} (qa : Array Nat) (k : Nat) (f : Nat → ZMod q) (c : Nat) : ZMod q :=
  ∑ t ∈ range k, if qa.g t = c then f t else 0

/-- `w` is what remains of `v` when all the pivotal columns are eliminated by means of the rows of `U`,
with coefficients `ℓ`. -/
structure Reduced (q : ℕ) (U : Csr) (v : Nat → ZMod q) (ℓ : Nat → ZMod q) (w : Nat → ZMod q) : Prop where
  zero : ∀ i, i < U.n → w (U.pivot i) = 0
  eq : ∀ c, v c = w c + ∑ i ∈ range U.n, ℓ i * U.entry q i c

/-- Coefficient `i` of a random combination of `w` rows (or of all the rows if `w ≤ 0`), given the random
numbers `draw`. -/
def randCoeff (w : Int) (draw : Nat → Int) (i : Nat) : Int :=
  if w ≤ 0 then draw i else if i = 0 then 1 else draw (i - 1)

/-- A random combination of the rows `p 0, ..., p (n - 1)` of `A`: of all of them if `w ≤ 0`; otherwise of
`w` rows chosen by `rnd`. -/
def randComb (q : ℕ) (A : Csr) (p : Array Nat) (n : Nat) (w : Int) (draw : Nat → Int) (rnd : Nat → Nat)
    (c : Nat) : ZMod q :=
  ∑ i ∈ range (if w ≤ 0 then n else w.toNat),
    (randCoeff w draw i : ZMod q) * A.entry q (p.g (if w ≤ 0 then i else rnd i % n)) c

end Spasm
