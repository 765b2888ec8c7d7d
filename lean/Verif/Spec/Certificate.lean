import Verif.Spec.Prng
import Verif.Spec.Csr
import Verif.Model.Certificate
import Mathlib.Data.Nat.Nth

/-
What a rank certificate asserts.
-/

namespace Spasm

open Finset

/-- The candidate at position `t` of the stream is accepted. -/
def Accepted (seed : List Fips.Byte) (q : ℕ) (t : Nat) : Prop := draw seed q 0 t < q

instance (seed : List Fips.Byte) (q : ℕ) : DecidablePred (Accepted seed q) := fun t =>
  inferInstanceAs (Decidable (draw seed q 0 t < q))

/-- Challenge number `k`: the accepted candidate number `k` of the stream. -/
noncomputable def challenge (seed : List Fips.Byte) (q : ℕ) (k : Nat) : ZMod q :=
  (draw seed q 0 (Nat.nth (Accepted seed q) k) : ZMod q)

/-- The value given last to row `i` by the pairs `(ix 0, v 0), ..., (ix (r-1), v (r-1))`. -/
def lastAt (ix v : Nat → Int) (i : Nat) : Nat → Option Int
  | 0 => none
  | k + 1 => if ix k = i then some (v k) else lastAt ix v i k

/-- Row `i` is not given a coefficient by the certificate (the value `0x7fffffff` counts as none). -/
def Cert.Free (c : Cert) (i : Nat) : Prop :=
  lastAt c.i.g c.y.g i c.r = none ∨ lastAt c.i.g c.y.g i c.r = some 0x7fffffff

instance (c : Cert) : DecidablePred c.Free := fun i =>
  inferInstanceAs (Decidable (lastAt c.i.g c.y.g i c.r = none ∨ lastAt c.i.g c.y.g i c.r = some 0x7fffffff))

/-- The combination of rows that must agree with the challenge on the listed columns. -/
def Cert.X (c : Cert) (q : ℕ) (i : Nat) : ZMod q := (((lastAt c.i.g c.x.g i c.r).getD 0 : Int) : ZMod q)

/-- The combination of rows that must vanish: the challenge on the free rows, in order, and the
values of the certificate on the others. -/
noncomputable def Cert.Y (c : Cert) (seed : List Fips.Byte) (q : ℕ) (i : Nat) : ZMod q :=
  if c.Free i then challenge seed q (c.r + Nat.count c.Free i)
  else (((lastAt c.i.g c.y.g i c.r).getD 0 : Int) : ZMod q)

/-- What `spasm_certificate_rank_verify` must check. -/
structure CertOk (q : ℕ) (A : Csr) (seed : List Fips.Byte) (c : Cert) : Prop where
  rows : ∀ k, k < c.r → 0 ≤ c.i.g k ∧ c.i.g k < A.n
  cols : ∀ k, k < c.r → 0 ≤ c.j.g k ∧ c.j.g k < A.m
  lower : ∀ k, k < c.r →
    ∑ i ∈ range A.n, c.X q i * A.entry q i (c.j.g k).toNat = challenge seed q k
  upper : ∀ j, j < A.m → ∑ i ∈ range A.n, c.Y seed q i * A.entry q i j = 0

/-- Number of challenges used by the verification. -/
def Cert.draws (c : Cert) (A : Csr) : Nat := c.r + Nat.count c.Free A.n

/-- The vector used by `spasm_factorization_verify`: the challenge on the pivotal rows. -/
noncomputable def factX (seed : List Fips.Byte) (q r : ℕ) (p : Nat → Nat) (i : Nat) : ZMod q :=
  if ∃ k, k < r ∧ p k = i then challenge seed q i else 0

/-- The challenges on `r` columns `j 0, ..., j (r-1)` that some combination of the rows meets. -/
def Csr.Reached (A : Csr) (q : ℕ) (j : Nat → Nat) (r : Nat) : Set (Fin r → ZMod q) :=
  {a | ∃ x : Nat → ZMod q, ∀ k : Fin r, ∑ i ∈ range A.n, x i * A.entry q i (j k) = a k}

/-- The challenges on the rows outside of `S` that some combination of the rows in `S` cancels. -/
def Csr.Cancelled (A : Csr) (q : ℕ) (S : Finset Nat) : Set (↥(range A.n \ S) → ZMod q) :=
  {b | ∃ y : Nat → ZMod q, ∀ c, c < A.m →
    ∑ i ∈ (range A.n \ S).attach, b i * A.entry q i c + ∑ i ∈ range A.n ∩ S, y i * A.entry q i c = 0}

end Spasm
