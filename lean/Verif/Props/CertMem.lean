import Verif.Proofs.CertMem
import Verif.Props.Certificate
import Verif.Props.CertFile

/-
C76: lack of memory.

The full claim: when there is no memory, the functions that read certificates and verify factorizations end the program with an error
message, as all others do.  It is false: they do not look at the result of `malloc` (`C76_load_null`, `C76_verify_null`).  With enough
memory they behave as in the model of C39 and C40.
-/

namespace Spasm

open Sha

/-- C76 (certificates).  If all blocks of less than `2^33` bytes are granted, a certificate is read as in the model without lack of memory. -/
theorem C76_load_partial (grant : Nat → Nat → Bool) (hg : ∀ k b, b < 2 ^ 33 → grant k b = true)
    (hg' : ∀ k b, 2 ^ 63 ≤ b → grant k b = false) (jk : Junk) (jc : Nat → Char) (c0 : Cert) (f : List Char) :
    certificate_load_mem grant jk jc c0 f = certificate_load jk jc c0 f :=
  certificate_load_mem_eq ⟨hg, hg'⟩ jk jc c0 f

/-- C76 (certificates, violated).  A certificate file that announces `r > 0` rows, for which there is no memory, and that goes on with
a modulus, a line and a number: the number is written at a `NULL` pointer. -/
theorem C76_load_null (grant : Nat → Nat → Bool) (jk : Junk) (jc : Nat → Char) (c0 : Cert) (h0 : c0.hash.size = 32)
    (f f1 f2 f3 : List Char) (r p v : Int) (hr : scanD 31 f = .ok (some r, f1)) (hr0 : 0 < r)
    (hgr : grant 0 (bytes r 4) = false) (hp : scanD 63 f1 = .ok (some p, f2)) (hne : (skipWs f2).isEmpty = false)
    (hv : scanD 31 (takeLine 64 (skipWs f2)).2 = .ok (some v, f3)) :
    certificate_load_mem grant jk jc c0 f = .error .ub := by
  unfold certificate_load_mem
  rw [hr, bok_eq]
  simp only
  rw [hp, bok_eq]
  simp only [hne, Bool.false_eq_true, if_false]
  have hh : ∃ h, (forRange 0 32 c0.hash fun i h =>
      wr h i (strtoul16 (cstr [hash_buffer jc (takeLine 64 (skipWs f2)).1 (2 * i),
        hash_buffer jc (takeLine 64 (skipWs f2)).1 (2 * i + 1)]))) = .ok h := by
    have := Ok_forRange_imp (I := fun _ (h : Array B) => h.size = 32) (lo := 0) (hi := 32) (s := c0.hash)
      (f := fun i h => wr h i (strtoul16 (cstr [hash_buffer jc (takeLine 64 (skipWs f2)).1 (2 * i),
        hash_buffer jc (takeLine 64 (skipWs f2)).1 (2 * i + 1)]))) (Q := fun _ => True) (by omega) h0
      (fun i h _ hi hs => by unfold wr; rw [if_pos (by omega)]; simpa using hs) (fun _ _ => trivial)
    obtain ⟨h, h1, -⟩ := Ok_iff.mp this
    exact ⟨h, h1⟩
  obtain ⟨h, hh⟩ := hh
  rw [hh, bok_eq, raw_block_null jk hgr, load_list_null (by omega) hv]
  rfl

/-- C76 (factorizations).  The same for the verification of a factorization whose dimensions are of type `int`. -/
theorem C76_verify_partial (grant : Nat → Nat → Bool) (hg : ∀ k b, b < 2 ^ 33 → grant k b = true)
    (hg' : ∀ k b, 2 ^ 63 ≤ b → grant k b = false) (jw : Nat → W) (jkb : Nat → B) (jb : Nat → Bool) (jk : Junk) (ctx0 : Prng)
    (fuel : Nat) (A : Csr) (fact : Lu) (seed : BitVec 64) (hn : A.n < 2 ^ 31) (hm : A.m < 2 ^ 31) (hr : fact.U.n < 2 ^ 31) :
    fact_verify_mem grant jw jkb jb jk ctx0 fuel A fact seed = fact_verify jw jkb jb jk ctx0 fuel A fact seed := by
  have hb (k : Nat) {c : Nat} (h : c < 2 ^ 31) : raw_block grant k jk c = mkArr c jk.int := by
    rw [raw_block_plenty ⟨hg, hg'⟩ k jk (by omega), Int.toNat_natCast]
  have ha : alloc_cells (grant 4) A.n 1 = .ok A.n := by
    unfold alloc_cells
    rw [bytes_exact (by omega) (by push_cast; omega), Int.toNat_natCast, hg 4 _ (by omega)]
    simp
  unfold fact_verify_mem fact_verify
  cases fact.L with
  | none => rfl
  | some L =>
    simp only
    rw [hb 0 hn, hb 1 hr, hb 2 hm, hb 3 hm, ha]
    rfl

/-- C76 (factorizations, violated).  If one of the four blocks is needed and not granted, the verification does not end with an answer,
nor (if the block of the pivotal rows is granted) with the error message. -/
theorem C76_verify_null (grant : Nat → Nat → Bool) (jw : Nat → W) (jkb : Nat → B) (jb : Nat → Bool) (jk : Junk) (ctx0 : Prng)
    (fuel : Nat) (A : Csr) (fact : Lu) (seed : BitVec 64)
    (h : (0 < A.n ∧ grant 0 (bytes A.n 4) = false) ∨ (0 < fact.U.n ∧ grant 1 (bytes fact.U.n 4) = false) ∨
      (0 < A.m ∧ grant 2 (bytes A.m 4) = false) ∨ (0 < A.m ∧ grant 3 (bytes A.m 4) = false)) (b : Bool) :
    fact_verify_mem grant jw jkb jb jk ctx0 fuel A fact seed ≠ .ok b := by
  intro hv
  unfold fact_verify_mem at hv
  cases hL : fact.L with
  | none => rw [hL] at hv; cases hv
  | some L =>
  rw [hL] at hv
  simp only [bok_eq] at hv
  obtain ⟨_, -, hv⟩ := bind_ok_iff.mp hv
  obtain ⟨piv, -, hv⟩ := bind_ok_iff.mp hv
  obtain ⟨ctx, -, hv⟩ := bind_ok_iff.mp hv
  obtain ⟨z, hz, hv⟩ := bind_ok_iff.mp hv
  obtain ⟨t, ht, hv⟩ := bind_ok_iff.mp hv
  obtain ⟨y, hy, hv⟩ := bind_ok_iff.mp hv
  obtain ⟨s, hs, -⟩ := bind_ok_iff.mp hv
  rcases h with ⟨h0, h⟩ | ⟨h0, h⟩ | ⟨h0, h⟩ | ⟨h0, h⟩
  · rw [raw_block_null jk h] at hs
    exact fact_chal_null jw fuel h0 piv ctx s hs
  · rw [raw_block_null jk h, fill_null h0] at hy; cases hy
  · rw [raw_block_null jk h, fill_null h0] at hz; cases hz
  · rw [raw_block_null jk h, fill_null h0] at ht; cases ht

/-- How the reading of a certificate ends. -/
def certEnds (x : C (Bool × Cert)) : Option Err :=
  match x with
  | .ok _ => none
  | .error e => some e

/-- The beginning of a certificate that announces `2^31 - 1` rows. -/
def exHuge : List Char :=
  ("2147483647\n7\n" ++ "0000000000000000000000000000000000000000000000000000000000000000" ++ "\n5 6 7").toList

/-- This file meets the hypotheses of `C76_load_null` on a machine with 4 GB; with 8 GB it would be read until its end, and a file that announces
few rows is read. -/
example : certEnds (certificate_load_mem (fun _ b => decide (b < 2 ^ 32)) default default exCert exHuge) = some .ub ∧
    certEnds (certificate_load_mem (fun _ b => decide (b < 2 ^ 32)) default default exCert "1\n7\nabc\n1 2 3 4".toList) = none := by
  decide +kernel

/-- How a verification ends. -/
def verifyEnds (x : C Bool) : Option Err :=
  match x with
  | .ok _ => none
  | .error e => some e

/-- A factorization verified without memory for its second block, and with enough memory. -/
example : verifyEnds (fact_verify_mem (fun k _ => k ≠ 1) default default default default exPrng 20 exFA exLu 42) = some .ub ∧
    verifyEnds (fact_verify_mem (fun _ b => decide (b < 2 ^ 33)) default default default default exPrng 20 exFA exLu 42) = none := by
  decide +kernel

end Spasm
