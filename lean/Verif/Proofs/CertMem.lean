import Verif.Model.CertMem
import Verif.Proofs.Bytes

/-
Blocks that are granted, and blocks that are not.
-/

namespace Spasm

open Sha

/-- All blocks that can be asked for with a number of cells of type `int` are granted; no block of `2^63` bytes is. -/
def Plenty (grant : Nat → Nat → Bool) : Prop :=
  (∀ k b, b < 2 ^ 33 → grant k b = true) ∧ ∀ k b, 2 ^ 63 ≤ b → grant k b = false

theorem mkArr_zero {α : Type} (f : Nat → α) : mkArr 0 f = #[] := rfl

theorem raw_block_plenty {grant : Nat → Nat → Bool} (hg : Plenty grant) (k : Nat) (jk : Junk) {c : Int}
    (h : -2 ^ 31 ≤ c ∧ c < 2 ^ 31) : raw_block grant k jk c = mkArr c.toNat jk.int := by
  unfold raw_block
  by_cases h0 : 0 ≤ c
  · rw [bytes_exact h0 (by push_cast; omega), hg.1 _ _ (by omega), if_pos rfl, Nat.mul_div_cancel _ (by omega)]
  · have hb : 2 ^ 63 ≤ bytes c 4 := by
      unfold bytes
      have : (c * (4 : ℕ)) % 2 ^ 64 = c * 4 + 2 ^ 64 := by
        push_cast
        rw [← Int.add_emod_right, Int.emod_eq_of_lt (by omega) (by omega)]
      rw [this]
      omega
    rw [hg.2 _ _ hb, show c.toNat = 0 by omega, mkArr_zero]
    rfl

theorem raw_block_null {grant : Nat → Nat → Bool} {k : Nat} (jk : Junk) {c : Int} (h : grant k (bytes c 4) = false) :
    raw_block grant k jk c = #[] := by
  unfold raw_block
  rw [h]
  rfl

theorem scanD_range {bits : Nat} {s : List Char} {x : Int} {t : List Char} (h : scanD bits s = .ok (some x, t)) :
    -2 ^ bits ≤ x ∧ x < 2 ^ bits := by
  unfold scanD at h
  split at h
  · cases h
  · split at h
    · rename_i hx; cases h; exact hx
    · cases h

theorem certificate_load_mem_eq {grant : Nat → Nat → Bool} (hg : Plenty grant) (jk : Junk) (jc : Nat → Char) (c0 : Cert)
    (f : List Char) : certificate_load_mem grant jk jc c0 f = certificate_load jk jc c0 f := by
  unfold certificate_load_mem certificate_load
  cases hs : scanD 31 f with
  | error e => rfl
  | ok r =>
    obtain ⟨r, f1⟩ := r
    rw [bok_eq, bok_eq]
    cases r with
    | none => rfl
    | some r =>
      have hr := scanD_range hs
      simp only
      rw [raw_block_plenty hg 0 jk hr, raw_block_plenty hg 1 jk hr, raw_block_plenty hg 2 jk hr, raw_block_plenty hg 3 jk hr]
      rfl

/-- Reading a list of numbers into a `NULL` pointer. -/
theorem load_list_null {r : Nat} (hr : 0 < r) {f f' : List Char} {v : Int} (h : scanD 31 f = .ok (some v, f')) :
    load_list r #[] f = .error .ub := by
  unfold load_list forRange
  obtain ⟨r, rfl⟩ : ∃ k, r = k + 1 := ⟨r - 1, by omega⟩
  rw [Nat.sub_zero, forN]
  simp only [h]
  rfl

/-- Filling a `NULL` pointer. -/
theorem fill_null {n : Nat} (hn : 0 < n) : forRange 0 n (#[] : Array Int) (fun j z => wr z j 0) = .error .ub := by
  unfold forRange
  obtain ⟨n, rfl⟩ : ∃ k, n = k + 1 := ⟨n - 1, by omega⟩
  rw [Nat.sub_zero, forN]
  rfl

theorem fact_chal_null (jw : Nat → W) (fuel : Nat) {n : Nat} (hn : 0 < n) (piv : Array Bool) (ctx : Prng)
    (s : Prng × Array Int) : fact_chal jw fuel n piv #[] ctx ≠ .ok s := by
  unfold fact_chal forRange
  obtain ⟨n, rfl⟩ : ∃ k, n = k + 1 := ⟨n - 1, by omega⟩
  rw [Nat.sub_zero, forN]
  intro h
  obtain ⟨a, h1, -⟩ := bind_ok_iff.mp h
  obtain ⟨v, -, h1⟩ := bind_ok_iff.mp h1
  obtain ⟨b, -, h1⟩ := bind_ok_iff.mp h1
  obtain ⟨x, h2, -⟩ := bind_ok_iff.mp h1
  simp [wr] at h2

end Spasm
