import Verif.Model.Human
import Verif.Proofs.Density
import Verif.Proofs.Text
import Verif.Proofs.Rounding

/-
C68: sizes in messages.
-/

namespace Spasm

/-- The error of the two successive roundings, in integers. -/
theorem human_near {U : ℕ} (hU : ∃ k, U = 1000 * k) (h0 : 0 < U) (hb : U ≤ 10 ^ 12) {n : ℕ} (hn : n < 1000 * U) :
    ∃ t : ℕ, nearestEven (|rnd 53 ((n : ℚ) / U)| * 10) = t ∧ 2 * |10 * (n : Int) - t * U| ≤ U := by
  have hU0 : (0 : ℚ) < U := by exact_mod_cast h0
  have hx0 : 0 ≤ (n : ℚ) / U := by positivity
  have hr0 := rnd_nonneg 53 hx0
  rw [abs_of_nonneg hr0]
  have ht0 : 0 ≤ nearestEven (rnd 53 ((n : ℚ) / U) * 10) := by
    have := nearestEven_mono (show ((0 : Int) : ℚ) ≤ rnd 53 ((n : ℚ) / U) * 10 by push_cast; positivity)
    rwa [nearestEven_int] at this
  obtain ⟨t, ht⟩ := Int.eq_ofNat_of_zero_le ht0
  refine ⟨t, ht, ?_⟩
  have e1 := nearestEven_err (rnd 53 ((n : ℚ) / U) * 10)
  rw [ht] at e1
  have e2 := rnd_err 53 ((n : ℚ) / U)
  rw [abs_of_nonneg hx0] at e2
  generalize rnd 53 ((n : ℚ) / U) = x at *
  rw [abs_le] at e1 e2
  have hnU : (n : ℚ) / U * U = n := by field_simp
  have hn' : (n : ℚ) < 1000 * U := by exact_mod_cast hn
  have hb' : (U : ℚ) ≤ 10 ^ 12 := by exact_mod_cast hb
  push_cast at e1
  have f1 : (t : ℚ) * U ≤ (x * 10 + 1 / 2) * U := by nlinarith
  have f2 : (x * 10 - 1 / 2) * U ≤ (t : ℚ) * U := by nlinarith
  have g1 : x * U ≤ n + n / 2 ^ 53 := by
    have : x * U ≤ ((n : ℚ) / U + (n : ℚ) / U / 2 ^ 53) * U := mul_le_mul_of_nonneg_right (by linarith) hU0.le
    have e : ((n : ℚ) / U + (n : ℚ) / U / 2 ^ 53) * U = n + n / 2 ^ 53 := by field_simp
    linarith
  have g2 : n - n / 2 ^ 53 ≤ x * U := by
    have : ((n : ℚ) / U - (n : ℚ) / U / 2 ^ 53) * U ≤ x * U := mul_le_mul_of_nonneg_right (by linarith) hU0.le
    have e : ((n : ℚ) / U - (n : ℚ) / U / 2 ^ 53) * U = n - n / 2 ^ 53 := by field_simp
    linarith
  have g3 : (n : ℚ) / 2 ^ 53 < 1 / 5 := by
    rw [div_lt_iff₀ (by positivity)]
    have : (n : ℚ) < 1000 * 10 ^ 12 := hn'.trans_le (by linarith)
    norm_num at this ⊢
    linarith
  have h1 : (t : ℚ) * U < 10 * n + U / 2 + 2 := by linarith
  have h2 : (10 * n - U / 2 - 2 : ℚ) < t * U := by linarith
  obtain ⟨k, rfl⟩ := hU
  have h1' : (t : Int) * (1000 * k : ℕ) < 10 * n + 500 * k + 2 := by
    have : (t : ℚ) * (1000 * k : ℕ) < 10 * n + 500 * k + 2 := by push_cast at h1 ⊢; linarith
    exact_mod_cast this
  have h2' : (10 * n - 500 * k - 2 : Int) < t * (1000 * k : ℕ) := by
    have : (10 * n - 500 * k - 2 : ℚ) < t * (1000 * k : ℕ) := by push_cast at h2 ⊢; linarith
    exact_mod_cast this
  push_cast at h1' h2' ⊢
  have e : (t : Int) * (1000 * k) = 10 * (100 * (t * k)) := by ring
  rw [e] at h1' h2' ⊢
  generalize (t : Int) * k = w at *
  rcases abs_cases (10 * (n : Int) - 10 * (100 * w)) with ⟨h, -⟩ | ⟨h, -⟩ <;> rw [h] <;> omega

theorem fmtD_nat (k : ℕ) : fmtD (k : Int) = Nat.toDigits 10 k := by
  unfold fmtD
  rw [if_neg (by omega), Int.natAbs_natCast]

/-- Number in tenths of a unit, with the letter of the unit. -/
theorem human_text {U : ℕ} (hU : ∃ k, U = 1000 * k) (h0 : 0 < U) (hb : U ≤ 10 ^ 12) {n : ℕ} (hn : n < 1000 * U)
    (c : Char) : ∃ t : ℕ, snprintf8 (fmtF1 ((Dbl.ofInt n).div (.fin U)) ++ [c]) =
      dec (t / 10 : ℕ) ++ ['.'] ++ dec (t % 10 : ℕ) ++ [c] ∧ 2 * |10 * (n : Int) - t * U| ≤ U := by
  obtain ⟨t, ht, h⟩ := human_near hU h0 hb hn
  refine ⟨t, ?_, h⟩
  have hU0 : (U : ℚ) ≠ 0 := by exact_mod_cast h0.ne'
  have hn53 : n < 2 ^ 53 := by
    have : n < 1000 * 10 ^ 12 := hn.trans_le (Nat.mul_le_mul_left _ hb)
    omega
  rw [Dbl.ofInt_nat hn53, Dbl.div_fin hU0]
  unfold fmtF1 snprintf8
  simp only
  rw [if_neg (not_lt.2 (rnd_nonneg 53 (by positivity))), ht, dec_eq, dec_eq]
  have e1 : ((t : Int) / 10) = ((t / 10 : ℕ) : Int) := by omega
  have e2 : ((t : Int) % 10) = ((t % 10 : ℕ) : Int) := by omega
  rw [e1, e2]
  have htb : t ≤ 10000 := by
    by_contra hc
    have h1 : (10001 : Int) * U ≤ t * U := Int.mul_le_mul_of_nonneg_right (by omega) (by omega)
    have h2 := neg_abs_le (10 * (n : Int) - t * U)
    omega
  have l1 : (fmtD ((t / 10 : ℕ) : Int)).length ≤ 4 := by
    rw [fmtD_nat]
    have : ∀ k : Fin 1001, (Nat.toDigits 10 k).length ≤ 4 := by decide +kernel
    exact this ⟨t / 10, by omega⟩
  have l2 : (fmtD ((t % 10 : ℕ) : Int)).length = 1 := by
    rw [fmtD_nat]
    have : ∀ k : Fin 10, (Nat.toDigits 10 k).length = 1 := by decide +kernel
    exact this ⟨t % 10, by omega⟩
  rw [List.take_of_length_le]
  · simp
  · simp only [List.nil_append, List.length_append, List.length_cons, List.length_nil]
    omega

/-- C68. Below a thousand, the number itself. -/
theorem C68_small {n : ℕ} (h : n < 1000) : human_format n = some (dec n) := by
  unfold human_format snprintf8
  rw [if_pos (by omega), dec_eq, fmtD_nat, List.take_of_length_le]
  have : ∀ k : Fin 1000, (Nat.toDigits 10 k).length ≤ 7 := by decide +kernel
  exact this ⟨n, h⟩

/-- The units: thousands, millions, ... -/
def humanUnits : List (ℕ × Char) := [(10 ^ 3, 'k'), (10 ^ 6, 'm'), (10 ^ 9, 'g'), (10 ^ 12, 't')]

/-- C68. From a thousand up to a million billions: the number in the largest unit which it exceeds, with one decimal,
which is a nearest one in spite of the rounding errors; the text is not truncated. -/
theorem C68_unit {n U : ℕ} {c : Char} (hU : (U, c) ∈ humanUnits) (h1 : U ≤ n) (h2 : n < 1000 * U) :
    ∃ t : ℕ, human_format n = some (dec (t / 10 : ℕ) ++ ['.'] ++ dec (t % 10 : ℕ) ++ [c]) ∧
      2 * |10 * (n : Int) - t * U| ≤ U := by
  unfold humanUnits at hU
  simp only [List.mem_cons, Prod.mk.injEq, List.not_mem_nil, or_false] at hU
  unfold human_format
  rcases hU with ⟨rfl, rfl⟩ | ⟨rfl, rfl⟩ | ⟨rfl, rfl⟩ | ⟨rfl, rfl⟩
  · obtain ⟨t, ht, h⟩ := human_text ⟨1, rfl⟩ (by norm_num) (by norm_num) h2 'k'
    refine ⟨t, ?_, h⟩
    rw [if_neg (by omega), if_pos (by omega), ← ht]
    norm_num
  · obtain ⟨t, ht, h⟩ := human_text ⟨10 ^ 3, rfl⟩ (by norm_num) (by norm_num) h2 'm'
    refine ⟨t, ?_, h⟩
    rw [if_neg (by omega), if_neg (by omega), if_pos (by omega), ← ht]
    norm_num
  · obtain ⟨t, ht, h⟩ := human_text ⟨10 ^ 6, rfl⟩ (by norm_num) (by norm_num) h2 'g'
    refine ⟨t, ?_, h⟩
    rw [if_neg (by omega), if_neg (by omega), if_neg (by omega), if_pos (by omega), ← ht]
    norm_num
  · obtain ⟨t, ht, h⟩ := human_text ⟨10 ^ 9, rfl⟩ (by norm_num) (by norm_num) h2 't'
    refine ⟨t, ?_, h⟩
    rw [if_neg (by omega), if_neg (by omega), if_neg (by omega), if_neg (by omega), if_pos (by omega), ← ht]
    norm_num

/-- C68 fails from a million billions on: nothing is written, and the callers print an uninitialised array. -/
theorem C68_huge {n : Int} (h : 10 ^ 15 ≤ n) : human_format n = none := by
  unfold human_format
  rw [if_neg (by omega), if_neg (by omega), if_neg (by omega), if_neg (by omega), if_neg (by omega)]

/-- C68, size announced by `spasm_compress`.  The full claim: it is the number of bytes of the matrix.  Proved below
`2 ^ 31` bytes. (Missing: the size is stored in an `int`, `C68_wrapped`.) -/
theorem C68_compress_partial {n nz : ℕ} {x : Bool} (h : 4 * (n + nz) + (if x then 4 * nz else 0) < 2 ^ 31) :
    compress_mem n nz x = human_format (4 * (n + nz) + (if x then 4 * nz else 0) : ℕ) := by
  unfold compress_mem compress_size toI32
  congr 1
  cases x
  · simp only [Bool.false_eq_true, if_false] at h ⊢
    rw [Int.bmod_eq_of_le] <;> push_cast <;> omega
  · simp only [if_true] at h ⊢
    rw [Int.bmod_eq_of_le] <;> push_cast <;> omega

/-- C68 fails from `2 ^ 31` bytes on: for 300 million entries the size announced is negative, and truncated. -/
theorem C68_wrapped : compress_mem 1 300000000 true = some "-189496".toList := by
  decide +kernel

example : human_format 999 = some "999".toList := by decide +kernel
example : human_format 1050 = some "1.1k".toList := by decide +kernel
example : human_format 999999 = some "1000.0k".toList := by decide +kernel
example : human_format 123456789 = some "123.5m".toList := by decide +kernel
example : ∃ t : ℕ, human_format (123456789 : ℕ) = some (dec (t / 10 : ℕ) ++ ['.'] ++ dec (t % 10 : ℕ) ++ ['m']) ∧
    2 * |10 * ((123456789 : ℕ) : Int) - t * (10 ^ 6 : ℕ)| ≤ (10 ^ 6 : ℕ) :=
  C68_unit (by unfold humanUnits; simp) (by norm_num) (by norm_num)
example : compress_mem 1000 2000 true = some "20.0k".toList := by decide +kernel

end Spasm
