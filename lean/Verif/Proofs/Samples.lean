import Verif.Model.Samples
import Verif.Spec.Samples
import Verif.Proofs.Bitmap
import Mathlib.Analysis.SpecialFunctions.Pow.Real
import Mathlib.Analysis.Convex.SpecificFunctions.Basic

/-
The number of random combinations of the completion test: the smallest `s` with `q ^ s ≥ 2 ^ 128`.  The rounding errors
do not matter because no `q ^ s` is very close to `2 ^ 128` without being equal to it.
-/

namespace Spasm

/-- The largest integers with `k ^ N < 2 ^ 128`, for `N = 4, 5, ...` -/
def lowRoots : List Nat := [
    4294967295, 50859008, 2642245, 319557, 65535, 19112, 7131, 3183, 1625, 920, 565, 370, 255, 184, 138, 106, 84,
    68, 56, 47, 40, 34, 30, 26, 23, 21, 19, 17, 15, 14, 13, 12, 11, 11, 10, 9, 9, 8, 8, 7, 7, 7, 6, 6, 6, 6, 5,
    5, 5, 5, 5, 5, 4, 4, 4, 4, 4, 4, 4, 4, 3, 3, 3, 3, 3, 3, 3, 3, 3, 3, 3, 3, 3, 3, 3, 3, 3, 2, 2, 2, 2, 2, 2,
    2, 2, 2, 2, 2, 2, 2, 2, 2, 2, 2, 2, 2, 2, 2, 2, 2, 2, 2, 2, 2, 2, 2, 2, 2, 2, 2, 2, 2, 2, 2, 2, 2, 2, 2, 2,
    2, 2, 2, 2, 2, 1, 1, 1]

/-- The smallest integers with `k ^ N > 2 ^ 128`, for `N = 4, 5, ...` -/
def highRoots : List Nat := [
    4294967297, 50859009, 2642246, 319558, 65537, 19113, 7132, 3184, 1626, 921, 566, 371, 257, 185, 139, 107, 85,
    69, 57, 48, 41, 35, 31, 27, 24, 22, 20, 18, 17, 15, 14, 13, 12, 12, 11, 10, 10, 9, 9, 8, 8, 8, 7, 7, 7, 7, 6,
    6, 6, 6, 6, 6, 5, 5, 5, 5, 5, 5, 5, 5, 5, 4, 4, 4, 4, 4, 4, 4, 4, 4, 4, 4, 4, 4, 4, 4, 4, 3, 3, 3, 3, 3, 3,
    3, 3, 3, 3, 3, 3, 3, 3, 3, 3, 3, 3, 3, 3, 3, 3, 3, 3, 3, 3, 3, 3, 3, 3, 3, 3, 3, 3, 3, 3, 3, 3, 3, 3, 3, 3,
    3, 3, 3, 3, 3, 3, 2, 2]

theorem lowRoots_ok : ∀ i, i < 127 → lowRoots.getD i 0 ^ (i + 4) * 2 ^ 32 + 2 ^ 128 < 2 ^ 160 ∧
    2 ^ 128 ≤ (lowRoots.getD i 0 + 1) ^ (i + 4) := by
  decide +kernel

theorem highRoots_ok : ∀ i, i < 127 → 2 ^ 160 + 2 ^ 128 ≤ highRoots.getD i 0 ^ (i + 4) * 2 ^ 32 ∧
    (highRoots.getD i 0 - 1) ^ (i + 4) ≤ 2 ^ 128 := by
  decide +kernel

theorem gap_low {q N : ℕ} (h1 : 4 ≤ N) (h2 : N ≤ 130) (h : q ^ N < 2 ^ 128) :
    q ^ N * 2 ^ 32 + 2 ^ 128 < 2 ^ 160 := by
  obtain ⟨i, rfl⟩ : ∃ i, N = i + 4 := ⟨N - 4, by omega⟩
  obtain ⟨a, b⟩ := lowRoots_ok i (by omega)
  have hq : q ≤ lowRoots.getD i 0 := by
    by_contra hc
    have := Nat.pow_le_pow_left (show lowRoots.getD i 0 + 1 ≤ q by omega) (i + 4)
    omega
  exact lt_of_le_of_lt (Nat.add_le_add_right (Nat.mul_le_mul_right _ (Nat.pow_le_pow_left hq _)) _) a

theorem gap_high {q N : ℕ} (h1 : 4 ≤ N) (h2 : N ≤ 130) (h : 2 ^ 128 < q ^ N) :
    2 ^ 160 + 2 ^ 128 ≤ q ^ N * 2 ^ 32 := by
  obtain ⟨i, rfl⟩ : ∃ i, N = i + 4 := ⟨N - 4, by omega⟩
  obtain ⟨a, b⟩ := highRoots_ok i (by omega)
  have hq : highRoots.getD i 0 ≤ q := by
    by_contra hc
    have := Nat.pow_le_pow_left (show q ≤ highRoots.getD i 0 - 1 by omega) (i + 4)
    omega
  exact a.trans (Nat.mul_le_mul_right _ (Nat.pow_le_pow_left hq _))

theorem two_rpow_le {e : ℝ} (h0 : 0 ≤ e) (h1 : e ≤ 1) : (2 : ℝ) ^ e ≤ 1 + e := by
  have := rpow_one_add_le_one_add_mul_self (s := 1) (by norm_num) h0 h1
  rw [mul_one, one_add_one_eq_two] at this
  exact this

theorem le_two_rpow {e : ℝ} (h0 : 0 ≤ e) (h1 : e ≤ 1) : 1 - e ≤ (2 : ℝ) ^ (-e) := by
  rw [Real.rpow_neg (by norm_num), ← one_div]
  have h := two_rpow_le h0 h1
  have hp : (0 : ℝ) < 2 ^ e := Real.rpow_pos_of_pos (by norm_num) _
  rw [le_div_iff₀ hp]
  nlinarith

/-- From a bound on the logarithm. -/
theorem pow_ge_of_log {q N : ℕ} (hq : 2 ≤ q) (h1 : 4 ≤ N) (h2 : N ≤ 130)
    (h : 128 - 1 / 2 ^ 32 ≤ (N : ℝ) * Real.logb 2 q) : 2 ^ 128 ≤ q ^ N := by
  by_contra hc
  have g := gap_low h1 h2 (Nat.lt_of_not_le hc)
  have hq0 : (0 : ℝ) < q := by exact_mod_cast (by omega : 0 < q)
  have e1 : ((q : ℝ) ^ N) = (2 : ℝ) ^ ((N : ℝ) * Real.logb 2 q) := by
    rw [mul_comm, Real.rpow_mul (by norm_num), Real.rpow_logb (by norm_num) (by norm_num) hq0, Real.rpow_natCast]
  have e2 : (2 : ℝ) ^ (128 - 1 / 2 ^ 32 : ℝ) ≤ (q : ℝ) ^ N := by
    rw [e1]
    exact Real.rpow_le_rpow_of_exponent_le (by norm_num) h
  have e3 : (2 : ℝ) ^ (128 - 1 / 2 ^ 32 : ℝ) = 2 ^ 128 * (2 : ℝ) ^ (-(1 / 2 ^ 32) : ℝ) := by
    rw [sub_eq_add_neg, Real.rpow_add (by norm_num)]
    congr 1
    exact_mod_cast Real.rpow_natCast 2 128
  have e4 := le_two_rpow (e := 1 / 2 ^ 32) (by norm_num) (by norm_num)
  have g' := (Nat.cast_lt (α := ℝ)).mpr g
  push_cast at g'
  rw [e3] at e2
  clear e3 e1 h
  generalize (2 : ℝ) ^ (-(1 / 2 ^ 32) : ℝ) = t at e2 e4
  norm_num at e2 e4 g'
  linarith

theorem pow_le_of_log {q N : ℕ} (hq : 2 ≤ q) (hq' : q < 2 ^ 32) (h2 : N ≤ 130)
    (h : (N : ℝ) * Real.logb 2 q ≤ 128 + 3 / 2 ^ 34) : q ^ N ≤ 2 ^ 128 := by
  by_cases h1 : N < 4
  · calc q ^ N ≤ (2 ^ 32) ^ N := Nat.pow_le_pow_left hq'.le _
      _ = 2 ^ (32 * N) := (pow_mul ..).symm
      _ ≤ 2 ^ 128 := Nat.pow_le_pow_right (by norm_num) (by omega)
  by_contra hc
  have g := gap_high (by omega) h2 (by omega : 2 ^ 128 < q ^ N)
  have hq0 : (0 : ℝ) < q := by exact_mod_cast (by omega : 0 < q)
  have e1 : ((q : ℝ) ^ N) = (2 : ℝ) ^ ((N : ℝ) * Real.logb 2 q) := by
    rw [mul_comm, Real.rpow_mul (by norm_num), Real.rpow_logb (by norm_num) (by norm_num) hq0, Real.rpow_natCast]
  have e2 : (q : ℝ) ^ N ≤ (2 : ℝ) ^ (128 + 3 / 2 ^ 34 : ℝ) := by
    rw [e1]
    exact Real.rpow_le_rpow_of_exponent_le (by norm_num) h
  have e3 : (2 : ℝ) ^ (128 + 3 / 2 ^ 34 : ℝ) = 2 ^ 128 * (2 : ℝ) ^ (3 / 2 ^ 34 : ℝ) := by
    rw [Real.rpow_add (by norm_num)]
    congr 1
    exact_mod_cast Real.rpow_natCast 2 128
  have e4 := two_rpow_le (e := 3 / 2 ^ 34) (by norm_num) (by norm_num)
  have g' := (Nat.cast_le (α := ℝ)).mpr g
  push_cast at g'
  rw [e3] at e2
  clear e3 e1 h
  generalize (2 : ℝ) ^ (3 / 2 ^ 34 : ℝ) = t at e2 e4
  norm_num at e2 e4 g'
  linarith

/-- The number of combinations. -/
theorem test_samples_ok {lg2 : Dbl → Dbl} (hl : Log2 lg2) {q : ℕ} (h2 : 2 ≤ q) (hq : q < 2 ^ 32) :
    Ok (test_samples lg2 q) (fun s => 0 < s ∧ s ≤ 130 ∧ 2 ^ 128 ≤ q ^ s.toNat ∧ q ^ (s.toNat - 1) ≤ 2 ^ 128) := by
  obtain ⟨x, ex, hx⟩ := hl q h2 hq
  unfold test_samples
  rw [ex]
  have hlo : (1 : ℝ) ≤ Real.logb 2 q := by
    rw [Real.le_logb_iff_rpow_le (by norm_num) (by exact_mod_cast (by omega : 0 < q)), Real.rpow_one]
    exact_mod_cast h2
  have hhi : Real.logb 2 q ≤ 32 := by
    rw [Real.logb_le_iff_le_rpow (by norm_num) (by exact_mod_cast (by omega : 0 < q))]
    have : (q : ℝ) < ((2 ^ 32 : ℕ) : ℝ) := by exact_mod_cast hq
    push_cast at this
    norm_num at this ⊢
    linarith
  rw [abs_le] at hx
  have x1 : (1 - 1 / 2 ^ 40 : ℚ) ≤ x := by
    have : ((1 - 1 / 2 ^ 40 : ℚ) : ℝ) ≤ x := by push_cast; linarith [hx.1]
    exact_mod_cast this
  have x2 : x ≤ (32 + 1 / 2 ^ 40 : ℚ) := by
    have : (x : ℝ) ≤ ((32 + 1 / 2 ^ 40 : ℚ) : ℝ) := by push_cast; linarith [hx.2]
    exact_mod_cast this
  have x0 : 0 < x := by norm_num at x1; linarith
  have hd : (0 : ℚ) ≤ 128 / x := by positivity
  obtain ⟨b1, b2⟩ := rnd_bounds hd
  set y := rnd 53 (128 / x) with hy
  have d1 : (128 : ℚ) / x ≤ 128 * (1 + 1 / 2 ^ 39) := by
    rw [div_le_iff₀ x0]; norm_num at x1 ⊢; linarith
  have d2 : (128 : ℚ) * (1 - 1 / 2 ^ 40) / 32 ≤ 128 / x := by
    rw [le_div_iff₀ x0]; norm_num at x2 ⊢; linarith
  have y1 : (3 : ℚ) < y := by norm_num at d2 b1 ⊢; linarith
  have y2 : y ≤ 129 := by norm_num at d1 b2 ⊢; linarith
  have n1 : 4 ≤ ⌈y⌉ := by
    have : (3 : Int) < ⌈y⌉ := Int.lt_ceil.mpr (by exact_mod_cast y1)
    omega
  have n2 : ⌈y⌉ ≤ 129 := Int.ceil_le.mpr (by exact_mod_cast y2)
  have er : ((Dbl.fin 128).div (.fin x)).ceil.toI64 = .ok ⌈y⌉ := by
    show (if x = 0 then _ else Dbl.fin (rnd 53 (128 / x))).ceil.toI64 = _
    rw [if_neg x0.ne', ← hy]
    show i64 (truncQ ((⌈y⌉ : Int) : ℚ)) = _
    rw [truncQ_int, i64, if_pos ⟨by omega, by omega⟩]
  rw [er, Ok_ok]
  obtain ⟨N, hN⟩ := Int.eq_ofNat_of_zero_le (by omega : 0 ≤ ⌈y⌉)
  have c1 : y ≤ (N : ℚ) := by
    have := Int.le_ceil y
    rw [hN] at this
    exact_mod_cast this
  have c2 : (N : ℚ) < y + 1 := by
    have := Int.ceil_lt_add_one y
    rw [hN] at this
    exact_mod_cast this
  rw [hN] at n1 n2 ⊢
  rw [Int.toNat_natCast]
  have N1 : 4 ≤ N := by exact_mod_cast n1
  have N2 : N ≤ 129 := by exact_mod_cast n2
  refine ⟨by exact_mod_cast (by omega : 0 < N), by exact_mod_cast (by omega : N ≤ 130), ?_, ?_⟩
  · refine pow_ge_of_log h2 N1 (by omega) ?_
    have k1 : 128 * (1 - 1 / 2 ^ 53) ≤ (N : ℚ) * x := by
      have : 128 / x * (1 - 1 / 2 ^ 53) ≤ N := b1.trans c1
      rw [div_mul_eq_mul_div, div_le_iff₀ x0] at this
      exact this
    have k2 : (128 * (1 - 1 / 2 ^ 53) : ℝ) ≤ (N : ℝ) * x := by
      have := (Rat.cast_le (K := ℝ)).mpr k1
      push_cast at this
      exact this
    have k3 : (N : ℝ) * (x - Real.logb 2 q) ≤ 129 * (1 / 2 ^ 40) := by
      have : (N : ℝ) ≤ 129 := by exact_mod_cast N2
      have h0 : (0 : ℝ) ≤ N := Nat.cast_nonneg _
      calc (N : ℝ) * (x - Real.logb 2 q) ≤ N * (1 / 2 ^ 40) := mul_le_mul_of_nonneg_left hx.2 h0
        _ ≤ 129 * (1 / 2 ^ 40) := mul_le_mul_of_nonneg_right this (by norm_num)
    norm_num at k2 k3 ⊢
    linarith
  · refine pow_le_of_log h2 hq (by omega) ?_
    obtain ⟨K, rfl⟩ : ∃ K, N = K + 1 := ⟨N - 1, by omega⟩
    rw [Nat.add_sub_cancel]
    push_cast at c2
    have k1 : (K : ℚ) * x ≤ 128 * (1 + 1 / 2 ^ 53) := by
      have : (K : ℚ) ≤ 128 / x * (1 + 1 / 2 ^ 53) := by linarith
      rw [div_mul_eq_mul_div, le_div_iff₀ x0] at this
      exact this
    have k2 : (K : ℝ) * x ≤ (128 * (1 + 1 / 2 ^ 53) : ℝ) := by
      have := (Rat.cast_le (K := ℝ)).mpr k1
      push_cast at this
      exact this
    have k3 : (K : ℝ) * (Real.logb 2 q - x) ≤ 129 * (1 / 2 ^ 40) := by
      have : (K : ℝ) ≤ 129 := by exact_mod_cast (by omega : K ≤ 129)
      have h0 : (0 : ℝ) ≤ K := Nat.cast_nonneg _
      calc (K : ℝ) * (Real.logb 2 q - x) ≤ K * (1 / 2 ^ 40) := mul_le_mul_of_nonneg_left (by linarith [hx.1]) h0
        _ ≤ 129 * (1 / 2 ^ 40) := mul_le_mul_of_nonneg_right this (by norm_num)
    norm_num at k2 k3 ⊢
    linarith

end Spasm
