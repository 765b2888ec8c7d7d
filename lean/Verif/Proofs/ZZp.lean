import Verif.Spec.ZZp
import Mathlib.Tactic.Linarith
import Mathlib.Tactic.Ring
import Mathlib.Tactic.FieldSimp
import Mathlib.Tactic.Positivity
import Mathlib.Algebra.Order.Floor.Ring
import Mathlib.Data.ZMod.Basic
import Mathlib.Tactic.NormNum.Pow

namespace Spasm

/-! ### Rounding -/

theorem pow2_eq (e : Int) : pow2 e = (2 : ℚ) ^ e := by
  unfold pow2
  split
  · rename_i h
    obtain ⟨n, rfl⟩ := Int.eq_ofNat_of_zero_le h
    simp
  · rename_i h
    obtain ⟨n, hn⟩ := Int.eq_ofNat_of_zero_le (show 0 ≤ -e by omega)
    have he : e = -(n : Int) := by omega
    subst he
    simp

theorem pow2_pos (e : Int) : 0 < pow2 e := by
  rw [pow2_eq]; exact zpow_pos (by norm_num) _

/-- the binade is a lower bound -/
theorem pow2_binade_le (x : ℚ) (hx : x ≠ 0) : pow2 (binade x) ≤ |x| := by
  unfold binade
  simp only
  split
  · assumption
  · rw [pow2_eq]
    have hn : x.num.natAbs ≠ 0 := by simpa using hx
    have hd : x.den ≠ 0 := x.den_nz
    have h1 : 2 ^ Nat.log2 x.num.natAbs ≤ x.num.natAbs := Nat.log2_self_le hn
    have h2 : x.den < 2 ^ (Nat.log2 x.den + 1) := Nat.lt_log2_self
    have habs : |x| = (x.num.natAbs : ℚ) / x.den := by
      rw [Rat.abs_def]
      exact Rat.divInt_eq_div _ _
    have h1' : (2 : ℚ) ^ Nat.log2 x.num.natAbs ≤ x.num.natAbs := by exact_mod_cast h1
    have h2' : (x.den : ℚ) ≤ 2 ^ (Nat.log2 x.den + 1) := by exact_mod_cast h2.le
    have hdpos : (0 : ℚ) < x.den := by exact_mod_cast Nat.pos_of_ne_zero hd
    rw [habs, le_div_iff₀ hdpos]
    have e : (2 : ℚ) ^ ((Nat.log2 x.num.natAbs : Int) - (Nat.log2 x.den : Int) - 1)
        * 2 ^ (Nat.log2 x.den + 1) = 2 ^ Nat.log2 x.num.natAbs := by
      rw [← zpow_natCast, ← zpow_natCast, ← zpow_add₀ (by norm_num)]
      congr 1
      push_cast
      ring
    calc (2 : ℚ) ^ ((Nat.log2 x.num.natAbs : Int) - (Nat.log2 x.den : Int) - 1) * x.den
        ≤ 2 ^ ((Nat.log2 x.num.natAbs : Int) - (Nat.log2 x.den : Int) - 1)
          * 2 ^ (Nat.log2 x.den + 1) := by
          exact mul_le_mul_of_nonneg_left h2' (zpow_pos (by norm_num) _).le
      _ = 2 ^ Nat.log2 x.num.natAbs := e
      _ ≤ _ := h1'

theorem nearestEven_err (x : ℚ) : |(nearestEven x : ℚ) - x| ≤ 1 / 2 := by
  unfold nearestEven
  have h1 := Int.floor_le x
  have h2 := Int.lt_floor_add_one x
  simp only
  split
  · rw [abs_le]; constructor <;> linarith
  · split
    · push_cast; rw [abs_le]; constructor <;> linarith
    · split
      · rw [abs_le]; constructor <;> linarith
      · push_cast; rw [abs_le]; constructor <;> linarith

theorem nearestEven_int (k : Int) : nearestEven (k : ℚ) = k := by
  unfold nearestEven
  simp

/-- Relative error of `rnd bits`. -/
theorem rnd_err (bits : Nat) (x : ℚ) : |rnd bits x - x| ≤ |x| / 2 ^ bits := by
  unfold rnd
  by_cases hx : x = 0
  · simp [hx]
  · simp only [hx, if_false]
    have hu := pow2_pos (binade x - bits + 1)
    have hb := pow2_binade_le x hx
    set u := pow2 (binade x - bits + 1) with hu_def
    have hn := nearestEven_err (x / u)
    have e : (nearestEven (x / u) : ℚ) * u - x = ((nearestEven (x / u) : ℚ) - x / u) * u := by
      field_simp
    rw [e, abs_mul, abs_of_pos hu]
    have hu2 : u / 2 = pow2 (binade x) / 2 ^ bits := by
      rw [hu_def, pow2_eq, pow2_eq]
      rw [zpow_add₀ (by norm_num), zpow_sub₀ (by norm_num)]
      simp only [zpow_natCast, zpow_one]
      field_simp
    calc |(nearestEven (x / u) : ℚ) - x / u| * u ≤ 1 / 2 * u := by
          apply mul_le_mul_of_nonneg_right hn hu.le
      _ = u / 2 := by ring
      _ = pow2 (binade x) / 2 ^ bits := hu2
      _ ≤ |x| / 2 ^ bits := by
          apply div_le_div_of_nonneg_right hb; positivity

/-- Integers below 2^bits are represented exactly. -/
theorem rnd_int_exact (bits : Nat) (k : Int) (hk : |k| < 2 ^ bits) : rnd bits (k : ℚ) = k := by
  unfold rnd
  by_cases hx : (k : ℚ) = 0
  · simp [hx]
  · simp only [hx, if_false]
    have hb := pow2_binade_le (k : ℚ) hx
    have hlt : binade (k : ℚ) - bits + 1 ≤ 0 := by
      by_contra hcon
      have hge : (bits : Int) ≤ binade (k : ℚ) := by omega
      have h1 : (2 : ℚ) ^ (bits : Int) ≤ 2 ^ binade (k : ℚ) :=
        zpow_le_zpow_right₀ (by norm_num) hge
      rw [pow2_eq] at hb
      have h2 : |(k : ℚ)| < 2 ^ bits := by exact_mod_cast hk
      rw [zpow_natCast] at h1
      linarith
    obtain ⟨n, hn⟩ := Int.eq_ofNat_of_zero_le (show 0 ≤ -(binade (k : ℚ) - bits + 1) by omega)
    have he : binade (k : ℚ) - bits + 1 = -(n : Int) := by omega
    have hne : (2 : ℚ) ^ n ≠ 0 := by positivity
    rw [he, pow2_eq]
    have e : (k : ℚ) / 2 ^ (-(n : Int)) = ((k * 2 ^ n : Int) : ℚ) := by
      rw [zpow_neg, zpow_natCast]; push_cast; field_simp
    rw [e, nearestEven_int]
    rw [zpow_neg, zpow_natCast]; push_cast; field_simp

theorem relErr_rnd53 : RelErr (rnd 53) := by
  intro x
  refine (rnd_err 53 x).trans ?_
  apply div_le_div_of_nonneg_left (abs_nonneg x) (by positivity)
  norm_num

theorem truncQ_err (x : ℚ) : |x - truncQ x| < 1 := by
  unfold truncQ
  split
  · have h1 := Int.floor_le x
    have h2 := Int.lt_floor_add_one x
    rw [abs_lt]; constructor <;> linarith
  · have h1 := Int.le_ceil x
    have h2 := Int.ceil_lt_add_one x
    rw [abs_lt]; constructor <;> linarith

theorem truncQ_abs_le (x : ℚ) : |(truncQ x : ℚ)| ≤ |x| := by
  unfold truncQ
  split
  · rename_i h
    have h1 := Int.floor_le x
    have h3 : (0 : ℚ) ≤ ⌊x⌋ := by exact_mod_cast Int.floor_nonneg.mpr h
    rw [abs_of_nonneg h3, abs_of_nonneg h]; exact h1
  · rename_i h
    have h1 := Int.le_ceil x
    have h3 : (⌈x⌉ : ℚ) ≤ 0 := by
      have : ⌈x⌉ ≤ 0 := Int.ceil_le.mpr (by push_cast; linarith)
      exact_mod_cast this
    rw [abs_of_nonpos h3, abs_of_neg (by linarith)]; linarith

/-! ### Field construction -/

theorem field_init_good (q : ℕ) (h2 : 2 ≤ q) (hm : q ≤ 0xfffffffb) :
    Ok (field_init q) (fun F => F.Good q) := by
  unfold field_init
  have hneg : ¬ ((q : Int) < 0) := by omega
  simp only [hneg, if_false, Ok_bind, Ok_cassert, Ok_ok]
  refine ⟨by simp; omega, by simp; omega, ?_⟩
  have hq : rnd 53 ((q : Int) : ℚ) = q := by
    have := rnd_int_exact 53 (q : Int) (by rw [abs_of_nonneg (by omega)]; omega)
    rw [this]; simp
  refine ⟨h2, hm, rfl, ?_, ?_, ?_⟩
  · simp [Int.tdiv_eq_ediv_of_nonneg]
  · simp [Int.tdiv_eq_ediv_of_nonneg]
  · simp only [hq]
    have := relErr_rnd53 (1 / (q : ℚ))
    rwa [abs_of_nonneg (show (0 : ℚ) ≤ 1 / (q : ℚ) by positivity)] at this

@[simp] theorem Ok_i64 (x : Int) (Q : Int → Prop) :
    Ok (i64 x) Q ↔ (-2^63 ≤ x ∧ x < 2^63) ∧ Q x := by
  unfold i64; split <;> simp_all

@[simp] theorem Ok_i32 (x : Int) (Q : Int → Prop) :
    Ok (i32 x) Q ↔ (-2^31 ≤ x ∧ x < 2^31) ∧ Q x := by
  unfold i32; split <;> simp_all

theorem toI32_eq (x : Int) (h1 : -2^31 ≤ x) (h2 : x < 2^31) : toI32 x = x := by
  unfold toI32
  apply Int.bmod_eq_of_le <;> omega

theorem Bal.small {q : ℕ} {r : Int} (h : Bal q r) : Small q r := by
  unfold Bal Small at *; omega

theorem Small.neg {q : ℕ} {r : Int} (h : Small q r) : Small q (-r) := by
  unfold Small at *; omega

theorem small_zero (q : ℕ) : Small q 0 := by unfold Small; omega
theorem bal_zero {q : ℕ} (h : 1 ≤ q) : Bal q 0 := by unfold Bal; omega
theorem small_one {q : ℕ} (h : 2 ≤ q) : Small q 1 := by unfold Small; omega

/-- What every arithmetic function returns: a balanced representative of `z`. -/
def Reps (q : ℕ) (z : Int) (r : Int) : Prop := Bal q r ∧ (q : Int) ∣ r - z

theorem normalise_spec {F : Field} {q : ℕ} (hF : F.Good q) (w z : Int)
    (hlo : (q : Int) / 2 - q + 1 - q ≤ w) (hhi : w ≤ (q : Int) / 2 + q) (hz : (q : Int) ∣ w - z) :
    Ok (NORMALISE F w) (Reps q z) := by
  have := hF.two_le; have := hF.le_max
  unfold NORMALISE
  rw [hF.p_eq, hF.halfp_eq, hF.mhalfp_eq]
  unfold Reps Bal
  split
  · simp only [Ok_bind, Ok_i64, Ok_ok]
    refine ⟨by omega, ?_⟩
    rw [toI32_eq _ (by omega) (by omega)]
    refine ⟨by omega, ?_⟩
    have e : w + (q : Int) - z = w - z + q := by ring
    rw [e]; exact dvd_add hz dvd_rfl
  · split
    · simp only [Ok_bind, Ok_i64, Ok_ok]
      refine ⟨by omega, ?_⟩
      rw [toI32_eq _ (by omega) (by omega)]
      refine ⟨by omega, ?_⟩
      have e : w - (q : Int) - z = w - z - q := by ring
      rw [e]; exact dvd_sub hz dvd_rfl
    · simp only [Ok_ok]
      rw [toI32_eq _ (by omega) (by omega)]
      exact ⟨by omega, hz⟩

theorem init_spec {F : Field} {q : ℕ} (hF : F.Good q) (x : Int) :
    Ok (ZZp_init F x) (Reps q x) := by
  have h2 := hF.two_le; have hm := hF.le_max
  unfold ZZp_init
  rw [if_neg (by rw [hF.p_eq]; omega), hF.p_eq]
  have hlt : |Int.tmod x q| < q := by
    have := Int.tmod_lt_of_pos x (show (0 : Int) < q by omega)
    have h' := Int.tmod_lt_of_pos (-x) (show (0 : Int) < q by omega)
    rw [Int.neg_tmod] at h'
    rw [abs_lt]; omega
  rw [abs_lt] at hlt
  apply normalise_spec hF
  · omega
  · omega
  · have := Int.mul_tdiv_add_tmod x q
    exact ⟨-(Int.tdiv x q), by rw [mul_neg]; omega⟩

theorem add_spec {F : Field} {q : ℕ} (hF : F.Good q) {a b : Int} (ha : Small q a)
    (hb : Small q b) : Ok (ZZp_add F a b) (Reps q (a + b)) := by
  have := hF.two_le; have := hF.le_max
  unfold Small at ha hb
  unfold ZZp_add
  simp only [Ok_bind, Ok_i64]
  refine ⟨by omega, ?_⟩
  apply normalise_spec hF _ _ (by omega) (by omega)
  simp

theorem sub_spec {F : Field} {q : ℕ} (hF : F.Good q) {a b : Int} (ha : Small q a)
    (hb : Small q b) : Ok (ZZp_sub F a b) (Reps q (a - b)) := by
  have := hF.two_le; have := hF.le_max
  unfold Small at ha hb
  unfold ZZp_sub
  simp only [Ok_bind, Ok_i64]
  refine ⟨by omega, ?_⟩
  apply normalise_spec hF _ _ (by omega) (by omega)
  simp

theorem neg_spec {F : Field} {q : ℕ} (hF : F.Good q) {a : Int} (ha : Small q a)
    (Q : Int → Prop) (h : Q (-a)) : Ok (ZZp_neg a) Q := by
  have := hF.two_le; have := hF.le_max
  unfold Small at ha
  unfold ZZp_neg
  simp only [Ok_i32]
  exact ⟨by omega, h⟩

/-- The heart of `mul` and `axpy`: a quotient estimate within 1/2 of the exact quotient is
good enough. -/
theorem quotient_core {q : ℕ} (h2 : 2 ≤ q) (z : Int) (d : ℚ)
    (hd : |d - (z : ℚ) / q| ≤ 1 / 2) :
    (q : Int) / 2 - q + 1 - q ≤ z - truncQ d * q ∧ z - truncQ d * q ≤ (q : Int) / 2 + q ∧
    |truncQ d * q| ≤ |z| + q := by
  have hq : (0 : ℚ) < q := by exact_mod_cast (by omega : 0 < q)
  have ht := truncQ_err d
  have hta := truncQ_abs_le d
  rw [abs_lt] at ht
  rw [abs_le] at hd
  have hzq : (z : ℚ) / q * q = z := by field_simp
  -- bounds on w / q
  have hup : (z : ℚ) - truncQ d * q < 3 / 2 * q := by
    have : ((z : ℚ) / q - truncQ d) * q < 3 / 2 * q := by
      apply mul_lt_mul_of_pos_right _ hq; linarith
    rw [sub_mul, hzq] at this; exact this
  have hlo : -(3 / 2 * q) < (z : ℚ) - truncQ d * q := by
    have : -(3 / 2) * q < ((z : ℚ) / q - truncQ d) * q := by
      apply mul_lt_mul_of_pos_right _ hq; linarith
    rw [sub_mul, hzq] at this; linarith
  have hup' : 2 * (z - truncQ d * q) < 3 * (q : Int) := by
    have : (2 : ℚ) * (z - truncQ d * q) < 3 * q := by linarith
    exact_mod_cast this
  have hlo' : -(3 * (q : Int)) < 2 * (z - truncQ d * q) := by
    have : -(3 * (q : ℚ)) < 2 * (z - truncQ d * q) := by linarith
    exact_mod_cast this
  refine ⟨by omega, by omega, ?_⟩
  have habs : |d| ≤ |(z : ℚ)| / q + 1 := by
    have h1 : |(z : ℚ)| / q = |(z : ℚ) / q| := by rw [abs_div, abs_of_pos hq]
    rw [h1]
    have h3 := abs_sub_abs_le_abs_sub d ((z : ℚ) / q)
    have h4 : |d - (z : ℚ) / q| ≤ 1 / 2 := abs_le.mpr hd
    linarith
  have : |(truncQ d : ℚ)| * q ≤ |(z : ℚ)| + q := by
    calc |(truncQ d : ℚ)| * q ≤ (|(z : ℚ)| / q + 1) * q := by
          apply mul_le_mul_of_nonneg_right _ hq.le; linarith
      _ = |(z : ℚ)| + q := by field_simp
  have e : (|truncQ d * q| : Int) = |truncQ d| * q := by
    rw [abs_mul]; simp
  rw [e]
  exact_mod_cast this

/-- Error analysis of the quotient estimate: `t` approximates `z` with error `2 ε q²`. -/
theorem estimate_err {F : Field} {q : ℕ} (hF : F.Good q) {r : ℚ → ℚ} (hr : RelErr r)
    (z : Int) (t : ℚ) (hz : |(z : ℚ)| ≤ (q : ℚ) ^ 2 / 2)
    (ht : |t - z| ≤ 2 * (q : ℚ) ^ 2 / 2 ^ 52) :
    |r (t * F.dinvp) - (z : ℚ) / q| ≤ 1 / 2 := by
  have h2 : (2 : ℚ) ≤ q := by exact_mod_cast hF.two_le
  have hm : (q : ℚ) ≤ 0xfffffffb := by exact_mod_cast hF.le_max
  have hq : (0 : ℚ) < q := by linarith
  have hdi := hF.dinvp_err
  set ε : ℚ := 1 / 2 ^ 52 with hε
  have hεpos : 0 < ε := by positivity
  have hdi' : |F.dinvp - 1 / (q : ℚ)| ≤ ε / q := by
    refine hdi.trans (le_of_eq ?_); rw [hε]; field_simp
  have ht' : |t - z| ≤ 2 * ε * (q : ℚ) ^ 2 := by
    refine ht.trans (le_of_eq ?_); rw [hε]; field_simp
  have hεsmall : 2 * ε ≤ 1 / 2 := by rw [hε]; norm_num
  have hq2 : (0 : ℚ) ≤ (q : ℚ) ^ 2 := by positivity
  have htabs : |t| ≤ (q : ℚ) ^ 2 := by
    have h3 := abs_sub_abs_le_abs_sub t (z : ℚ)
    nlinarith
  -- error of t * dinvp
  have e1 : |t * F.dinvp - (z : ℚ) / q| ≤ 3 * ε * q := by
    have : t * F.dinvp - (z : ℚ) / q = t * (F.dinvp - 1 / q) + (t - z) * (1 / q) := by
      field_simp; ring
    rw [this]
    refine (abs_add_le _ _).trans ?_
    rw [abs_mul, abs_mul, abs_of_pos (show (0 : ℚ) < 1 / q by positivity)]
    have a1 : |t| * |F.dinvp - 1 / (q : ℚ)| ≤ (q : ℚ) ^ 2 * (ε / q) :=
      mul_le_mul htabs hdi' (abs_nonneg _) hq2
    have a2 : |t - z| * (1 / (q : ℚ)) ≤ 2 * ε * (q : ℚ) ^ 2 * (1 / q) :=
      mul_le_mul_of_nonneg_right ht' (by positivity)
    have a3 : (q : ℚ) ^ 2 * (ε / q) = ε * q := by field_simp
    have a4 : 2 * ε * (q : ℚ) ^ 2 * (1 / q) = 2 * ε * q := by field_simp
    linarith
  have habs : |t * F.dinvp| ≤ q := by
    have h3 := abs_sub_abs_le_abs_sub (t * F.dinvp) ((z : ℚ) / q)
    have h4 : |(z : ℚ) / q| ≤ q / 2 := by
      rw [abs_div, abs_of_pos hq, div_le_iff₀ hq]
      calc |(z : ℚ)| ≤ (q : ℚ) ^ 2 / 2 := hz
        _ = q / 2 * q := by ring
    have h5 : 3 * ε * q ≤ q / 2 := by nlinarith [show 3 * ε ≤ 1 / 2 by rw [hε]; norm_num]
    linarith
  have e2 := hr (t * F.dinvp)
  have e3 : |t * F.dinvp| / 2 ^ 52 ≤ ε * q := by
    have : |t * F.dinvp| / 2 ^ 52 = ε * |t * F.dinvp| := by rw [hε]; ring
    rw [this]; exact mul_le_mul_of_nonneg_left habs hεpos.le
  have e4 : |r (t * F.dinvp) - (z : ℚ) / q| ≤ 4 * ε * q := by
    have : r (t * F.dinvp) - (z : ℚ) / q
        = (r (t * F.dinvp) - t * F.dinvp) + (t * F.dinvp - (z : ℚ) / q) := by ring
    rw [this]
    refine (abs_add_le _ _).trans ?_
    linarith
  refine e4.trans ?_
  have : 4 * ε * q ≤ 4 * ε * 0xfffffffb := by
    apply mul_le_mul_of_nonneg_left hm; positivity
  refine this.trans ?_
  rw [hε]; norm_num

theorem small_bound {q : ℕ} {a b : Int} (ha : Small q a) (hb : Small q b) :
    |(a : ℚ) * b| ≤ (q : ℚ) ^ 2 / 4 ∧ |(b : ℚ)| ≤ q / 2 := by
  have key : ∀ c : Int, Small q c → |(c : ℚ)| ≤ q / 2 := by
    intro c hc
    unfold Small at hc
    have h1 : 2 * c ≤ q := by omega
    have h2 : -(q : Int) ≤ 2 * c := by omega
    have h1' : (2 : ℚ) * c ≤ q := by exact_mod_cast h1
    have h2' : -(q : ℚ) ≤ 2 * c := by exact_mod_cast h2
    rw [abs_le]; constructor <;> linarith
  refine ⟨?_, key b hb⟩
  rw [abs_mul]
  calc |(a : ℚ)| * |(b : ℚ)| ≤ (q / 2) * (q / 2) :=
        mul_le_mul (key a ha) (key b hb) (abs_nonneg _) (by positivity)
    _ = (q : ℚ) ^ 2 / 4 := by ring

theorem int_bound_of_rat {q : ℕ} (hm : q ≤ 0xfffffffb) (z : Int)
    (hz : |(z : ℚ)| ≤ (q : ℚ) ^ 2 / 4 + q / 2) : |z| ≤ 2 ^ 62 + 2 ^ 31 := by
  have hm' : (q : ℚ) ≤ 0xfffffffb := by exact_mod_cast hm
  have hq0 : (0 : ℚ) ≤ q := by positivity
  have : |(z : ℚ)| ≤ 2 ^ 62 + 2 ^ 31 := by
    refine hz.trans ?_
    have : (q : ℚ) ^ 2 ≤ 0xfffffffb ^ 2 := by
      apply pow_le_pow_left₀ hq0 hm'
    norm_num at this ⊢
    linarith
  exact_mod_cast this

theorem finish_spec {F : Field} {q : ℕ} (hF : F.Good q) (z : Int) (d : ℚ)
    (hz : |z| ≤ 2 ^ 62 + 2 ^ 31) (hd : |d - (z : ℚ) / q| ≤ 1 / 2) :
    (-2^63 ≤ truncQ d ∧ truncQ d < 2^63) ∧
    (-2^63 ≤ truncQ d * F.p ∧ truncQ d * F.p < 2^63) ∧
    (-2^63 ≤ z - truncQ d * F.p ∧ z - truncQ d * F.p < 2^63) ∧
    Ok (NORMALISE F (z - truncQ d * F.p)) (Reps q z) := by
  have h2 := hF.two_le; have hm := hF.le_max
  obtain ⟨k1, k2, k3⟩ := quotient_core h2 z d hd
  rw [hF.p_eq]
  have hq : (0 : Int) < q := by omega
  have k4 : |truncQ d| ≤ |truncQ d * q| := by
    rw [abs_mul, abs_of_pos hq]
    exact le_mul_of_one_le_right (abs_nonneg _) (by omega)
  have k5 : |truncQ d * q| ≤ 2 ^ 62 + 2 ^ 31 + 2 ^ 32 := by omega
  rw [abs_le] at k5
  have k6 : |truncQ d| ≤ 2 ^ 62 + 2 ^ 31 + 2 ^ 32 := by
    refine k4.trans ?_; rw [abs_le]; exact k5
  rw [abs_le] at k6
  refine ⟨by omega, by omega, by omega, ?_⟩
  apply normalise_spec hF _ _ k1 k2
  exact ⟨-truncQ d, by ring⟩

theorem mulR_spec {F : Field} {q : ℕ} (hF : F.Good q) {r : ℚ → ℚ} (hr : RelErr r) {a b : Int}
    (ha : Small q a) (hb : Small q b) : Ok (ZZp_mulR r F a b) (Reps q (a * b)) := by
  have h2 : (2 : ℚ) ≤ q := by exact_mod_cast hF.two_le
  obtain ⟨hab, -⟩ := small_bound ha hb
  have hzq : |((a * b : Int) : ℚ)| ≤ (q : ℚ) ^ 2 / 4 := by push_cast; exact hab
  have hz : |a * b| ≤ 2 ^ 62 + 2 ^ 31 := int_bound_of_rat hF.le_max _ (by linarith)
  have hd := estimate_err hF hr (a * b) (r ((a : ℚ) * b)) (by nlinarith)
    (by
      push_cast
      refine (hr _).trans ?_
      rw [div_le_div_iff_of_pos_right (by positivity)]
      nlinarith)
  obtain ⟨f1, f2, f3, f4⟩ := finish_spec hF (a * b) _ hz hd
  rw [abs_le] at hz
  unfold ZZp_mulR d2i
  simp only [Ok_bind, Ok_i64]
  exact ⟨f1, by omega, f2, f3, f4⟩

theorem axpy_z {F : Field} {q : ℕ} (hF : F.Good q) {a x y : Int}
    (ha : Small q a) (hx : Small q x) (hy : Small q y) :
    |((a * x + y : Int) : ℚ)| ≤ (q : ℚ) ^ 2 / 4 + q / 2 ∧ |(a : ℚ) * x| ≤ (q : ℚ) ^ 2 / 4 ∧
    |(y : ℚ)| ≤ q / 2 ∧ (q : ℚ) ^ 2 / 4 + q / 2 ≤ (q : ℚ) ^ 2 / 2 := by
  have h2 : (2 : ℚ) ≤ q := by exact_mod_cast hF.two_le
  obtain ⟨h1, -⟩ := small_bound ha hx
  obtain ⟨-, h3⟩ := small_bound ha hy
  refine ⟨?_, h1, h3, by nlinarith⟩
  push_cast
  exact (abs_add_le _ _).trans (by linarith)

theorem axpyR_spec {F : Field} {q : ℕ} (hF : F.Good q) {r : ℚ → ℚ} (hr : RelErr r)
    {a x y : Int} (ha : Small q a) (hx : Small q x) (hy : Small q y) :
    Ok (ZZp_axpyR r F a x y) (Reps q (a * x + y)) := by
  have h2 : (2 : ℚ) ≤ q := by exact_mod_cast hF.two_le
  obtain ⟨hzq, hax, hyq, hq2⟩ := axpy_z hF ha hx hy
  have hz : |a * x + y| ≤ 2 ^ 62 + 2 ^ 31 := int_bound_of_rat hF.le_max _ hzq
  have hz2 : |a * x| ≤ 2 ^ 62 + 2 ^ 31 := by
    apply int_bound_of_rat hF.le_max
    push_cast; linarith
  have hsq : (0 : ℚ) ≤ (q : ℚ) ^ 2 := by positivity
  have hd := estimate_err hF hr (a * x + y) (r (r ((a : ℚ) * x) + y)) (hzq.trans hq2)
    (by
      set ε : ℚ := 1 / 2 ^ 52 with hε
      have hεs : ε ≤ 1 / 4 := by rw [hε]; norm_num
      have hε0 : 0 < ε := by rw [hε]; positivity
      have b1 : |r ((a : ℚ) * x) - a * x| ≤ ε * ((q : ℚ) ^ 2 / 4) := by
        have := hr ((a : ℚ) * x)
        have e : |(a : ℚ) * x| / 2 ^ 52 = ε * |(a : ℚ) * x| := by rw [hε]; ring
        rw [e] at this
        exact this.trans (mul_le_mul_of_nonneg_left hax hε0.le)
      have b2 : |r ((a : ℚ) * x) + y - ((a * x + y : Int) : ℚ)| ≤ ε * ((q : ℚ) ^ 2 / 4) := by
        push_cast
        have e : r ((a : ℚ) * x) + y - (a * x + y) = r ((a : ℚ) * x) - a * x := by ring
        rw [e]; exact b1
      have b3 : |r ((a : ℚ) * x) + y| ≤ (q : ℚ) ^ 2 := by
        have h3 := abs_sub_abs_le_abs_sub (r ((a : ℚ) * x) + y) ((a * x + y : Int) : ℚ)
        nlinarith
      have b4 := hr (r ((a : ℚ) * x) + y)
      have b5 : |r ((a : ℚ) * x) + (y : ℚ)| / 2 ^ 52 ≤ ε * (q : ℚ) ^ 2 := by
        have e : |r ((a : ℚ) * x) + (y : ℚ)| / 2 ^ 52 = ε * |r ((a : ℚ) * x) + y| := by
          rw [hε]; ring
        rw [e]; exact mul_le_mul_of_nonneg_left b3 hε0.le
      have e : 2 * (q : ℚ) ^ 2 / 2 ^ 52 = 2 * ε * (q : ℚ) ^ 2 := by rw [hε]; ring
      rw [e]
      have e6 : r (r ((a : ℚ) * x) + y) - ((a * x + y : Int) : ℚ)
          = (r (r ((a : ℚ) * x) + y) - (r ((a : ℚ) * x) + y))
            + (r ((a : ℚ) * x) + y - ((a * x + y : Int) : ℚ)) := by ring
      rw [e6]
      refine (abs_add_le _ _).trans ?_
      have : 0 ≤ ε * (q : ℚ) ^ 2 := by positivity
      exact (add_le_add (b4.trans b5) b2).trans (by nlinarith))
  obtain ⟨f1, f2, f3, f4⟩ := finish_spec hF (a * x + y) _ hz hd
  rw [abs_le] at hz hz2
  unfold ZZp_axpyR d2i
  simp only [Ok_bind, Ok_i64]
  exact ⟨f1, by omega, by omega, f2, f3, f4⟩

theorem axpyFma_spec {F : Field} {q : ℕ} (hF : F.Good q) {r : ℚ → ℚ} (hr : RelErr r)
    {a x y : Int} (ha : Small q a) (hx : Small q x) (hy : Small q y) :
    Ok (ZZp_axpyFma r F a x y) (Reps q (a * x + y)) := by
  have h2 : (2 : ℚ) ≤ q := by exact_mod_cast hF.two_le
  obtain ⟨hzq, hax, hyq, hq2⟩ := axpy_z hF ha hx hy
  have hz : |a * x + y| ≤ 2 ^ 62 + 2 ^ 31 := int_bound_of_rat hF.le_max _ hzq
  have hz2 : |a * x| ≤ 2 ^ 62 + 2 ^ 31 := by
    apply int_bound_of_rat hF.le_max
    push_cast; linarith
  have hsq : (0 : ℚ) ≤ (q : ℚ) ^ 2 := by positivity
  have hd := estimate_err hF hr (a * x + y) (r ((a : ℚ) * x + y)) (hzq.trans hq2)
    (by
      push_cast at hzq ⊢
      refine (hr _).trans ?_
      rw [div_le_div_iff_of_pos_right (by positivity)]
      nlinarith)
  obtain ⟨f1, f2, f3, f4⟩ := finish_spec hF (a * x + y) _ hz hd
  rw [abs_le] at hz hz2
  unfold ZZp_axpyFma d2i
  simp only [Ok_bind, Ok_i64]
  exact ⟨f1, by omega, by omega, f2, f3, f4⟩

theorem mul_spec {F : Field} {q : ℕ} (hF : F.Good q) {a b : Int}
    (ha : Small q a) (hb : Small q b) : Ok (ZZp_mul F a b) (Reps q (a * b)) :=
  mulR_spec hF relErr_rnd53 ha hb

theorem axpy_spec {F : Field} {q : ℕ} (hF : F.Good q)
    {a x y : Int} (ha : Small q a) (hx : Small q x) (hy : Small q y) :
    Ok (ZZp_axpy F a x y) (Reps q (a * x + y)) :=
  axpyR_spec hF relErr_rnd53 ha hx hy

/-! ### Wide multipliers

`spasm_ZZp_axpy` is also correct when its first argument is an arbitrary `int`. -/

/-- Any value of type `int`. -/
def Wide (a : Int) : Prop := -2^31 ≤ a ∧ a ≤ 2^31

theorem Small.wide {F : Field} {q : ℕ} (hF : F.Good q) {a : Int} (h : Small q a) : Wide a := by
  have := hF.le_max
  unfold Small at h
  unfold Wide
  omega

theorem estimate_err_wide {F : Field} {q : ℕ} (hF : F.Good q) {r : ℚ → ℚ} (hr : RelErr r)
    (z : Int) (t : ℚ) (hz : |(z : ℚ)| ≤ 2 ^ 31 * q) (ht : |t - z| ≤ 2 ^ 32 * (q : ℚ) / 2 ^ 52) :
    |r (t * F.dinvp) - (z : ℚ) / q| ≤ 1 / 2 := by
  have h2 : (2 : ℚ) ≤ q := by exact_mod_cast hF.two_le
  have hq : (0 : ℚ) < q := by linarith
  have hdi := hF.dinvp_err
  set ε : ℚ := 1 / 2 ^ 52 with hε
  have hεpos : 0 < ε := by positivity
  have hdi' : |F.dinvp - 1 / (q : ℚ)| ≤ ε / q := by
    refine hdi.trans (le_of_eq ?_); rw [hε]; field_simp
  have ht' : |t - z| ≤ 2 ^ 32 * ε * q := by
    refine ht.trans (le_of_eq ?_); rw [hε]; field_simp
  have hεsmall : 2 ^ 32 * ε ≤ 2 ^ 31 := by rw [hε]; norm_num
  have htabs : |t| ≤ 2 ^ 32 * q := by
    have h3 := abs_sub_abs_le_abs_sub t (z : ℚ)
    nlinarith
  have e1 : |t * F.dinvp - (z : ℚ) / q| ≤ 2 ^ 33 * ε := by
    have : t * F.dinvp - (z : ℚ) / q = t * (F.dinvp - 1 / q) + (t - z) * (1 / q) := by
      field_simp; ring
    rw [this]
    refine (abs_add_le _ _).trans ?_
    rw [abs_mul, abs_mul, abs_of_pos (show (0 : ℚ) < 1 / q by positivity)]
    have a1 : |t| * |F.dinvp - 1 / (q : ℚ)| ≤ 2 ^ 32 * (q : ℚ) * (ε / q) :=
      mul_le_mul htabs hdi' (abs_nonneg _) (by positivity)
    have a2 : |t - z| * (1 / (q : ℚ)) ≤ 2 ^ 32 * ε * q * (1 / q) :=
      mul_le_mul_of_nonneg_right ht' (by positivity)
    have a3 : 2 ^ 32 * (q : ℚ) * (ε / q) = 2 ^ 32 * ε := by field_simp
    have a4 : 2 ^ 32 * ε * (q : ℚ) * (1 / q) = 2 ^ 32 * ε := by field_simp
    linarith
  have habs : |t * F.dinvp| ≤ 2 ^ 32 := by
    have h3 := abs_sub_abs_le_abs_sub (t * F.dinvp) ((z : ℚ) / q)
    have h4 : |(z : ℚ) / q| ≤ 2 ^ 31 := by
      rw [abs_div, abs_of_pos hq, div_le_iff₀ hq]; exact hz
    have h5 : 2 ^ 33 * ε ≤ 1 := by rw [hε]; norm_num
    linarith
  have e2 := hr (t * F.dinvp)
  have e3 : |t * F.dinvp| / 2 ^ 52 ≤ 2 ^ 32 * ε := by
    have : |t * F.dinvp| / 2 ^ 52 = |t * F.dinvp| * ε := by rw [hε]; ring
    rw [this]; exact mul_le_mul_of_nonneg_right habs hεpos.le
  have e4 : |r (t * F.dinvp) - (z : ℚ) / q| ≤ 2 ^ 34 * ε := by
    have : r (t * F.dinvp) - (z : ℚ) / q
        = (r (t * F.dinvp) - t * F.dinvp) + (t * F.dinvp - (z : ℚ) / q) := by ring
    rw [this]
    refine (abs_add_le _ _).trans ?_
    linarith
  refine e4.trans ?_
  rw [hε]; norm_num

theorem axpyR_wide {F : Field} {q : ℕ} (hF : F.Good q) {r : ℚ → ℚ} (hr : RelErr r)
    {a x y : Int} (ha : Wide a) (hx : Small q x) (hy : Small q y) :
    Ok (ZZp_axpyR r F a x y) (Reps q (a * x + y)) := by
  have h2 : (2 : ℚ) ≤ q := by exact_mod_cast hF.two_le
  have hmx := hF.le_max
  obtain ⟨-, hxq⟩ := small_bound hy hx
  obtain ⟨-, hyq⟩ := small_bound hx hy
  have haq : |(a : ℚ)| ≤ 2 ^ 31 := by
    unfold Wide at ha
    have h1 : (a : ℚ) ≤ 2 ^ 31 := by exact_mod_cast ha.2
    have h3 : -2 ^ 31 ≤ (a : ℚ) := by exact_mod_cast ha.1
    rw [abs_le]; exact ⟨h3, h1⟩
  have hax : |(a : ℚ) * x| ≤ 2 ^ 30 * q := by
    rw [abs_mul]
    calc |(a : ℚ)| * |(x : ℚ)| ≤ 2 ^ 31 * (q / 2) := mul_le_mul haq hxq (abs_nonneg _) (by positivity)
      _ = 2 ^ 30 * q := by ring
  have hzq : |((a * x + y : Int) : ℚ)| ≤ 2 ^ 30 * q + q / 2 := by
    push_cast
    exact (abs_add_le _ _).trans (by linarith)
  have hmq : (q : ℚ) ≤ 2 ^ 32 := by
    have : (q : ℚ) ≤ 0xfffffffb := by exact_mod_cast hmx
    exact this.trans (by norm_num)
  have hz : |a * x + y| ≤ 2 ^ 62 + 2 ^ 31 := by
    have : |((a * x + y : Int) : ℚ)| ≤ 2 ^ 62 + 2 ^ 31 := hzq.trans (by linarith)
    exact_mod_cast this
  have hz2 : |a * x| ≤ 2 ^ 62 + 2 ^ 31 := by
    have : |((a * x : Int) : ℚ)| ≤ 2 ^ 62 + 2 ^ 31 := by
      push_cast
      exact hax.trans (by linarith)
    exact_mod_cast this
  have hd := estimate_err_wide hF hr (a * x + y) (r (r ((a : ℚ) * x) + y)) (hzq.trans (by linarith))
    (by
      set ε : ℚ := 1 / 2 ^ 52 with hε
      have hεs : ε ≤ 1 / 4 := by rw [hε]; norm_num
      have hε0 : 0 < ε := by rw [hε]; positivity
      have b1 : |r ((a : ℚ) * x) - a * x| ≤ ε * (2 ^ 30 * q) := by
        have := hr ((a : ℚ) * x)
        have e : |(a : ℚ) * x| / 2 ^ 52 = ε * |(a : ℚ) * x| := by rw [hε]; ring
        rw [e] at this
        exact this.trans (mul_le_mul_of_nonneg_left hax hε0.le)
      have b2 : |r ((a : ℚ) * x) + y - ((a * x + y : Int) : ℚ)| ≤ ε * (2 ^ 30 * q) := by
        push_cast
        have e : r ((a : ℚ) * x) + y - (a * x + y) = r ((a : ℚ) * x) - a * x := by ring
        rw [e]; exact b1
      have b3 : |r ((a : ℚ) * x) + y| ≤ 2 ^ 31 * q := by
        have h3 := abs_sub_abs_le_abs_sub (r ((a : ℚ) * x) + y) ((a * x + y : Int) : ℚ)
        have h4 : ε * (2 ^ 30 * q) ≤ 1 / 4 * (2 ^ 30 * q) := mul_le_mul_of_nonneg_right hεs (by positivity)
        have h5 := sub_le_iff_le_add.mp (h3.trans (b2.trans h4))
        refine h5.trans ((add_le_add le_rfl hzq).trans ?_)
        linarith
      have b4 := hr (r ((a : ℚ) * x) + y)
      have b5 : |r ((a : ℚ) * x) + (y : ℚ)| / 2 ^ 52 ≤ ε * (2 ^ 31 * q) := by
        have e : |r ((a : ℚ) * x) + (y : ℚ)| / 2 ^ 52 = ε * |r ((a : ℚ) * x) + y| := by
          rw [hε]; ring
        rw [e]; exact mul_le_mul_of_nonneg_left b3 hε0.le
      have e : 2 ^ 32 * (q : ℚ) / 2 ^ 52 = ε * (2 ^ 32 * (q : ℚ)) := by rw [hε]; ring
      rw [e]
      have e6 : r (r ((a : ℚ) * x) + y) - ((a * x + y : Int) : ℚ)
          = (r (r ((a : ℚ) * x) + y) - (r ((a : ℚ) * x) + y))
            + (r ((a : ℚ) * x) + y - ((a * x + y : Int) : ℚ)) := by ring
      rw [e6]
      refine (abs_add_le _ _).trans ?_
      have : 0 ≤ ε * (q : ℚ) := by positivity
      exact (add_le_add (b4.trans b5) b2).trans (by nlinarith))
  obtain ⟨f1, f2, f3, f4⟩ := finish_spec hF (a * x + y) _ hz hd
  rw [abs_le] at hz hz2
  unfold ZZp_axpyR d2i
  simp only [Ok_bind, Ok_i64]
  exact ⟨f1, by omega, by omega, f2, f3, f4⟩

theorem axpy_wide {F : Field} {q : ℕ} (hF : F.Good q) {a x y : Int} (ha : Wide a) (hx : Small q x)
    (hy : Small q y) : Ok (ZZp_axpy F a x y) (Reps q (a * x + y)) :=
  axpyR_wide hF relErr_rnd53 ha hx hy

end Spasm
