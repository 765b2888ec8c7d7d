import Verif.Spec.Gray
import Verif.Proofs.Pnm
import Verif.Proofs.Rounding

/-! Gray images. -/

namespace Spasm

/-! ### Levels -/

/-- The fraction of the largest number of entries. -/
def grayRatio (v mx : Int) : ℚ := rnd 53 ((v : ℚ) / mx)

/-- The argument of `exp`. -/
def grayArg (l : ℚ → ℚ) (v mx : Int) : ℚ := rnd 53 (rnd 53 (1 / 10) * l (grayRatio v mx))

/-- The intensity. -/
def grayInt (l e : ℚ → ℚ) (v mx : Int) : ℚ := rnd 53 (1 - if v = 0 then 0 else e (grayArg l v mx))

/-- The level. -/
def grayLevel (l e : ℚ → ℚ) (v mx : Int) : Int := nearestEven (rnd 53 (255 * grayInt l e v mx))

theorem rnd53_zero : rnd 53 0 = 0 := by simp [rnd]

theorem rnd53_one : rnd 53 1 = 1 := by
  have := rnd_int_exact 53 1 (by norm_num)
  simpa using this

theorem tenth_pos : 0 < rnd 53 (1 / 10) :=
  lt_of_le_of_ne (rnd_nonneg 53 (by norm_num)) (fun h => by
    have := (rnd_eq_zero 53 (by norm_num)).mp h.symm
    norm_num at this)

section
variable {M : LibM} {l e : ℚ → ℚ} (hM : M.Good l e) {v mx : Int} (hmx : 0 < mx)

include hmx in
theorem grayRatio_pos (hv : 0 < v) : 0 < grayRatio v mx := by
  have hq : (0 : ℚ) < (v : ℚ) / mx := by
    have : (0 : ℚ) < v := by exact_mod_cast hv
    have : (0 : ℚ) < mx := by exact_mod_cast hmx
    positivity
  exact lt_of_le_of_ne (rnd_nonneg 53 hq.le) (fun h => hq.ne' ((rnd_eq_zero 53 (by norm_num)).mp h.symm))

include hmx in
theorem grayRatio_le (hle : v ≤ mx) : grayRatio v mx ≤ 1 := by
  have h1 : (v : ℚ) / mx ≤ 1 := by
    rw [div_le_one (by exact_mod_cast hmx)]; exact_mod_cast hle
  have := rnd_mono 53 (by norm_num) h1
  rwa [rnd53_one] at this

include hM hmx

theorem grayArg_nonpos (hv : 0 < v) (hle : v ≤ mx) : grayArg l v mx ≤ 0 := by
  have h1 := hM.log_mono _ 1 (grayRatio_pos hmx hv) (grayRatio_le hmx hle) le_rfl
  rw [hM.log_one] at h1
  have h2 : rnd 53 (1 / 10) * l (grayRatio v mx) ≤ 0 := mul_nonpos_of_nonneg_of_nonpos tenth_pos.le h1
  have := rnd_mono 53 (by norm_num) h2
  rwa [rnd53_zero] at this

theorem grayArg_mono {v' : Int} (hv : 0 < v) (h : v ≤ v') (hle : v' ≤ mx) : grayArg l v mx ≤ grayArg l v' mx := by
  refine rnd_mono 53 (by norm_num) (mul_le_mul_of_nonneg_left ?_ tenth_pos.le)
  refine hM.log_mono _ _ (grayRatio_pos hmx hv) (rnd_mono 53 (by norm_num) ?_) (grayRatio_le hmx hle)
  have : (0 : ℚ) < mx := by exact_mod_cast hmx
  exact div_le_div_of_nonneg_right (by exact_mod_cast h) this.le

theorem grayInt_range (hv : 0 ≤ v) (hle : v ≤ mx) : 0 ≤ grayInt l e v mx ∧ grayInt l e v mx ≤ 1 := by
  unfold grayInt
  rcases hv.eq_or_lt with h0 | h0
  · subst h0
    simp [rnd53_one]
  · rw [if_neg h0.ne']
    have hn := grayArg_nonpos hM hmx h0 hle
    have h1 := hM.exp_nonneg _ hn
    have h2 := hM.exp_mono _ 0 hn le_rfl
    rw [hM.exp_zero] at h2
    have a := rnd_mono 53 (by norm_num) (x := 0) (y := 1 - e (grayArg l v mx)) (by linarith)
    have b := rnd_mono 53 (by norm_num) (x := 1 - e (grayArg l v mx)) (y := 1) (by linarith)
    rw [rnd53_zero] at a
    rw [rnd53_one] at b
    exact ⟨a, b⟩

theorem grayInt_anti {v' : Int} (hv : 0 ≤ v) (h : v ≤ v') (hle : v' ≤ mx) : grayInt l e v' mx ≤ grayInt l e v mx := by
  rcases hv.eq_or_lt with h0 | h0
  · have := (grayInt_range hM hmx (le_trans hv h) hle).2
    subst h0
    simpa [grayInt, rnd53_one] using this
  · unfold grayInt
    rw [if_neg h0.ne', if_neg (by omega)]
    refine rnd_mono 53 (by norm_num) ?_
    have := hM.exp_mono _ _ (grayArg_mono hM hmx h0 h hle) (grayArg_nonpos hM hmx (by omega) hle)
    linarith

theorem grayLevel_range (hv : 0 ≤ v) (hle : v ≤ mx) : 0 ≤ grayLevel l e v mx ∧ grayLevel l e v mx ≤ 255 := by
  obtain ⟨h1, h2⟩ := grayInt_range hM hmx hv hle
  unfold grayLevel
  refine ⟨nearestEven_nonneg _ (rnd_nonneg 53 (by linarith)), nearestEven_le _ _ ?_⟩
  exact rnd_le_int 53 (by linarith) (by push_cast; linarith) (by norm_num)

theorem grayLevel_anti {v' : Int} (hv : 0 ≤ v) (h : v ≤ v') (hle : v' ≤ mx) :
    grayLevel l e v' mx ≤ grayLevel l e v mx :=
  nearestEven_mono (rnd_mono 53 (by norm_num) (by
    have := grayInt_anti hM hmx hv h hle
    linarith))

omit hM hmx in
theorem grayLevel_zero : grayLevel l e 0 mx = 255 := by
  unfold grayLevel grayInt
  rw [if_pos rfl, sub_zero, rnd53_one, mul_one]
  have := rnd_int_exact 53 255 (by norm_num)
  push_cast at this
  rw [this]
  exact_mod_cast nearestEven_int 255

theorem grayLevel_max : grayLevel l e mx mx = 0 := by
  have h0 : (mx : ℚ) ≠ 0 := by
    have : (0 : ℚ) < mx := by exact_mod_cast hmx
    exact this.ne'
  unfold grayLevel grayInt grayArg grayRatio
  rw [if_neg hmx.ne', div_self h0, rnd53_one, hM.log_one, mul_zero, rnd53_zero, hM.exp_zero, sub_self, rnd53_zero,
    mul_zero, rnd53_zero]
  exact_mod_cast nearestEven_int 0

theorem pnm_gray_eq (hv : 0 ≤ v) (hle : v ≤ mx) (h31 : mx < 2 ^ 31) :
    pnm_gray M v mx = .ok (fmtD (grayLevel l e v mx) ++ [' ']) := by
  have hI := grayInt_range hM hmx hv hle
  have e1 : pnm_intensity M v mx = .fin (grayInt l e v mx) := by
    unfold pnm_intensity
    rw [Dbl.ofInt_eq (by rw [abs_of_nonneg hv]; omega), Dbl.ofInt_eq (by rw [abs_of_nonneg hmx.le]; omega),
      Dbl.div_fin (by have : (0 : ℚ) < mx := by exact_mod_cast hmx
                      exact this.ne')]
    rcases hv.eq_or_lt with h0 | h0
    · subst h0
      have : rnd 53 (((0 : Int) : ℚ) / mx) = 0 := by simp [rnd53_zero]
      rw [this, hM.log_zero]
      have : Dbl.mul (.fin (rnd 53 (1 / 10))) (.inf true) = .inf true := by
        show (if rnd 53 (1 / 10) = 0 then Dbl.nan else .inf (true != decide (rnd 53 (1 / 10) < 0))) = _
        rw [if_neg tenth_pos.ne', decide_eq_false (not_lt.mpr tenth_pos.le)]
        rfl
      rw [this, hM.exp_ninf]
      simp [Dbl.sub, grayInt]
    · have h1 := hM.log_fin _ (grayRatio_pos hmx h0) (grayRatio_le hmx hle)
      rw [show rnd 53 ((v : ℚ) / mx) = grayRatio v mx from rfl, h1, Dbl.mul_fin]
      rw [show rnd 53 (rnd 53 (1 / 10) * l (grayRatio v mx)) = grayArg l v mx from rfl,
        hM.exp_fin _ (grayArg_nonpos hM hmx h0 hle)]
      simp [Dbl.sub, grayInt, h0.ne']
  unfold pnm_gray
  simp only [e1]
  have : (Dbl.le (.fin 0) (.fin (grayInt l e v mx)) && Dbl.le (.fin (grayInt l e v mx)) (.fin 1)) = true := by
    simp [Dbl.le, hI.1, hI.2]
  rw [this]
  simp [cassert, Dbl.mul_fin, fmtF0, grayLevel]
  rfl

end

/-! ### Accuracy -/

theorem exp_lipschitz {a b : ℝ} (ha : a ≤ 0) (hb : b ≤ 0) : |Real.exp a - Real.exp b| ≤ |a - b| := by
  have key : ∀ {a b : ℝ}, a ≤ b → b ≤ 0 → Real.exp b - Real.exp a ≤ b - a := by
    intro a b h hb
    have h1 : Real.exp a = Real.exp b * Real.exp (a - b) := by rw [← Real.exp_add]; congr 1; ring
    have h2 := Real.add_one_le_exp (a - b)
    have h3 : Real.exp b ≤ 1 := Real.exp_le_one_iff.mpr hb
    have h4 := Real.exp_pos b
    have h5 : Real.exp (a - b) ≤ 1 := Real.exp_le_one_iff.mpr (by linarith)
    rw [h1]
    nlinarith
  rcases le_total a b with h | h
  · rw [abs_sub_comm, abs_sub_comm a b, abs_of_nonneg (by have := Real.exp_le_exp.mpr h; linarith),
      abs_of_nonneg (by linarith)]
    exact key h hb
  · rw [abs_of_nonneg (by have := Real.exp_le_exp.mpr h; linarith), abs_of_nonneg (by linarith)]
    exact key h ha

theorem log_near {x r : ℝ} (hr : 0 < r) (h : |x - r| ≤ r / 2 ^ 53) : |Real.log x - Real.log r| ≤ 1 / 2 ^ 52 := by
  rw [abs_le] at h
  have hr' : r / 2 ^ 53 ≤ r / 2 := by
    apply div_le_div_of_nonneg_left hr.le (by norm_num) (by norm_num)
  have hx : 0 < x := by linarith
  rw [abs_le]
  constructor
  · have h1 := Real.log_le_sub_one_of_pos (show 0 < r / x by positivity)
    rw [Real.log_div hr.ne' hx.ne'] at h1
    have h2 : r / x ≤ 1 + 1 / 2 ^ 52 := by
      rw [div_le_iff₀ hx]
      have e : r / 2 ^ 53 = r * (1 / 2 ^ 53) := by ring
      rw [e] at h
      nlinarith
    linarith
  · have h1 := Real.log_le_sub_one_of_pos (show 0 < x / r by positivity)
    rw [Real.log_div hx.ne' hr.ne'] at h1
    have h2 : x / r ≤ 1 + 1 / 2 ^ 52 := by
      rw [div_le_iff₀ hr]
      have e : r / 2 ^ 53 = r * (1 / 2 ^ 53) := by ring
      rw [e] at h
      nlinarith
    linarith

theorem rnd53_errR (x : ℚ) : |(rnd 53 x : ℝ) - (x : ℝ)| ≤ |(x : ℝ)| / 2 ^ 53 := by
  have := rnd_err 53 x
  have h : ((|rnd 53 x - x| : ℚ) : ℝ) ≤ ((|x| / 2 ^ 53 : ℚ) : ℝ) := by exact_mod_cast this
  push_cast at h
  exact h

theorem grayLevel_acc {M : LibM} {l e : ℚ → ℚ} (hM : M.Good l e) {v mx : Int} (hmx : 0 < mx) (hv : 0 ≤ v)
    (hle : v ≤ mx) (h31 : mx < 2 ^ 31) :
    |(grayLevel l e v mx : ℝ) - 255 * (1 - ((v : ℝ) / mx) ^ (1 / 10 : ℝ))| ≤ 51 / 100 := by
  rcases hv.eq_or_lt with h0 | h0
  · subst h0
    rw [grayLevel_zero]
    rw [show (((0 : Int) : ℝ) / mx) = 0 by simp, Real.zero_rpow (by norm_num)]
    norm_num
  · have hmxR : (0 : ℝ) < mx := by exact_mod_cast hmx
    have hvR : (0 : ℝ) < v := by exact_mod_cast h0
    set r : ℝ := (v : ℝ) / mx with hr
    have hr0 : 0 < r := by positivity
    have hr1 : r ≤ 1 := by rw [hr, div_le_one hmxR]; exact_mod_cast hle
    have hr2 : 1 / 2 ^ 31 ≤ r := by
      rw [hr, div_le_div_iff₀ (by positivity) hmxR]
      have a1 : (1 : ℝ) ≤ v := by exact_mod_cast h0
      have a2 : (mx : ℝ) ≤ 2 ^ 31 := by exact_mod_cast h31.le
      linarith
    have hrq : (((v : ℚ) / mx : ℚ) : ℝ) = r := by push_cast; rfl
    -- the ratio
    have e1 : |((grayRatio v mx : ℚ) : ℝ) - r| ≤ r / 2 ^ 53 := by
      have := rnd53_errR ((v : ℚ) / mx)
      rw [hrq, abs_of_pos hr0] at this
      exact this
    have hx0 := grayRatio_pos hmx h0
    have hx1 := grayRatio_le hmx hle
    have hx2 : 1 / 2 ^ 32 ≤ grayRatio v mx := by
      have : (1 / 2 ^ 32 : ℝ) ≤ ((grayRatio v mx : ℚ) : ℝ) := by
        rw [abs_le] at e1
        have h1 : r / 2 ^ 53 ≤ r / 2 := div_le_div_of_nonneg_left hr0.le (by norm_num) (by norm_num)
        have : (1 / 2 ^ 31 : ℝ) = 2 * (1 / 2 ^ 32) := by norm_num
        linarith
      have h2 : ((1 / 2 ^ 32 : ℚ) : ℝ) ≤ ((grayRatio v mx : ℚ) : ℝ) := by push_cast; exact this
      exact_mod_cast h2
    have e2 := log_near hr0 e1
    have e3 := hM.log_acc _ hx2 hx1
    set x := grayRatio v mx
    -- a crude bound on the logarithm
    have hlog0 : Real.log r ≤ 0 := Real.log_nonpos hr0.le hr1
    have hlog1 : -(2 ^ 31) ≤ Real.log r := by
      have h1 := Real.one_sub_inv_le_log_of_pos hr0
      have h2 : r⁻¹ ≤ 2 ^ 31 := by
        rw [inv_le_comm₀ hr0 (by positivity)]
        simpa using hr2
      linarith
    have hl0 : l x ≤ 0 := by
      have := hM.log_mono _ 1 hx0 hx1 le_rfl
      rwa [hM.log_one] at this
    have hl0R : ((l x : ℚ) : ℝ) ≤ 0 := by exact_mod_cast hl0
    -- the product
    have e4 := rnd53_errR (1 / 10)
    have e5 := rnd53_errR (rnd 53 (1 / 10) * l x)
    rw [show rnd 53 (rnd 53 (1 / 10) * l x) = grayArg l v mx from rfl] at e5
    have harg := grayArg_nonpos hM hmx h0 hle
    have hargR : ((grayArg l v mx : ℚ) : ℝ) ≤ 0 := by exact_mod_cast harg
    have e6 := hM.exp_acc _ harg
    set t := grayArg l v mx
    set τ : ℚ := rnd 53 (1 / 10)
    have hτ : |(τ : ℝ) - 1 / 10| ≤ 1 / 2 ^ 53 := by
      push_cast at e4
      refine e4.trans ?_
      rw [abs_of_pos (by norm_num)]
      norm_num
    have htr : |(t : ℝ) - 1 / 10 * Real.log r| ≤ 1 / 2 ^ 19 := by
      push_cast at e5
      rw [abs_le] at e2 e3 hτ ⊢
      have hl1 : -(2 ^ 32) ≤ ((l x : ℚ) : ℝ) := by
        have : (1 : ℝ) / 2 ^ 52 ≤ 1 := by norm_num
        have : (1 : ℝ) / 2 ^ 40 ≤ 1 := by norm_num
        linarith [e3.1, e2.1]
      have hτ0 : (0 : ℝ) ≤ τ := by
        have := tenth_pos
        exact_mod_cast this.le
      have hτ1 : (τ : ℝ) ≤ 1 := by
        have : (1 : ℝ) / 2 ^ 53 ≤ 1 / 2 := by norm_num
        linarith [hτ.2]
      have hprod : |(τ : ℝ) * l x| ≤ 2 ^ 32 := by
        rw [abs_mul, abs_of_nonneg hτ0, abs_of_nonpos hl0R]
        nlinarith
      have e5' := e5.trans (div_le_div_of_nonneg_right hprod (by positivity))
      rw [abs_le] at e5'
      have hd : |((τ : ℝ) - 1 / 10) * l x| ≤ 2 ^ 32 / 2 ^ 53 := by
        rw [abs_mul]
        have : |(τ : ℝ) - 1 / 10| ≤ 1 / 2 ^ 53 := abs_le.mpr hτ
        have h2 : |((l x : ℚ) : ℝ)| ≤ 2 ^ 32 := by rw [abs_of_nonpos hl0R]; linarith
        calc _ ≤ 1 / 2 ^ 53 * (2 ^ 32 : ℝ) := mul_le_mul this h2 (abs_nonneg _) (by positivity)
          _ = _ := by norm_num
      rw [abs_le] at hd
      have c1 : (2 : ℝ) ^ 32 / 2 ^ 53 = 1 / 2 ^ 21 := by norm_num
      rw [c1] at e5' hd
      have c2 : (1 : ℝ) / 2 ^ 52 ≤ 1 / 2 ^ 21 := by norm_num
      have c3 : (1 : ℝ) / 2 ^ 40 ≤ 1 / 2 ^ 21 := by norm_num
      have c4 : (1 : ℝ) / 2 ^ 19 = 4 * (1 / 2 ^ 21) := by norm_num
      constructor <;> nlinarith [e2.1, e2.2, e3.1, e3.2, hd.1, hd.2, e5'.1, e5'.2]
    -- the exponential
    have e7 := exp_lipschitz hargR (show 1 / 10 * Real.log r ≤ 0 by linarith)
    have hpow : r ^ (1 / 10 : ℝ) = Real.exp (1 / 10 * Real.log r) := by
      rw [Real.rpow_def_of_pos hr0, mul_comm]
    rw [← hpow] at e7
    have hI := grayInt_range hM hmx hv hle
    have e8 := rnd53_errR (1 - e t)
    have e9 := rnd53_errR (255 * grayInt l e v mx)
    have hIe : grayInt l e v mx = rnd 53 (1 - e t) := by
      unfold grayInt
      rw [if_neg h0.ne']
    have e10 := nearestEven_err (rnd 53 (255 * grayInt l e v mx))
    have e10' : |((grayLevel l e v mx : Int) : ℝ) - ((rnd 53 (255 * grayInt l e v mx) : ℚ) : ℝ)| ≤ 1 / 2 := by
      have h : ((|(nearestEven (rnd 53 (255 * grayInt l e v mx)) : ℚ) - rnd 53 (255 * grayInt l e v mx)| : ℚ) : ℝ) ≤
        ((1 / 2 : ℚ) : ℝ) := by exact_mod_cast e10
      push_cast at h
      exact h
    rw [← hIe] at e8
    have hex0 := hM.exp_nonneg _ harg
    have hex1 := hM.exp_mono _ 0 harg le_rfl
    rw [hM.exp_zero] at hex1
    have hex0R : (0 : ℝ) ≤ ((e t : ℚ) : ℝ) := by exact_mod_cast hex0
    have hex1R : ((e t : ℚ) : ℝ) ≤ 1 := by exact_mod_cast hex1
    have hI0 : (0 : ℝ) ≤ ((grayInt l e v mx : ℚ) : ℝ) := by exact_mod_cast hI.1
    have hI1 : ((grayInt l e v mx : ℚ) : ℝ) ≤ 1 := by exact_mod_cast hI.2
    push_cast at e8 e9
    rw [abs_of_nonneg (show (0 : ℝ) ≤ 1 - ((e t : ℚ) : ℝ) by linarith)] at e8
    rw [abs_of_nonneg (show (0 : ℝ) ≤ 255 * ((grayInt l e v mx : ℚ) : ℝ) by linarith)] at e9
    have e7' := e7.trans htr
    have d8 : (1 - ((e t : ℚ) : ℝ)) / 2 ^ 53 ≤ 1 / 2 ^ 53 := div_le_div_of_nonneg_right (by linarith) (by positivity)
    have d9 : 255 * ((grayInt l e v mx : ℚ) : ℝ) / 2 ^ 53 ≤ 255 / 2 ^ 53 :=
      div_le_div_of_nonneg_right (by linarith) (by positivity)
    have e8' := e8.trans d8
    have e9' := e9.trans d9
    rw [abs_le] at e6 e7' e8' e9' e10' ⊢
    have n1 : (255 : ℝ) * (1 / 2 ^ 19 + 1 / 2 ^ 40 + 1 / 2 ^ 53) + 255 / 2 ^ 53 ≤ 1 / 100 := by norm_num
    constructor <;> linarith [e6.1, e6.2, e7'.1, e7'.2, e8'.1, e8'.2, e9'.1, e9'.2, e10'.1, e10'.2]

/-! ### Cells -/

/-- The entries of row `i` at positions from `a` to `b` that fall on cell number `c`. -/
def cellHits (A : Csr) (X Y c i a b : Nat) : Nat :=
  ((Finset.Ico a b).filter fun k => i * Y / A.n * X + A.j.g k * X / A.m = c).card

theorem cellHits_self (A : Csr) (X Y c i a : Nat) : cellHits A X Y c i a a = 0 := by
  simp [cellHits]

theorem cellHits_succ (A : Csr) (X Y c i a : Nat) {b : Nat} (h : a ≤ b) :
    cellHits A X Y c i a (b + 1) = cellHits A X Y c i a b +
      if i * Y / A.n * X + A.j.g b * X / A.m = c then 1 else 0 := by
  unfold cellHits
  rw [show Finset.Ico a (b + 1) = insert b (Finset.Ico a b) by ext k; simp; omega, Finset.filter_insert]
  split
  · rw [Finset.card_insert_of_notMem (by simp)]
  · simp

theorem pnm_count_exact {A : Csr} (hA : A.WF) {X Y : Nat} (hX : 0 < X ∨ A.m = 0) (hY : 0 < Y ∨ A.n = 0)
    (hXm : X ≤ A.m) (hm : A.m < 2 ^ 31) (hz : A.p.g A.n < 2 ^ 31) {w : Array Int}
    (hw : w.size = X * Y ∧ ∀ c, c < X * Y → w.g c = 0) :
    Ok (pnm_count A X Y w) (fun w => w.size = X * Y ∧ ∀ c, c < X * Y →
      w.g c = (∑ i ∈ Finset.range A.n, cellHits A X Y c i (A.p.g i) (A.p.g (i + 1)) : Nat)) := by
  have hsum : ∀ i, i ≤ A.n → ∀ c, ∑ i' ∈ Finset.range i, cellHits A X Y c i' (A.p.g i') (A.p.g (i' + 1)) ≤ A.p.g i := by
    intro i
    induction i with
    | zero => intro _ c; simp
    | succ i ih =>
      intro hi c
      rw [Finset.sum_range_succ]
      have h1 := ih (by omega) c
      have h2 : cellHits A X Y c i (A.p.g i) (A.p.g (i + 1)) ≤ A.p.g (i + 1) - A.p.g i := by
        unfold cellHits
        exact (Finset.card_filter_le _ _).trans (by simp)
      have := hA.p_mono i (by omega)
      omega
  unfold pnm_count
  refine (Ok_forRange (I := fun i (w : Array Int) => w.size = X * Y ∧ ∀ c, c < X * Y →
      w.g c = (∑ i' ∈ Finset.range i, cellHits A X Y c i' (A.p.g i') (A.p.g (i' + 1)) : Nat)) (Nat.zero_le _) ?_ ?_)
  · exact ⟨hw.1, fun c hc => by rw [hw.2 c hc]; simp⟩
  · intro i w _ hi hI
    have hps := hA.p_size
    have hmono := hA.p_mono i hi
    have hrow := hA.row_le hi
    have hnz := hA.p_nnz
    have hYpos : 0 < Y := by omega
    rw [Ok_bind, show (i : Int) * (Y : Int) = ((i * Y : Nat) : Int) by push_cast; rfl, Ok_cdivN (by omega)]
    simp only [Ok_bind, Ok_rd]
    refine ⟨by omega, by omega, ?_⟩
    refine (Ok_forRange (I := fun px (w : Array Int) => w.size = X * Y ∧ ∀ c, c < X * Y →
      w.g c = (∑ i' ∈ Finset.range i, cellHits A X Y c i' (A.p.g i') (A.p.g (i' + 1)) +
        cellHits A X Y c i (A.p.g i) px : Nat)) hmono ?_ ?_).mono ?_
    · refine ⟨hI.1, fun c hc => ?_⟩
      rw [hI.2 c hc, cellHits_self, Nat.add_zero]
    · intro px w hlo hhi hI
      have hjlt := hA.j_lt px (by omega)
      have hXpos : 0 < X := by omega
      rw [Ok_bind, Ok_rd]
      refine ⟨by omega, ?_⟩
      rw [Ok_bind, show ((A.j.g px : Nat) : Int) * (X : Int) = ((A.j.g px * X : Nat) : Int) by push_cast; rfl,
        Ok_cdivN (by omega)]
      have c1 := pix_lt hi hYpos
      have c2 := pix_lt hjlt hXpos
      have c3 := cell_index c1 c2
      rw [toI32_small (le_trans (by norm_num) (Int.natCast_nonneg _)) (by omega)]
      have hidx : ((i * Y / A.n : Nat) : Int) * (X : Int) + ((A.j.g px * X / A.m : Nat) : Int) =
          ((i * Y / A.n * X + A.j.g px * X / A.m : Nat) : Int) := by push_cast; rfl
      rw [hidx]
      generalize hc : i * Y / A.n * X + A.j.g px * X / A.m = c at *
      have hval := hI.2 c c3
      have hle1 := hsum i (by omega) c
      have hle2 : cellHits A X Y c i (A.p.g i) px ≤ px - A.p.g i := by
        unfold cellHits
        exact (Finset.card_filter_le _ _).trans (by simp)
      simp only [Ok_bind, Ok_rdI, Ok_wrI, Ok_i32, Int.toNat_natCast]
      refine ⟨by omega, by rw [hI.1]; exact c3, ⟨by omega, by omega⟩, by omega, by rw [hI.1]; exact c3, ?_⟩
      have hsz : c < w.size := by rw [hI.1]; exact c3
      refine ⟨by simp [hI.1], ?_⟩
      intro d hd
      rw [cellHits_succ _ _ _ _ _ _ hlo, hc]
      by_cases hdc : d = c
      · subst hdc
        rw [g_upd_eq _ _ _ hsz, if_pos rfl, hval]
        push_cast
        ring
      · rw [g_upd_ne _ _ _ _ (by omega), if_neg (by omega), hI.2 d hd, Nat.add_zero]
    · rintro w ⟨h1, h2⟩
      refine ⟨h1, fun c hc => ?_⟩
      rw [h2 c hc, Finset.sum_range_succ]

theorem cellHits_eq {A : Csr} (hA : A.WF) {X Y u v : Nat} (hv : v < X) :
    ∑ i ∈ Finset.range A.n, cellHits A X Y (u * X + v) i (A.p.g i) (A.p.g (i + 1)) = pixCount A X Y u v := by
  unfold pixCount cellHits
  refine Finset.sum_congr rfl fun i hi => ?_
  congr 1
  refine Finset.filter_congr fun k hk => ?_
  rw [Finset.mem_range] at hi
  rw [Finset.mem_Ico] at hk
  have hj := hA.j_lt k (by have := hA.row_le hi; omega)
  have c2 := pix_lt hj (show 0 < X by omega)
  constructor
  · intro a5
    constructor
    · have := congrArg (· / X) a5
      rw [Nat.add_comm, Nat.add_mul_div_right _ _ (by omega), Nat.div_eq_of_lt c2, Nat.add_comm (u * X),
        Nat.add_mul_div_right _ _ (by omega), Nat.div_eq_of_lt hv] at this
      omega
    · have := congrArg (· % X) a5
      rw [Nat.add_comm, Nat.add_mul_mod_self_right, Nat.mod_eq_of_lt c2, Nat.add_comm (u * X),
        Nat.add_mul_mod_self_right, Nat.mod_eq_of_lt hv] at this
      omega
  · rintro ⟨rfl, rfl⟩
    rfl

theorem pnm_cells_exact (jk : Junk) {A : Csr} (hA : A.WF) {X Y : Nat} (hX : 0 < X ∨ A.m = 0) (hY : 0 < Y ∨ A.n = 0)
    (hXm : X ≤ A.m) (hm : A.m < 2 ^ 31) (hz : A.p.g A.n < 2 ^ 31) (hXY : X * Y < 2 ^ 31) :
    Ok (pnm_cells jk A X Y) (fun w => w.size = X * Y ∧ ∀ u v, v < X → u < Y →
      w.g (u * X + v) = pixCount A X Y u v) := by
  unfold pnm_cells
  rw [show (X : Int) * (Y : Int) = ((X * Y : Nat) : Int) by push_cast; rfl]
  rw [Ok_bind, Ok_i32]
  refine ⟨⟨by omega, by omega⟩, ?_⟩
  rw [if_neg (by omega), Ok_bind, Int.toNat_natCast]
  refine (Ok_forRange (I := fun i w => w.size = X * Y ∧ ∀ c, c < i → w.g c = 0) (Nat.zero_le _) ⟨by simp, by simp⟩
    ?_).mono ?_
  · rintro i w - hi ⟨h1, h2⟩
    rw [Ok_wr]
    refine ⟨by omega, by simp [h1], ?_⟩
    intro t ht
    by_cases hti : t = i
    · subst hti; rw [g_upd_eq _ _ _ (by omega)]
    · rw [g_upd_ne _ _ _ _ (by omega)]; exact h2 t (by omega)
  · intro w hw
    refine (pnm_count_exact hA hX hY hXm hm hz hw).mono ?_
    rintro w ⟨h1, h2⟩
    refine ⟨h1, fun u v hv hu => ?_⟩
    rw [h2 _ (cell_index hu hv), cellHits_eq hA hv]

theorem pnm_max_spec (w : Array Int) {k : Nat} (h : k ≤ w.size) :
    Ok (pnm_max w k) (fun m => 0 ≤ m ∧ (∀ c, c < k → w.g c ≤ m) ∧ (m = 0 ∨ ∃ c, c < k ∧ w.g c = m)) := by
  unfold pnm_max
  refine Ok_forRange (I := fun j m => 0 ≤ m ∧ (∀ c, c < j → w.g c ≤ m) ∧ (m = 0 ∨ ∃ c, c < j ∧ w.g c = m))
    (Nat.zero_le _) ⟨le_rfl, by simp, Or.inl rfl⟩ ?_
  rintro j m - hj ⟨h1, h2, h3⟩
  rw [Ok_bind, Ok_rd]
  refine ⟨by omega, ?_⟩
  rw [Ok_ok]
  refine ⟨by omega, fun c hc => ?_, ?_⟩
  · by_cases hcj : c = j
    · subst hcj; omega
    · have := h2 c (by omega); omega
  · rcases le_total m (w.g j) with hl | hl
    · right; exact ⟨j, by omega, by omega⟩
    · rw [max_eq_left hl]
      rcases h3 with h3 | ⟨c, hc, h3⟩
      · exact Or.inl h3
      · exact Or.inr ⟨c, by omega, h3⟩

attribute [local irreducible] pnm_cells

theorem save_pgm_spec (jk : Junk) {M : LibM} {l e : ℚ → ℚ} (hM : M.Good l e) {A : Csr} (hA : A.WF) {x y : Nat}
    (hx : 1 ≤ x) (hy : 1 ≤ y) (hm : A.m < 2 ^ 31) (hz : A.p.g A.n < 2 ^ 31) (hxy : min x A.m * min y A.n < 2 ^ 31)
    (hne : ∃ u v, u < min y A.n ∧ v < min x A.m ∧ 0 < pixCount A (min x A.m) (min y A.n) u v) :
    Ok (save_pgm jk M A x y) (fun f => ∃ mx : Nat, 0 < mx ∧ mx < 2 ^ 31 ∧
      (∀ u v, u < min y A.n → v < min x A.m → pixCount A (min x A.m) (min y A.n) u v ≤ mx) ∧
      (∃ u v, u < min y A.n ∧ v < min x A.m ∧ pixCount A (min x A.m) (min y A.n) u v = mx) ∧
      IsPgm f (min x A.m) (min y A.n) fun u v =>
        (grayLevel l e (pixCount A (min x A.m) (min y A.n) u v) mx).toNat) := by
  unfold save_pgm
  simp only [← Nat.cast_min (α := Int)]
  have hX : 0 < min x A.m ∨ A.m = 0 := by omega
  have hY : 0 < min y A.n ∨ A.n = 0 := by omega
  have hXm : min x A.m ≤ A.m := by omega
  generalize min x A.m = X at *
  generalize min y A.n = Y at *
  rw [Ok_bind]
  have hbound : ∀ u v, v < X → pixCount A X Y u v < 2 ^ 31 := by
    intro u v hv
    refine lt_of_le_of_lt ?_ hz
    have hsum : ∀ i, i ≤ A.n → ∑ i' ∈ Finset.range i, ((Finset.Ico (A.p.g i') (A.p.g (i' + 1))).filter fun k =>
        i' * Y / A.n = u ∧ A.j.g k * X / A.m = v).card ≤ A.p.g i := by
      intro i
      induction i with
      | zero => intro _; simp
      | succ i ih =>
        intro hi
        rw [Finset.sum_range_succ]
        have h1 := ih (by omega)
        have h2 : ((Finset.Ico (A.p.g i) (A.p.g (i + 1))).filter fun k =>
            i * Y / A.n = u ∧ A.j.g k * X / A.m = v).card ≤ A.p.g (i + 1) - A.p.g i :=
          (Finset.card_filter_le _ _).trans (by simp)
        have := hA.p_mono i (by omega)
        omega
    exact hsum A.n le_rfl
  refine (pnm_cells_exact jk hA hX hY hXm hm hz hxy).mono ?_
  rintro w ⟨hws, hw⟩
  rw [Ok_bind, show ((X : Int) * (Y : Int)).toNat = X * Y by rw [← Nat.cast_mul, Int.toNat_natCast]]
  refine (pnm_max_spec w hws.ge).mono ?_
  rintro mx ⟨m0, m1, m2⟩
  obtain ⟨u0, v0, hu0, hv0, hp0⟩ := hne
  have hmx : 0 < mx := by
    have := m1 _ (cell_index hu0 hv0)
    rw [hw u0 v0 hv0 hu0] at this
    omega
  obtain ⟨mx, rfl⟩ := Int.eq_ofNat_of_zero_le m0
  have hle : ∀ u v, u < Y → v < X → pixCount A X Y u v ≤ mx := by
    intro u v hu hv
    have := m1 _ (cell_index hu hv)
    rw [hw u v hv hu] at this
    omega
  have hat : ∃ u v, u < Y ∧ v < X ∧ pixCount A X Y u v = mx := by
    rcases m2 with h | ⟨c, hc, h⟩
    · omega
    · have hXp : 0 < X := by omega
      have hv : c % X < X := Nat.mod_lt _ hXp
      have hu : c / X < Y := by rwa [Nat.div_lt_iff_lt_mul hXp, Nat.mul_comm]
      refine ⟨c / X, c % X, hu, hv, ?_⟩
      have := hw _ _ hv hu
      rw [show c / X * X + c % X = c by rw [Nat.mul_comm]; exact Nat.div_add_mod c X, h] at this
      omega
  have h31 : mx < 2 ^ 31 := by
    obtain ⟨u, v, _, hv, h⟩ := hat
    rw [← h]; exact hbound u v hv
  rw [Ok_bind]
  simp only [Int.toNat_natCast]
  generalize hH : "P2\n".toList ++ fmtD X ++ [' '] ++ fmtD Y ++ "\n255\n".toList = H
  let lev : Nat → Nat → Nat := fun u v => (grayLevel l e (pixCount A X Y u v) mx).toNat
  have hstep : ∀ i j (s : List Char × Nat), i < Y → j < X →
      (s.2 = i * X + j ∧ ∃ body, s.1 = H ++ body ∧ Words body ((List.range (i * X + j)).map fun t =>
        dec (lev (t / X) (t % X)))) →
      Ok (do
        let v ← rdI w (i * X + j)
        let g ← pnm_gray M v mx
        .ok (s.1 ++ g ++ pnm_break s.2, s.2 + 1))
      (fun s => s.2 = i * X + (j + 1) ∧ ∃ body, s.1 = H ++ body ∧ Words body ((List.range (i * X + (j + 1))).map fun t =>
        dec (lev (t / X) (t % X)))) := by
    rintro i j ⟨out, t⟩ hi hj ⟨ht, body, hb, hW⟩
    simp only at ht hb
    have hc := cell_index hi hj
    rw [Ok_bind, show (i : Int) * (X : Int) + (j : Int) = ((i * X + j : Nat) : Int) by push_cast; rfl, Ok_rdI,
      Int.toNat_natCast]
    refine ⟨by omega, by rw [hws]; exact hc, ?_⟩
    have hl := hle i j hi hj
    rw [hw i j hj hi, Ok_bind, pnm_gray_eq hM hmx (by omega) (by omega) (by omega), Ok_ok, Ok_ok]
    have hr := grayLevel_range hM hmx (v := pixCount A X Y i j) (by omega) (by omega)
    have ed : fmtD (grayLevel l e (pixCount A X Y i j) (mx : Int)) = dec (lev i j) := by
      rw [dec_eq]
      congr 1
      show _ = ((grayLevel l e (pixCount A X Y i j) mx).toNat : Int)
      exact (Int.toNat_of_nonneg hr.1).symm
    simp only
    refine ⟨by omega, body ++ dec (lev i j) ++ (' ' :: pnm_break t), ?_, ?_⟩
    · rw [hb, ed]; simp
    · rw [show i * X + (j + 1) = (i * X + j) + 1 by omega, List.range_succ, List.map_append]
      have e1 : (i * X + j) / X = i := by
        rw [Nat.add_comm, Nat.add_mul_div_right _ _ (by omega), Nat.div_eq_of_lt hj]; omega
      have e2 : (i * X + j) % X = j := by
        rw [Nat.add_comm, Nat.add_mul_mod_self_right, Nat.mod_eq_of_lt hj]
      simp only [List.map_cons, List.map_nil, e1, e2]
      have hwd := fmtD_word (lev i j)
      rw [← dec_eq] at hwd
      exact hW.snoc hwd.1 hwd.2 (by simp) (pnm_break_ws t)
  refine (Ok_forRange (I := fun i s => s.2 = i * X ∧ ∃ body, s.1 = H ++ body ∧ Words body ((List.range (i * X)).map
    fun t => dec (lev (t / X) (t % X)))) (Nat.zero_le _) ?_ ?_).mono ?_
  · exact ⟨by simp, [], by simp, by simpa using Words.nil⟩
  · intro i s _ hi hI
    refine (Ok_forRange (I := fun j s => s.2 = i * X + j ∧ ∃ body, s.1 = H ++ body ∧ Words body
      ((List.range (i * X + j)).map fun t => dec (lev (t / X) (t % X)))) (Nat.zero_le _) ?_
      (fun j s _ hj hJ => hstep i j s hi hj hJ)).mono ?_
    · simpa using hI
    · intro s hs
      rw [Nat.succ_mul]
      exact hs
  · rintro s ⟨-, body, h1, h2⟩
    rw [Ok_ok]
    refine ⟨mx, by omega, h31, hle, hat, body, ?_, ?_, ?_⟩
    · rw [h1, ← hH, dec_eq, dec_eq]
    · intro u v hu hv
      have hl := hle u v hu hv
      have := grayLevel_range hM hmx (v := pixCount A X Y u v) (by omega) (by omega)
      show (grayLevel l e (pixCount A X Y u v) (mx : Int)).toNat ≤ 255
      omega
    · rw [Nat.mul_comm X Y]
      exact h2

end Spasm
