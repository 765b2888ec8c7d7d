import Verif.Model.Options
import Verif.Proofs.Numeric

/-
Lemmas on the decisions and on loops, for C58.
-/

namespace Spasm

/-! ### Loops -/

theorem forBrkN_congr {σ : Type} (f g : Nat → σ → C (Step σ)) : ∀ (k lo : Nat) (s : σ),
    (∀ i s, lo ≤ i → i < lo + k → f i s = g i s) → forBrkN lo k s f = forBrkN lo k s g := by
  intro k
  induction k with
  | zero => intro lo s _; rfl
  | succ k ih =>
    intro lo s h
    unfold forBrkN
    rw [h lo s (le_refl _) (by omega)]
    congr 1
    funext r
    cases r with
    | cont s' => exact ih _ _ fun i s h1 h2 => h i s (by omega) (by omega)
    | brk s' => rfl

theorem forBrk_congr {σ : Type} (f g : Nat → σ → C (Step σ)) (lo hi : Nat) (s : σ)
    (h : ∀ i s, lo ≤ i → i < hi → f i s = g i s) : forBrk lo hi s f = forBrk lo hi s g := by
  unfold forBrk
  rw [forBrkN_congr f g _ _ _ fun i s h1 h2 => h i s h1 (by omega)]

/-- A property that the body keeps holds at the end, if there is an end. -/
theorem whileFuel_keep {σ : Type} (P : σ → Prop) (f : σ → C (Step σ))
    (h1 : ∀ s s', P s → f s = .ok (.cont s') → P s') (h2 : ∀ s s', P s → f s = .ok (.brk s') → P s') :
    ∀ (k : Nat) (s s' : σ), P s → whileFuel k s f = .ok s' → P s' := by
  intro k
  induction k with
  | zero => intro s s' _ h; cases h
  | succ k ih =>
    intro s s' hs h
    unfold whileFuel at h
    cases hf : f s with
    | error e => rw [hf] at h; cases h
    | ok r =>
      rw [hf] at h
      cases r with
      | cont t => exact ih t s' (h1 s t hs hf) h
      | brk t =>
        cases h
        exact h2 s _ hs hf

/-! ### Comparisons -/

namespace Dbl

theorem lt_fin (x y : ℚ) : (Dbl.fin x).lt (.fin y) = decide (x < y) := rfl

/-- A negative number is not zero and not NaN. -/
theorem neg_cases {a : Dbl} (h : a.lt (.fin 0) = true) : a = .inf true ∨ ∃ x, a = .fin x ∧ x < 0 := by
  cases a with
  | nan => cases h
  | inf s => exact .inl (by cases s <;> simp_all [Dbl.lt])
  | fin x => exact .inr ⟨x, rfl, by simpa [Dbl.lt] using h⟩

/-- A negative number is less than a number that is not. -/
theorem neg_lt {a : Dbl} (h : a.lt (.fin 0) = true) {y : ℚ} (hy : 0 ≤ y) : a.lt (.fin y) = true := by
  rcases neg_cases h with rfl | ⟨x, rfl, hx⟩
  · rfl
  · rw [lt_fin, decide_eq_true_eq]; linarith

theorem rnd_nonpos {x : ℚ} (h : x ≤ 0) : rnd 53 x ≤ 0 := by
  have := rnd_err 53 x
  rw [abs_le, abs_of_nonpos h] at this
  have h2 : -x / 2 ^ 53 ≤ -x := by
    rw [div_le_iff₀ (by positivity)]
    nlinarith
  linarith [this.2]

/-- Nothing that is not negative is less than the product of a negative number and a natural number. -/
theorem not_lt_neg_mul {a : Dbl} (h : a.lt (.fin 0) = true) {k : Nat} (hk : k < 2 ^ 53) {y : ℚ} (hy : 0 ≤ y) :
    (Dbl.fin y).lt (a.mul (.ofInt k)) = false := by
  rw [ofInt_nat hk]
  rcases neg_cases h with rfl | ⟨x, rfl, hx⟩
  · show (Dbl.fin y).lt (if (k : ℚ) = 0 then .nan else .inf (true != decide ((k : ℚ) < 0))) = false
    by_cases h0 : (k : ℚ) = 0
    · rw [if_pos h0]; rfl
    · have : ¬ (k : ℚ) < 0 := by push Not; positivity
      rw [if_neg h0, decide_eq_false this]; rfl
  · rw [mul_fin, lt_fin, decide_eq_false_iff_not, not_lt]
    refine le_trans (rnd_nonpos ?_) hy
    have : (0 : ℚ) ≤ k := by positivity
    nlinarith

/-- Comparison of a natural number with a rounded product. -/
theorem lt_mul_bounds {x : ℚ} (hx : 0 ≤ x) {a k : Nat} (ha : a < 2 ^ 53) (hk : k < 2 ^ 53) :
    ((ofInt a).lt ((Dbl.fin x).mul (.ofInt k)) = true → (a : ℚ) < x * k * (1 + 1 / 2 ^ 53)) ∧
    ((ofInt a).lt ((Dbl.fin x).mul (.ofInt k)) = false → x * k * (1 - 1 / 2 ^ 53) ≤ a) := by
  rw [ofInt_nat ha, ofInt_nat hk, mul_fin, lt_fin, decide_eq_true_eq, decide_eq_false_iff_not, not_lt]
  have h0 : 0 ≤ x * k := by positivity
  have := rnd_err 53 (x * k)
  rw [abs_of_nonneg h0, abs_le] at this
  constructor <;> intro h
  · have := this.2
    linarith
  · have := this.1
    linarith

theorem lt_div_bounds (r : ℚ) {a k : Nat} (ha : a < 2 ^ 53) (hk : k < 2 ^ 53) (h0 : 0 < k) :
    ((Dbl.fin r).lt ((ofInt a).div (.ofInt k)) = true → r < (a : ℚ) / k * (1 + 1 / 2 ^ 53)) ∧
    ((Dbl.fin r).lt ((ofInt a).div (.ofInt k)) = false → (a : ℚ) / k * (1 - 1 / 2 ^ 53) ≤ r) := by
  have hk' : (k : ℚ) ≠ 0 := by positivity
  rw [ofInt_nat ha, ofInt_nat hk, div_fin hk', lt_fin, decide_eq_true_eq, decide_eq_false_iff_not, not_lt]
  have h1 : 0 ≤ (a : ℚ) / k := by positivity
  have := rnd_err 53 ((a : ℚ) / k)
  rw [abs_of_nonneg h1, abs_le] at this
  constructor <;> intro h
  · have := this.2
    linarith
  · have := this.1
    linarith

end Dbl

end Spasm
