import Verif.Proofs.Options

/-! Rounding is monotone and odd. -/

namespace Spasm

theorem lt_pow2_binade (x : ℚ) : |x| < pow2 (binade x + 1) := by
  have hd : x.den ≠ 0 := x.den_nz
  have hdpos : (0 : ℚ) < x.den := by exact_mod_cast Nat.pos_of_ne_zero hd
  have h1 : x.num.natAbs < 2 ^ (Nat.log2 x.num.natAbs + 1) := Nat.lt_log2_self
  have h2 : 2 ^ Nat.log2 x.den ≤ x.den := Nat.log2_self_le hd
  have h1' : (x.num.natAbs : ℚ) < 2 ^ (Nat.log2 x.num.natAbs + 1) := by exact_mod_cast h1
  have h2' : (2 : ℚ) ^ Nat.log2 x.den ≤ x.den := by exact_mod_cast h2
  have habs : |x| = (x.num.natAbs : ℚ) / x.den := by
    rw [Rat.abs_def]
    exact Rat.divInt_eq_div _ _
  unfold binade
  simp only
  split
  · rw [pow2_eq, habs, div_lt_iff₀ hdpos]
    have e : (2 : ℚ) ^ ((Nat.log2 x.num.natAbs : Int) - (Nat.log2 x.den : Int) + 1) * 2 ^ Nat.log2 x.den =
        2 ^ (Nat.log2 x.num.natAbs + 1) := by
      rw [← zpow_natCast, ← zpow_natCast, ← zpow_add₀ (by norm_num)]
      congr 1
      push_cast
      ring
    calc (x.num.natAbs : ℚ) < _ := h1'
      _ = _ := e.symm
      _ ≤ _ := mul_le_mul_of_nonneg_left h2' (zpow_pos (by norm_num) _).le
  · next h =>
    rw [sub_add_cancel]
    exact not_le.mp h

theorem le_nearestEven (x : ℚ) (k : Int) (h : (k : ℚ) ≤ x) : k ≤ nearestEven x := by
  have h1 : k ≤ ⌊x⌋ := Int.le_floor.mpr h
  unfold nearestEven
  simp only
  split_ifs <;> omega

theorem nearestEven_mono {x y : ℚ} (h : x ≤ y) : nearestEven x ≤ nearestEven y := by
  have hf : ⌊x⌋ ≤ ⌊y⌋ := Int.floor_le_floor h
  rcases hf.lt_or_eq with h1 | h1
  · have a1 : nearestEven x ≤ ⌊x⌋ + 1 := nearestEven_le _ _ (by push_cast; exact (Int.lt_floor_add_one x).le)
    have a2 := le_nearestEven y ⌊y⌋ (Int.floor_le y)
    omega
  · unfold nearestEven
    simp only [h1]
    split_ifs <;> first | omega | (exfalso; linarith)

theorem nearestEven_neg (x : ℚ) : nearestEven (-x) = - nearestEven x := by
  by_cases hx : ∃ k : Int, x = k
  · obtain ⟨k, rfl⟩ := hx
    rw [nearestEven_int, ← Int.cast_neg, nearestEven_int]
  · have h1 := Int.floor_le x
    have h2 := Int.lt_floor_add_one x
    have h3 : (⌊x⌋ : ℚ) ≠ x := fun e => hx ⟨_, e.symm⟩
    have h4 : (⌊x⌋ : ℚ) < x := lt_of_le_of_ne h1 h3
    have hf : ⌊-x⌋ = -⌊x⌋ - 1 := by
      rw [Int.floor_eq_iff]
      push_cast
      constructor <;> linarith
    unfold nearestEven
    simp only [hf]
    push_cast
    split_ifs <;> first | omega | (exfalso; linarith)

theorem binade_neg (x : ℚ) : binade (-x) = binade x := by
  unfold binade
  simp

theorem rnd_neg (b : Nat) (x : ℚ) : rnd b (-x) = - rnd b x := by
  unfold rnd
  by_cases hx : x = 0
  · simp [hx]
  · simp only [neg_eq_zero, hx, if_false, binade_neg, neg_div, nearestEven_neg]
    push_cast
    ring

theorem rnd_mono_pos (b : Nat) (hb : 1 ≤ b) {x y : ℚ} (hx : 0 < x) (h : x ≤ y) : rnd b x ≤ rnd b y := by
  have hy : 0 < y := hx.trans_le h
  have bx := pow2_binade_le x hx.ne'
  have bx' := lt_pow2_binade x
  have by1 := pow2_binade_le y hy.ne'
  have by' := lt_pow2_binade y
  rw [abs_of_pos hx] at bx bx'
  rw [abs_of_pos hy] at by1 by'
  have hle : binade x ≤ binade y := by
    by_contra hc
    have h2 : pow2 (binade y + 1) ≤ pow2 (binade x) := by
      rw [pow2_eq, pow2_eq]
      exact zpow_le_zpow_right₀ (by norm_num) (by omega)
    linarith
  unfold rnd
  rw [if_neg hx.ne', if_neg hy.ne']
  simp only
  have ux := pow2_pos (binade x - b + 1)
  have uy := pow2_pos (binade y - b + 1)
  rcases hle.lt_or_eq with hlt | heq
  · have e1 : pow2 (binade x + 1) = ((2 ^ b : Int) : ℚ) * pow2 (binade x - b + 1) := by
      push_cast
      rw [pow2_eq, pow2_eq, ← zpow_natCast (2 : ℚ) b, ← zpow_add₀ (by norm_num)]
      congr 1; ring
    have e2 : pow2 (binade y) = ((2 ^ (b - 1) : Int) : ℚ) * pow2 (binade y - b + 1) := by
      push_cast
      rw [pow2_eq, pow2_eq, ← zpow_natCast (2 : ℚ) (b - 1), ← zpow_add₀ (by norm_num)]
      congr 1; omega
    have a1 : nearestEven (x / pow2 (binade x - b + 1)) ≤ 2 ^ b := nearestEven_le _ _ (by
      rw [div_le_iff₀ ux, ← e1]; exact bx'.le)
    have a2 : 2 ^ (b - 1) ≤ nearestEven (y / pow2 (binade y - b + 1)) := le_nearestEven _ _ (by
      rw [le_div_iff₀ uy, ← e2]; exact by1)
    have a1' : (nearestEven (x / pow2 (binade x - b + 1)) : ℚ) ≤ ((2 ^ b : Int) : ℚ) := by exact_mod_cast a1
    have a2' : ((2 ^ (b - 1) : Int) : ℚ) ≤ nearestEven (y / pow2 (binade y - b + 1)) := by exact_mod_cast a2
    calc _ ≤ _ := mul_le_mul_of_nonneg_right a1' ux.le
      _ = pow2 (binade x + 1) := e1.symm
      _ ≤ pow2 (binade y) := by
        rw [pow2_eq, pow2_eq]
        exact zpow_le_zpow_right₀ (by norm_num) (by omega)
      _ = _ := e2
      _ ≤ _ := mul_le_mul_of_nonneg_right a2' uy.le
  · rw [heq]
    rw [heq] at ux
    refine mul_le_mul_of_nonneg_right ?_ ux.le
    have := nearestEven_mono (div_le_div_of_nonneg_right h ux.le)
    exact_mod_cast this

theorem rnd_mono (b : Nat) (hb : 1 ≤ b) {x y : ℚ} (h : x ≤ y) : rnd b x ≤ rnd b y := by
  rcases lt_or_ge 0 x with hx | hx
  · exact rnd_mono_pos b hb hx h
  · rcases le_or_gt 0 y with hy | hy
    · have h1 : rnd b x ≤ 0 := by
        have := rnd_nonneg b (x := -x) (by linarith)
        rw [rnd_neg] at this
        linarith
      exact h1.trans (rnd_nonneg b hy)
    · have := rnd_mono_pos b hb (x := -y) (y := -x) (by linarith) (by linarith)
      rw [rnd_neg, rnd_neg] at this
      linarith

end Spasm
