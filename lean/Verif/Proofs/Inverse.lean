import Verif.Proofs.ZZp
import Mathlib.Data.Int.GCD
import Mathlib.Algebra.Field.ZMod
import Mathlib.Data.Nat.Prime.Basic
import Mathlib.RingTheory.Coprime.Lemmas

namespace Spasm

/-- Loop invariant of `gcdext a q`. -/
structure GcdInv (q a : Int) (st : Int × Int × Int × Int) : Prop where
  bez_t : q ∣ st.1 * a - st.2.2.1
  bez_u : q ∣ st.2.1 * a - st.2.2.2
  s_nn : 0 ≤ st.2.2.2
  s_lt : st.2.2.2 < st.2.2.1
  r_le : st.2.2.1 ≤ q
  cop : ∃ x y : Int, x * st.2.2.1 + y * st.2.2.2 = 1
  t_bd : -q ≤ st.1 ∧ st.1 ≤ q
  det : (st.1 ≤ 0 ∧ 0 ≤ st.2.1 ∧ st.2.2.1 * st.2.1 - st.2.2.2 * st.1 = q) ∨
        (0 ≤ st.1 ∧ st.2.1 ≤ 0 ∧ st.2.2.2 * st.1 - st.2.2.1 * st.2.1 = q)

theorem le_of_mul_le_pos {a b c : Int} (ha : 1 ≤ a) (hb : 0 ≤ b) (h : a * b ≤ c) : b ≤ c := by
  nlinarith

theorem gcdext_spec (q a : Int) (hq : 2 ≤ q) (hqm : q ≤ 2 ^ 32) (ha : 0 < a) (haq : a < q)
    (hcop : ∃ x y : Int, x * q + y * a = 1) :
    Ok (gcdext a q) (fun t => q ∣ t * a - 1 ∧ -q ≤ t ∧ t ≤ q) := by
  unfold gcdext
  simp only [Ok_bind, Ok_cassert]
  refine ⟨by simpa using ha.le, ?_⟩
  have main := Ok_whileFuel (I := GcdInv q a) (f := gcdext_step)
    (Q := fun st => q ∣ st.1 * a - 1 ∧ -q ≤ st.1 ∧ st.1 ≤ q) (fun st => st.2.2.2.toNat)
    (by
      rintro ⟨t, u, r, s⟩ hI
      obtain ⟨h1, h2, h3, h4, h5, ⟨x, y, hxy⟩, h7, h8⟩ := hI
      simp only at *
      unfold gcdext_step
      simp only
      split
      · rename_i hs
        subst hs
        simp only [Ok_ok]
        have hr : r = 1 := by
          have hx : r ∣ 1 := ⟨x, by linarith [mul_comm x r]⟩
          exact Int.eq_one_of_dvd_one (by omega) hx
        subst hr
        exact ⟨h1, h7⟩
      · rename_i hs
        have hspos : 1 ≤ s := by omega
        have hdiv : Int.tdiv r s = r / s := Int.tdiv_eq_ediv_of_nonneg (by omega)
        rw [hdiv]
        have e1 : r / s * s + r % s = r := by
          rw [mul_comm]; exact Int.mul_ediv_add_emod r s
        have hm0 : 0 ≤ r % s := Int.emod_nonneg _ (by omega)
        have hm1 : r % s < s := Int.emod_lt_of_pos _ (by omega)
        set k := r / s with hk
        have hk0 : 0 ≤ k := Int.ediv_nonneg (by omega) (by omega)
        have hkr : k ≤ r := by
          have : k * s ≤ r := by omega
          nlinarith
        have e2 : r - k * s = r % s := by omega
        -- bounds on u and u' = t - k*u
        have hub : (-q ≤ u ∧ u ≤ q) ∧ (-q ≤ t - k * u ∧ t - k * u ≤ q) ∧
            ((u ≤ 0 ∧ 0 ≤ t - k * u ∧ s * (t - k * u) - (r - k * s) * u = q) ∨
             (0 ≤ u ∧ t - k * u ≤ 0 ∧ (r - k * s) * u - s * (t - k * u) = q)) := by
          rcases h8 with ⟨ht, hu, hd⟩ | ⟨ht, hu, hd⟩
          · have hA : u ≤ q := by
              apply le_of_mul_le_pos (a := r) (by omega) hu
              nlinarith
            have hB : t - k * u ≤ 0 := by nlinarith [mul_nonneg hk0 hu]
            have hC : (r - k * s) * u - s * (t - k * u) = q := by rw [← hd]; ring
            have hD : -(t - k * u) ≤ q := by
              apply le_of_mul_le_pos (a := s) hspos (by omega)
              rw [e2] at hC
              nlinarith [mul_nonneg hm0 hu]
            exact ⟨by omega, by omega, Or.inr ⟨hu, hB, hC⟩⟩
          · have hA : -u ≤ q := by
              apply le_of_mul_le_pos (a := r) (by omega) (by omega)
              nlinarith
            have hB : 0 ≤ t - k * u := by nlinarith [mul_nonneg hk0 (show 0 ≤ -u by omega)]
            have hC : s * (t - k * u) - (r - k * s) * u = q := by rw [← hd]; ring
            have hD : t - k * u ≤ q := by
              apply le_of_mul_le_pos (a := s) hspos (by omega)
              rw [e2] at hC
              nlinarith [mul_nonneg hm0 (show 0 ≤ -u by omega)]
            exact ⟨by omega, by omega, Or.inl ⟨hu, hB, hC⟩⟩
        obtain ⟨hu1, hu2, hdet⟩ := hub
        simp only [Ok_bind, Ok_i64, Ok_ok]
        refine ⟨by omega, by omega, by omega, by omega, by omega, ?_, ?_⟩
        · refine ⟨h2, ?_, by simp only; omega, by simp only; omega, by simp only; omega, ?_, hu1, ?_⟩
          · simp only
            obtain ⟨c1, hc1⟩ := h1
            obtain ⟨c2, hc2⟩ := h2
            refine ⟨c1 - k * c2, ?_⟩
            have : (t - k * u) * a - (r - k * s) = (t * a - r) - k * (u * a - s) := by ring
            rw [this, hc1, hc2]; ring
          · refine ⟨y + x * k, x, ?_⟩
            simp only
            rw [← hxy]; ring
          · simp only
            rcases hdet with ⟨a1, a2, a3⟩ | ⟨a1, a2, a3⟩
            · exact Or.inl ⟨a1, a2, a3⟩
            · exact Or.inr ⟨a1, a2, a3⟩
        · rw [e2]; omega)
  refine (main (a.toNat + 1) (0, 1, q, a) ?_ (by simp)).mono ?_
  · refine ⟨by simp, by simp, ha.le, haq, le_refl _, hcop, by simp only; omega, Or.inl ?_⟩
    simp
  · rintro ⟨t, u, r, s⟩ h
    exact h

theorem inverse_spec {F : Field} {q : ℕ} (hF : F.Good q) (hp : q.Prime) {a : Int}
    (ha : Small q a) (h0 : a ≠ 0) :
    Ok (ZZp_inverse F a) (fun r => Bal q r ∧ (q : Int) ∣ a * r - 1) := by
  have h2 := hF.two_le; have hm := hF.le_max
  unfold Small at ha
  -- aa is in (0, q)
  have key : ∀ aa : Int, 0 < aa → aa < q → (q : Int) ∣ aa - a →
      Ok (gcdext aa q >>= fun inva => NORMALISE F inva) (fun r => Bal q r ∧ (q : Int) ∣ a * r - 1) := by
    intro aa h1 h3 h4
    have hc : ∃ x y : Int, x * (q : Int) + y * aa = 1 := by
      have : IsCoprime (q : Int) aa := by
        rw [Int.isCoprime_iff_gcd_eq_one]
        have hpp : Nat.Coprime q aa.natAbs := by
          rw [Nat.Prime.coprime_iff_not_dvd hp]
          intro hd
          have := Nat.le_of_dvd (by omega) hd
          omega
        exact hpp
      obtain ⟨x, y, hxy⟩ := this
      exact ⟨x, y, hxy⟩
    refine Ok.bind (gcdext_spec q aa (by omega) (by omega) h1 h3 hc) ?_
    rintro t ⟨ht1, ht2, ht3⟩
    refine (normalise_spec hF t t (by omega) (by omega) (by simp)).mono ?_
    rintro r ⟨hr1, hr2⟩
    refine ⟨hr1, ?_⟩
    have e : a * r - 1 = a * (r - t) - (aa - a) * t + (t * aa - 1) := by ring
    rw [e]
    exact dvd_add (dvd_sub (Dvd.dvd.mul_left hr2 _) (Dvd.dvd.mul_right h4 _)) ht1
  unfold ZZp_inverse
  rw [hF.p_eq]
  split
  · simp only [Ok_bind, Ok_i64]
    refine ⟨by omega, ?_⟩
    have := key (a + q) (by omega) (by omega) (by simp)
    rwa [Ok_bind] at this
  · have := key a (by omega) (by omega) (by simp)
    simp only [Ok_bind, Ok_ok] at this ⊢
    exact this

/-- Inverse of zero: the loop does not run, the result is 0. -/
theorem inverse_zero {F : Field} {q : ℕ} (hF : F.Good q) :
    Ok (ZZp_inverse F 0) (fun r => r = 0) := by
  have h2 := hF.two_le; have hm := hF.le_max
  have hn : Ok (NORMALISE F 0) (fun r => r = 0) := by
    unfold NORMALISE
    rw [hF.mhalfp_eq, hF.halfp_eq, if_neg (by omega), if_neg (by omega)]
    exact toI32_eq 0 (by norm_num) (by norm_num)
  have hg : gcdext 0 F.p = .ok 0 := rfl
  unfold ZZp_inverse
  simp only [Ok_bind, lt_irrefl, if_false, Ok_ok, hg]
  exact hn

/-! ### Casting to `ZMod q` -/

theorem Reps.cast {q : ℕ} {z r : Int} (h : Reps q z r) : (r : ZMod q) = (z : ZMod q) := by
  have := h.2
  rw [← ZMod.intCast_zmod_eq_zero_iff_dvd] at this
  push_cast at this
  exact sub_eq_zero.mp this

theorem Reps.small {q : ℕ} {z r : Int} (h : Reps q z r) : Small q r := h.1.small

/-- A small integer is zero iff its class is. -/
theorem small_eq_zero_iff {q : ℕ} (h2 : 2 ≤ q) {a : Int} (ha : Small q a) :
    (a : ZMod q) = 0 ↔ a = 0 := by
  rw [ZMod.intCast_zmod_eq_zero_iff_dvd]
  unfold Small at ha
  constructor
  · intro hd
    apply Int.eq_zero_of_abs_lt_dvd hd
    rw [abs_lt]; omega
  · rintro rfl; simp

/-- Balanced representatives are unique. -/
theorem bal_unique {q : ℕ} {a b : Int} (ha : Bal q a) (hb : Bal q b)
    (h : (a : ZMod q) = (b : ZMod q)) : a = b := by
  have : ((a - b : Int) : ZMod q) = 0 := by push_cast; rw [h]; simp
  rw [ZMod.intCast_zmod_eq_zero_iff_dvd] at this
  unfold Bal at ha hb
  have h3 := Int.eq_zero_of_abs_lt_dvd this (by rw [abs_lt]; omega)
  omega

/-- `axpy` in `ZMod q`. -/
theorem axpy_zmod {F : Field} {q : ℕ} (hF : F.Good q)
    {a x y : Int} (ha : Small q a) (hx : Small q x) (hy : Small q y) {Q : Int → Prop}
    (h : ∀ r, Bal q r → (r : ZMod q) = a * x + y → Q r) : Ok (ZZp_axpy F a x y) Q := by
  refine (axpy_spec hF ha hx hy).mono ?_
  intro r hr
  refine h r hr.1 ?_
  rw [hr.cast]; push_cast; rfl

theorem axpy_zmod_wide {F : Field} {q : ℕ} (hF : F.Good q)
    {a x y : Int} (ha : Wide a) (hx : Small q x) (hy : Small q y) {Q : Int → Prop}
    (h : ∀ r, Bal q r → (r : ZMod q) = a * x + y → Q r) : Ok (ZZp_axpy F a x y) Q := by
  refine (axpy_wide hF ha hx hy).mono ?_
  intro r hr
  refine h r hr.1 ?_
  rw [hr.cast]; push_cast; rfl

theorem mul_zmod {F : Field} {q : ℕ} (hF : F.Good q)
    {a x : Int} (ha : Small q a) (hx : Small q x) {Q : Int → Prop}
    (h : ∀ r, Bal q r → (r : ZMod q) = a * x → Q r) : Ok (ZZp_mul F a x) Q := by
  refine (mul_spec hF ha hx).mono ?_
  intro r hr
  refine h r hr.1 ?_
  rw [hr.cast]; push_cast; rfl

theorem add_zmod {F : Field} {q : ℕ} (hF : F.Good q)
    {a x : Int} (ha : Small q a) (hx : Small q x) {Q : Int → Prop}
    (h : ∀ r, Bal q r → (r : ZMod q) = a + x → Q r) : Ok (ZZp_add F a x) Q := by
  refine (add_spec hF ha hx).mono ?_
  intro r hr
  refine h r hr.1 ?_
  rw [hr.cast]; push_cast; rfl

theorem init_zmod {F : Field} {q : ℕ} (hF : F.Good q)
    {a : Int} {Q : Int → Prop}
    (h : ∀ r, Bal q r → (r : ZMod q) = a → Q r) : Ok (ZZp_init F a) Q := by
  refine (init_spec hF a).mono ?_
  intro r hr
  exact h r hr.1 hr.cast

theorem inverse_zmod {F : Field} {q : ℕ} [hp : Fact q.Prime] (hF : F.Good q)
    {a : Int} (ha : Small q a) (h0 : a ≠ 0) {Q : Int → Prop}
    (h : ∀ r, Bal q r → (r : ZMod q) = (a : ZMod q)⁻¹ → Q r) : Ok (ZZp_inverse F a) Q := by
  refine (inverse_spec hF hp.out ha h0).mono ?_
  rintro r ⟨h1, h2⟩
  refine h r h1 ?_
  rw [← ZMod.intCast_zmod_eq_zero_iff_dvd] at h2
  push_cast at h2
  have h3 : (a : ZMod q) * r = 1 := sub_eq_zero.mp h2
  exact eq_inv_of_mul_eq_one_right h3

end Spasm
