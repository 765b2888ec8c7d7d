import Verif.Spec.Bitmap
import Verif.Proofs.Rounding

/-! The size of the images of `bitmap`. -/

namespace Spasm

theorem rnd_bounds {x : ℚ} (hx : 0 ≤ x) : x * (1 - 1 / 2 ^ 53) ≤ rnd 53 x ∧ rnd 53 x ≤ x * (1 + 1 / 2 ^ 53) := by
  have h := rnd_err 53 x
  rw [abs_of_nonneg hx, abs_le] at h
  have e : x / 2 ^ 53 = x * (1 / 2 ^ 53) := by ring
  rw [e] at h
  constructor <;> linarith [h.1, h.2]

theorem truncQ_floor {x : ℚ} (hx : 0 ≤ x) : truncQ x = ⌊x⌋ := by
  unfold truncQ
  rw [if_pos hx]

/-- `alpha`, as a rational number. -/
theorem bitmap_alpha_spec {M : LibM} {s : ℚ → ℚ} (hM : M.Sqrt s) {n m : Nat} (hn : 1 ≤ n) (hm : 1 ≤ m)
    (hn2 : n < 2 ^ 31) (hm2 : m < 2 ^ 31) {q : ℚ} (hq : 0 < q) :
    ∃ a : ℚ, bitmap_alpha M n m (.fin q) = .fin a ∧ 0 ≤ a ∧
      q * 1000000 * (1 - 1 / 2 ^ 49) ≤ a * a * (n * m) ∧ a * a * (n * m) ≤ q * 1000000 * (1 + 1 / 2 ^ 49) := by
  unfold bitmap_alpha
  rw [Dbl.ofInt_nat (by omega), Dbl.ofInt_nat (by omega), Dbl.mul_fin, Dbl.mul_fin]
  have hnQ : (1 : ℚ) ≤ n := by exact_mod_cast hn
  have hmQ : (1 : ℚ) ≤ m := by exact_mod_cast hm
  set P : ℚ := (n : ℚ) * m with hP
  have hP0 : 1 ≤ P := by rw [hP]; nlinarith
  set S : ℚ := q * 1000000 with hS
  have hS0 : 0 < S := by rw [hS]; positivity
  obtain ⟨a1, a2⟩ := rnd_bounds hS0.le
  obtain ⟨b1, b2⟩ := rnd_bounds (show 0 ≤ P by linarith)
  have hb : 0 < rnd 53 P := by
    have : (0 : ℚ) < 1 - 1 / 2 ^ 53 := by norm_num
    have := mul_pos (show 0 < P by linarith) this
    linarith
  have ha : 0 < rnd 53 S := by
    have : (0 : ℚ) < 1 - 1 / 2 ^ 53 := by norm_num
    have := mul_pos hS0 this
    linarith
  rw [Dbl.div_fin hb.ne']
  set y : ℚ := rnd 53 S / rnd 53 P with hy
  have hy0 : 0 < y := by positivity
  obtain ⟨c1, c2⟩ := rnd_bounds hy0.le
  set x := rnd 53 y
  have hx0 : 0 ≤ x := rnd_nonneg 53 hy0.le
  refine ⟨s x, hM.fin _ hx0, hM.nonneg _ hx0, ?_⟩
  have hs := hM.acc _ hx0
  rw [abs_le] at hs
  have e : x / 2 ^ 51 = x * (1 / 2 ^ 51) := by ring
  rw [e] at hs
  -- y * P
  have hyP : y * rnd 53 P = rnd 53 S := by rw [hy]; field_simp
  have y1 : S * (1 - 1 / 2 ^ 53) ≤ y * P * (1 + 1 / 2 ^ 53) := by
    calc _ ≤ rnd 53 S := a1
      _ = y * rnd 53 P := hyP.symm
      _ ≤ y * (P * (1 + 1 / 2 ^ 53)) := mul_le_mul_of_nonneg_left b2 hy0.le
      _ = _ := by ring
  have y2 : y * P * (1 - 1 / 2 ^ 53) ≤ S * (1 + 1 / 2 ^ 53) := by
    calc _ = y * (P * (1 - 1 / 2 ^ 53)) := by ring
      _ ≤ y * rnd 53 P := mul_le_mul_of_nonneg_left b1 hy0.le
      _ = rnd 53 S := hyP
      _ ≤ _ := a2
  set Y := y * P with hY
  have hY0 : 0 < Y := by rw [hY]; positivity
  have x1 : Y * (1 - 1 / 2 ^ 53) ≤ x * P := by
    calc _ = y * (1 - 1 / 2 ^ 53) * P := by rw [hY]; ring
      _ ≤ _ := mul_le_mul_of_nonneg_right c1 (by linarith)
  have x2 : x * P ≤ Y * (1 + 1 / 2 ^ 53) := by
    calc _ ≤ y * (1 + 1 / 2 ^ 53) * P := mul_le_mul_of_nonneg_right c2 (by linarith)
      _ = _ := by rw [hY]; ring
  set X := x * P with hX
  have hX0 : 0 ≤ X := by rw [hX]; exact mul_nonneg hx0 (by linarith)
  have z1 : X * (1 - 1 / 2 ^ 51) ≤ s x * s x * P := by
    calc _ = (x - x * (1 / 2 ^ 51)) * P := by rw [hX]; ring
      _ ≤ _ := mul_le_mul_of_nonneg_right (by linarith [hs.1]) (by linarith)
  have z2 : s x * s x * P ≤ X * (1 + 1 / 2 ^ 51) := by
    calc _ ≤ (x + x * (1 / 2 ^ 51)) * P := mul_le_mul_of_nonneg_right (by linarith [hs.2]) (by linarith)
      _ = _ := by rw [hX]; ring
  have y1' : S * (1 - 3 / 2 ^ 53) ≤ Y := by
    have k : S * (1 - 3 / 2 ^ 53) * (1 + 1 / 2 ^ 53) ≤ S * (1 - 1 / 2 ^ 53) := by
      rw [mul_assoc]
      exact mul_le_mul_of_nonneg_left (by norm_num) hS0.le
    exact le_of_mul_le_mul_right (k.trans y1) (by norm_num)
  have y2' : Y ≤ S * (1 + 3 / 2 ^ 53) := by
    have k : S * (1 + 1 / 2 ^ 53) ≤ S * (1 + 3 / 2 ^ 53) * (1 - 1 / 2 ^ 53) := by
      rw [mul_assoc S]
      exact mul_le_mul_of_nonneg_left (by norm_num) hS0.le
    exact le_of_mul_le_mul_right (y2.trans k) (by norm_num)
  constructor
  · calc S * (1 - 1 / 2 ^ 49) ≤ S * ((1 - 3 / 2 ^ 53) * (1 - 1 / 2 ^ 53) * (1 - 1 / 2 ^ 51)) :=
          mul_le_mul_of_nonneg_left (by norm_num) hS0.le
      _ = S * (1 - 3 / 2 ^ 53) * (1 - 1 / 2 ^ 53) * (1 - 1 / 2 ^ 51) := by ring
      _ ≤ Y * (1 - 1 / 2 ^ 53) * (1 - 1 / 2 ^ 51) :=
          mul_le_mul_of_nonneg_right (mul_le_mul_of_nonneg_right y1' (by norm_num)) (by norm_num)
      _ ≤ X * (1 - 1 / 2 ^ 51) := mul_le_mul_of_nonneg_right x1 (by norm_num)
      _ ≤ _ := z1
  · calc s x * s x * P ≤ X * (1 + 1 / 2 ^ 51) := z2
      _ ≤ Y * (1 + 1 / 2 ^ 53) * (1 + 1 / 2 ^ 51) := mul_le_mul_of_nonneg_right x2 (by norm_num)
      _ ≤ S * (1 + 3 / 2 ^ 53) * (1 + 1 / 2 ^ 53) * (1 + 1 / 2 ^ 51) :=
          mul_le_mul_of_nonneg_right (mul_le_mul_of_nonneg_right y2' (by norm_num)) (by norm_num)
      _ = S * ((1 + 3 / 2 ^ 53) * (1 + 1 / 2 ^ 53) * (1 + 1 / 2 ^ 51)) := by ring
      _ ≤ S * (1 + 1 / 2 ^ 49) := mul_le_mul_of_nonneg_left (by norm_num) hS0.le

theorem floor_le_of {x : ℚ} {k : Int} (h : (k : ℚ) ≤ x) : k ≤ ⌊x⌋ := Int.le_floor.mpr h

/-- One of the two sizes. -/
theorem bitmap_side {a : ℚ} (ha : 0 ≤ a) {k : Nat} (hk : k < 2 ^ 31) (h : a * k ≤ 2 ^ 30 * (15 / 8)) :
    ∃ c : Nat, ((Dbl.fin a).mul (Dbl.ofInt k)).toI32 = .ok (c : Int) ∧ (c : ℚ) ≤ a * k * (1 + 1 / 2 ^ 53) ∧
      a * k * (1 - 1 / 2 ^ 53) < c + 1 ∧ (∀ t : Nat, (t : ℚ) ≤ a * k → t < 2 ^ 53 → t ≤ c) := by
  have hak : 0 ≤ a * k := by positivity
  obtain ⟨h1, h2⟩ := rnd_bounds hak
  have h0 := rnd_nonneg 53 hak
  have hf : 0 ≤ ⌊rnd 53 (a * k)⌋ := Int.floor_nonneg.mpr h0
  obtain ⟨c, hc⟩ := Int.eq_ofNat_of_zero_le hf
  have hcQ : (c : ℚ) ≤ rnd 53 (a * k) := by
    have := Int.floor_le (rnd 53 (a * k))
    rw [hc] at this
    exact_mod_cast this
  refine ⟨c, ?_, hcQ.trans h2, ?_, ?_⟩
  · rw [Dbl.ofInt_nat (by omega), Dbl.mul_fin]
    show i32 (truncQ (rnd 53 (a * k))) = _
    rw [truncQ_floor h0, hc]
    have : (c : ℚ) < 2 ^ 31 := by
      calc (c : ℚ) ≤ a * k * (1 + 1 / 2 ^ 53) := hcQ.trans h2
        _ ≤ 2 ^ 30 * (15 / 8) * (1 + 1 / 2 ^ 53) := mul_le_mul_of_nonneg_right h (by norm_num)
        _ < 2 ^ 31 := by norm_num
    have hc31 : c < 2 ^ 31 := by exact_mod_cast this
    unfold i32
    rw [if_pos ⟨by simp, by simpa using hc31⟩]
  · have := Int.lt_floor_add_one (rnd 53 (a * k))
    rw [hc] at this
    have h3 : rnd 53 (a * k) < (c : ℚ) + 1 := by exact_mod_cast this
    linarith
  · intro t ht ht2
    have h3 := rnd_mono 53 (by norm_num) ht
    have h4 := rnd_int_exact 53 (t : Int) (by rw [abs_of_nonneg (by omega)]; exact_mod_cast ht2)
    push_cast at h4
    rw [h4] at h3
    have := floor_le_of (k := (t : Int)) (by exact_mod_cast h3)
    rw [hc] at this
    exact Int.ofNat_le.mp this

/-- The size of the image for a number of pixels. -/
theorem bitmap_dims_spec {M : LibM} {s : ℚ → ℚ} (hM : M.Sqrt s) {n m : Nat} (hn : 1 ≤ n) (hm : 1 ≤ m)
    (hn2 : n < 2 ^ 31) (hm2 : m < 2 ^ 31) {q : ℚ} (hq : 0 < q) (hq2 : q ≤ 1000) {o : BitmapOpts} (hw : o.w < 0)
    (hh : o.h < 0) :
    ∃ w h : Nat, bitmap_dims M n m o (.fin q) = .ok ((w : Int), (h : Int)) ∧ w ≤ m ∧ h ≤ n ∧
      ((w : ℚ) * h ≤ q * 1000000 * (1 + 1 / 2 ^ 48)) ∧
      ((w : ℚ) * n ≤ (h + 1) * m * (1 + 1 / 2 ^ 50)) ∧ ((h : ℚ) * m ≤ (w + 1) * n * (1 + 1 / 2 ^ 50)) ∧
      ((n : ℚ) * m < q * 1000000 * (1 - 1 / 2 ^ 49) → w = m ∧ h = n) ∧
      ((m : ℚ) ≤ q * 1000000 * n * (1 - 1 / 2 ^ 49) → 1 ≤ h) ∧
      ((n : ℚ) ≤ q * 1000000 * m * (1 - 1 / 2 ^ 49) → 1 ≤ w) ∧
      (q * 1000000 * n * (1 + 1 / 2 ^ 48) < m → h = 0) := by
  obtain ⟨a, ea, ha, a1, a2⟩ := bitmap_alpha_spec hM hn hm hn2 hm2 hq
  have hnQ : (1 : ℚ) ≤ n := by exact_mod_cast hn
  have hmQ : (1 : ℚ) ≤ m := by exact_mod_cast hm
  have hn2Q : (n : ℚ) ≤ 2 ^ 31 := by exact_mod_cast hn2.le
  have hm2Q : (m : ℚ) ≤ 2 ^ 31 := by exact_mod_cast hm2.le
  set S : ℚ := q * 1000000 with hS
  have hS0 : 0 < S := by rw [hS]; positivity
  have hS1 : S ≤ 1000000000 := by rw [hS]; linarith
  -- the square of a side
  have side : ∀ {k k' : ℚ}, 1 ≤ k → 1 ≤ k' → k ≤ 2 ^ 31 → a * a * (k * k') ≤ S * (1 + 1 / 2 ^ 49) →
      a * k ≤ 2 ^ 30 * (15 / 8) := by
    intro k k' h1 h1' h2 h3
    have hk0 : 0 ≤ a * a * k := by positivity
    have h4 : a * a * k ≤ 1000000000 * (1 + 1 / 2 ^ 49) := by
      calc a * a * k ≤ a * a * k * k' := le_mul_of_one_le_right hk0 h1'
        _ = a * a * (k * k') := by ring
        _ ≤ S * (1 + 1 / 2 ^ 49) := h3
        _ ≤ _ := mul_le_mul_of_nonneg_right hS1 (by norm_num)
    have h5 : (a * k) ^ 2 ≤ (2 ^ 30 * (15 / 8)) ^ 2 := by
      calc (a * k) ^ 2 = a * a * k * k := by ring
        _ ≤ 1000000000 * (1 + 1 / 2 ^ 49) * 2 ^ 31 := mul_le_mul h4 h2 (by linarith) (by norm_num)
        _ ≤ _ := by norm_num
    exact abs_le_of_sq_le_sq' h5 (by norm_num) |>.2
  obtain ⟨w, ew, w1, w2, w3⟩ := bitmap_side ha hm2 (side hmQ hnQ hm2Q (by rw [mul_comm (m : ℚ)]; exact a2))
  obtain ⟨h, eh, h1, h2, h3⟩ := bitmap_side ha hn2 (side hnQ hmQ hn2Q a2)
  have hbig : 1 ≤ a → m ≤ w ∧ n ≤ h := fun h1 =>
    ⟨w3 m (le_mul_of_one_le_left (by linarith) h1) (by omega), h3 n (le_mul_of_one_le_left (by linarith) h1) (by omega)⟩
  have hsmall : a < 1 → w ≤ m ∧ h ≤ n := by
    have key : ∀ {c k : Nat}, a < 1 → 1 ≤ k → k < 2 ^ 31 → (c : ℚ) ≤ a * k * (1 + 1 / 2 ^ 53) → c ≤ k := by
      intro c k ha1 hk hk2 hc
      by_contra hcon
      have hc' : (k : ℚ) + 1 ≤ c := by exact_mod_cast (show k + 1 ≤ c by omega)
      have hkQ : (k : ℚ) ≤ 2 ^ 31 := by exact_mod_cast hk2.le
      have hk0 : (0 : ℚ) ≤ k := by positivity
      have : a * k * (1 + 1 / 2 ^ 53) ≤ k * (1 + 1 / 2 ^ 53) :=
        mul_le_mul_of_nonneg_right (mul_le_of_le_one_left hk0 ha1.le) (by norm_num)
      have : (k : ℚ) * (1 + 1 / 2 ^ 53) = k + k * (1 / 2 ^ 53) := by ring
      have : (k : ℚ) * (1 / 2 ^ 53) ≤ 2 ^ 31 * (1 / 2 ^ 53) := mul_le_mul_of_nonneg_right hkQ (by norm_num)
      have : (2 : ℚ) ^ 31 * (1 / 2 ^ 53) < 1 := by norm_num
      linarith
    exact fun ha1 => ⟨key ha1 hm hm2 w1, key ha1 hn hn2 h1⟩
  refine ⟨min w m, min h n, ?_, by omega, by omega, ?_, ?_, ?_, ?_, ?_, ?_, ?_⟩
  · unfold bitmap_dims
    have hlt : (Dbl.fin 0).lt (.fin q) = true := by simp [Dbl.lt, hq]
    rw [if_pos ⟨hlt, hw, hh⟩, ea]
    simp only
    rw [ew, eh]
    simp only [bind, Except.bind]
    push_cast
    rfl
  · have hwm : ((min w m : Nat) : ℚ) ≤ w := by exact_mod_cast Nat.min_le_left _ _
    have hhn : ((min h n : Nat) : ℚ) ≤ h := by exact_mod_cast Nat.min_le_left _ _
    calc ((min w m : Nat) : ℚ) * ((min h n : Nat) : ℚ) ≤ w * h := mul_le_mul hwm hhn (by positivity) (by positivity)
      _ ≤ (a * m * (1 + 1 / 2 ^ 53)) * (a * n * (1 + 1 / 2 ^ 53)) := mul_le_mul w1 h1 (by positivity) (by positivity)
      _ = a * a * (n * m) * ((1 + 1 / 2 ^ 53) * (1 + 1 / 2 ^ 53)) := by ring
      _ ≤ S * (1 + 1 / 2 ^ 49) * ((1 + 1 / 2 ^ 53) * (1 + 1 / 2 ^ 53)) := mul_le_mul_of_nonneg_right a2 (by norm_num)
      _ = S * ((1 + 1 / 2 ^ 49) * ((1 + 1 / 2 ^ 53) * (1 + 1 / 2 ^ 53))) := by ring
      _ ≤ _ := mul_le_mul_of_nonneg_left (by norm_num) hS0.le
  · rcases le_or_gt 1 a with h5 | h5
    · obtain ⟨b1, b2⟩ := hbig h5
      rw [min_eq_right b1, min_eq_right b2]
      have : (0 : ℚ) ≤ m * (1 / 2 ^ 50) := by positivity
      have : (0 : ℚ) ≤ n * m * (1 / 2 ^ 50) := by positivity
      nlinarith
    · obtain ⟨b1, b2⟩ := hsmall h5
      rw [min_eq_left b1, min_eq_left b2]
      calc (w : ℚ) * n ≤ a * m * (1 + 1 / 2 ^ 53) * n := mul_le_mul_of_nonneg_right w1 (by linarith)
        _ ≤ a * n * (1 - 1 / 2 ^ 53) * (m * (1 + 1 / 2 ^ 50)) := by
          have : (0 : ℚ) ≤ a * n * m := by positivity
          calc _ = a * n * m * (1 + 1 / 2 ^ 53) := by ring
            _ ≤ a * n * m * ((1 - 1 / 2 ^ 53) * (1 + 1 / 2 ^ 50)) := mul_le_mul_of_nonneg_left (by norm_num) this
            _ = _ := by ring
        _ ≤ (h + 1) * (m * (1 + 1 / 2 ^ 50)) := mul_le_mul_of_nonneg_right h2.le (by positivity)
        _ = _ := by ring
  · rcases le_or_gt 1 a with h5 | h5
    · obtain ⟨b1, b2⟩ := hbig h5
      rw [min_eq_right b1, min_eq_right b2]
      have : (0 : ℚ) ≤ n * (1 / 2 ^ 50) := by positivity
      have : (0 : ℚ) ≤ n * m * (1 / 2 ^ 50) := by positivity
      nlinarith
    · obtain ⟨b1, b2⟩ := hsmall h5
      rw [min_eq_left b1, min_eq_left b2]
      calc (h : ℚ) * m ≤ a * n * (1 + 1 / 2 ^ 53) * m := mul_le_mul_of_nonneg_right h1 (by linarith)
        _ ≤ a * m * (1 - 1 / 2 ^ 53) * (n * (1 + 1 / 2 ^ 50)) := by
          have : (0 : ℚ) ≤ a * n * m := by positivity
          calc _ = a * n * m * (1 + 1 / 2 ^ 53) := by ring
            _ ≤ a * n * m * ((1 - 1 / 2 ^ 53) * (1 + 1 / 2 ^ 50)) := mul_le_mul_of_nonneg_left (by norm_num) this
            _ = _ := by ring
        _ ≤ (w + 1) * (n * (1 + 1 / 2 ^ 50)) := mul_le_mul_of_nonneg_right w2.le (by positivity)
        _ = _ := by ring
  · intro hsz
    have : 1 ≤ a := by
      by_contra hcon
      have hcon := not_le.mp hcon
      have : a * a ≤ 1 := by nlinarith
      have h5 : (0 : ℚ) ≤ n * m := by positivity
      have : a * a * (n * m) ≤ n * m := mul_le_of_le_one_left h5 this
      linarith
    obtain ⟨b1, b2⟩ := hbig this
    exact ⟨min_eq_right b1, min_eq_right b2⟩
  · intro hsz
    have : 1 ≤ h := h3 1 (by
      push_cast
      by_contra hcon
      have hcon := not_le.mp hcon
      have h0 : 0 ≤ a * n := by positivity
      have h5 : (a * n) * (a * n) < 1 := by nlinarith
      have h6 : (m : ℚ) ≤ (a * n) * (a * n) * m := by
        calc (m : ℚ) ≤ S * n * (1 - 1 / 2 ^ 49) := hsz
          _ = S * (1 - 1 / 2 ^ 49) * n := by ring
          _ ≤ a * a * (n * m) * n := mul_le_mul_of_nonneg_right a1 (by linarith)
          _ = _ := by ring
      have h7 : (a * n) * (a * n) * m < 1 * m := mul_lt_mul_of_pos_right h5 (by linarith)
      linarith) (by norm_num)
    omega
  · intro hsz
    have : 1 ≤ w := w3 1 (by
      push_cast
      by_contra hcon
      have hcon := not_le.mp hcon
      have h0 : 0 ≤ a * m := by positivity
      have h5 : (a * m) * (a * m) < 1 := by nlinarith
      have h6 : (n : ℚ) ≤ (a * m) * (a * m) * n := by
        calc (n : ℚ) ≤ S * m * (1 - 1 / 2 ^ 49) := hsz
          _ = S * (1 - 1 / 2 ^ 49) * m := by ring
          _ ≤ a * a * (n * m) * m := mul_le_mul_of_nonneg_right a1 (by linarith)
          _ = _ := by ring
      have h7 : (a * m) * (a * m) * n < 1 * n := mul_lt_mul_of_pos_right h5 (by linarith)
      linarith) (by norm_num)
    omega
  · intro hsz
    have : h < 1 := by
      by_contra hcon
      have hc' : (1 : ℚ) ≤ h := by exact_mod_cast (show 1 ≤ h by omega)
      have h5 : 1 ≤ a * n * (1 + 1 / 2 ^ 53) := hc'.trans h1
      have h0 : 0 ≤ a * n := by positivity
      have h6 : 1 ≤ (a * n * (1 + 1 / 2 ^ 53)) * (a * n * (1 + 1 / 2 ^ 53)) := by nlinarith
      have h7 : (m : ℚ) ≤ S * n * (1 + 1 / 2 ^ 48) := by
        calc (m : ℚ) ≤ (a * n * (1 + 1 / 2 ^ 53)) * (a * n * (1 + 1 / 2 ^ 53)) * m :=
              le_mul_of_one_le_left (by linarith) h6
          _ = a * a * (n * m) * (n * ((1 + 1 / 2 ^ 53) * (1 + 1 / 2 ^ 53))) := by ring
          _ ≤ S * (1 + 1 / 2 ^ 49) * (n * ((1 + 1 / 2 ^ 53) * (1 + 1 / 2 ^ 53))) :=
              mul_le_mul_of_nonneg_right a2 (by positivity)
          _ = S * n * ((1 + 1 / 2 ^ 49) * ((1 + 1 / 2 ^ 53) * (1 + 1 / 2 ^ 53))) := by ring
          _ ≤ _ := mul_le_mul_of_nonneg_left (by norm_num) (by positivity)
      linarith
    omega

end Spasm
