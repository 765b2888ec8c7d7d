import Verif.Proofs.BitmapFile
import Verif.Proofs.Bitmap
import Verif.Props.Pnm

/-!
C61: gray images, and the images drawn by the program `bitmap`.  The format, the number of entries on a pixel and
what is assumed about the C library are specified in Spec/Gray.lean and Spec/Bitmap.lean.
-/

namespace Spasm

open Sha

/-- The levels of a gray image: `c u v` is the number of entries on a pixel. A pixel without entry is white, a pixel
with the largest number of entries is black, more entries never give a lighter pixel, and the level is that of the
tenth root, to the nearest integer (up to one part in a hundred when the tenth root is near a half-integer). -/
structure Levels (x y : Nat) (c level : Nat → Nat → Nat) : Prop where
  white : ∀ u v, u < y → v < x → c u v = 0 → level u v = 255
  black : ∀ u v, u < y → v < x → (∀ u' v', u' < y → v' < x → c u' v' ≤ c u v) → level u v = 0
  anti : ∀ u v u' v', u < y → v < x → u' < y → v' < x → c u v ≤ c u' v' → level u' v' ≤ level u v
  root : ∀ u v u' v', u < y → v < x → u' < y → v' < x → (∀ u'' v'', u'' < y → v'' < x → c u'' v'' ≤ c u' v') →
    |(level u v : ℝ) - 255 * (1 - ((c u v : ℝ) / c u' v') ^ (1 / 10 : ℝ))| ≤ 51 / 100

theorem levels_of {M : LibM} {l e : ℚ → ℚ} (hM : M.Good l e) {x y mx : Nat} {c : Nat → Nat → Nat} (h0 : 0 < mx)
    (h31 : mx < 2 ^ 31) (hle : ∀ u v, u < y → v < x → c u v ≤ mx) (hat : ∃ u v, u < y ∧ v < x ∧ c u v = mx) :
    Levels x y c (fun u v => (grayLevel l e (c u v) mx).toNat) := by
  have h0' : (0 : Int) < mx := by omega
  have h31' : (mx : Int) < 2 ^ 31 := by omega
  have hr : ∀ u v, u < y → v < x → 0 ≤ grayLevel l e (c u v) mx ∧ grayLevel l e (c u v) mx ≤ 255 := fun u v hu hv =>
    grayLevel_range hM h0' (by omega) (by exact_mod_cast hle u v hu hv)
  obtain ⟨u0, v0, hu0, hv0, he0⟩ := hat
  have hmx : ∀ u v, u < y → v < x → (∀ u' v', u' < y → v' < x → c u' v' ≤ c u v) → c u v = mx := by
    intro u v hu hv h
    have h1 := h u0 v0 hu0 hv0
    have h2 := hle u v hu hv
    omega
  refine ⟨?_, ?_, ?_, ?_⟩
  · intro u v _ _ hc
    simp only [hc]
    rw [show ((0 : Nat) : Int) = 0 from rfl, grayLevel_zero]
    rfl
  · intro u v hu hv h
    simp only [hmx u v hu hv h, grayLevel_max hM h0']
    rfl
  · intro u v u' v' hu hv hu' hv' h
    have := grayLevel_anti hM h0' (v := c u v) (v' := c u' v') (by omega) (by exact_mod_cast h)
      (by exact_mod_cast hle u' v' hu' hv')
    exact Int.toNat_le_toNat this
  · intro u v u' v' hu hv hu' hv' h
    rw [hmx u' v' hu' hv' h]
    have h1 := grayLevel_acc hM h0' (v := c u v) (by omega) (by exact_mod_cast hle u v hu hv) h31'
    have h2 : (((grayLevel l e (c u v) mx).toNat : Nat) : ℝ) = ((grayLevel l e (c u v) mx : Int) : ℝ) := by
      have := Int.toNat_of_nonneg (hr u v hu hv).1
      exact_mod_cast this
    rw [h2]
    push_cast at h1
    exact h1

/-- C61 (partial), gray levels. For every matrix with at least one entry and every positive size, with less than `2^31`
pixels, `spasm_save_pnm` writes an image in gray levels with the properties `Levels`; no access is out of bounds and no
assertion fails.  Missing: larger images (as for `C45_overflow`), and matrices without entries (`C61_no_entry`). -/
theorem C61_gray_partial (jk : Junk) {M : LibM} {l e : ℚ → ℚ} (hM : M.Good l e) {A : Csr} (hA : A.WF) {x y : Nat}
    (hx : 1 ≤ x) (hy : 1 ≤ y) (hm : A.m < 2 ^ 31) (hne : 0 < A.p.g A.n) (hz : A.p.g A.n < 2 ^ 31)
    (hxy : min x A.m * min y A.n < 2 ^ 31) :
    Ok (save_pgm jk M A x y) (fun f => ∃ level, IsPgm f (min x A.m) (min y A.n) level ∧
      Levels (min x A.m) (min y A.n) (pixCount A (min x A.m) (min y A.n)) level) := by
  have hdim : 0 < A.n ∧ 0 < A.m := by
    obtain ⟨u, v, hu, hv, -⟩ := pixCount_pos hA (x := 1) (y := 1) le_rfl le_rfl hne
    constructor
    · by_contra h0
      have : A.n = 0 := by omega
      rw [this, hA.p_zero] at hne
      omega
    · have := hA.j_lt 0 hne
      omega
  refine (save_pgm_spec jk hM hA hx hy hm hz hxy (pixCount_pos hA (by omega) (by omega) hne)).mono ?_
  rintro f ⟨mx, h0, h31, hle, hat, hf⟩
  exact ⟨_, hf, levels_of hM h0 h31 hle hat⟩

attribute [local irreducible] pnm_cells in
/-- C61 (defect). For every matrix without entries (but with rows and columns), `0 / 0` is computed and the assertion
fails. -/
theorem C61_no_entry (jk : Junk) {M : LibM} {l e : ℚ → ℚ} (hM : M.Good l e) {A : Csr} (hA : A.WF) {x y : Nat}
    (hx : 1 ≤ x) (hy : 1 ≤ y) (hn : 0 < A.n) (hm0 : 0 < A.m) (hm : A.m < 2 ^ 31) (hne : A.p.g A.n = 0)
    (hxy : min x A.m * min y A.n < 2 ^ 31) :
    save_pgm jk M A x y = .error .assertFail := by
  have key : WpE (fun e => e = .assertFail) (save_pgm jk M A x y) (fun _ => False) := by
    unfold save_pgm
    simp only [← Nat.cast_min (α := Int)]
    have hX : 0 < min x A.m := by omega
    have hY : 0 < min y A.n := by omega
    have hXm : min x A.m ≤ A.m := by omega
    generalize min x A.m = X at *
    generalize min y A.n = Y at *
    rw [WpE_bind]
    refine WpE.mono (pnm_cells_exact jk hA (.inl hX) (.inl hY) hXm hm (by omega) hxy).wpe ?_
    rintro w ⟨hws, hw⟩
    have hzero : ∀ u v, u < Y → v < X → w.g (u * X + v) = 0 := by
      intro u v hu hv
      rw [hw u v hv hu]
      unfold pixCount
      rw [Finset.sum_eq_zero]
      · rfl
      · intro i hi
        rw [Finset.mem_range] at hi
        have := hA.row_le hi
        rw [Finset.card_eq_zero, Finset.Ico_eq_empty (by omega), Finset.filter_empty]
    rw [WpE_bind, show ((X : Int) * (Y : Int)).toNat = X * Y by rw [← Nat.cast_mul, Int.toNat_natCast]]
    refine WpE.mono (pnm_max_spec w hws.ge).wpe ?_
    rintro mx ⟨m0, m1, m2⟩
    have hmx : mx = 0 := by
      rcases m2 with h | ⟨c, hc, h⟩
      · exact h
      · have hv : c % X < X := Nat.mod_lt _ hX
        have hu : c / X < Y := by rwa [Nat.div_lt_iff_lt_mul hX, Nat.mul_comm]
        have := hzero _ _ hu hv
        rw [show c / X * X + c % X = c by rw [Nat.mul_comm]; exact Nat.div_add_mod c X, h] at this
        exact this
    subst hmx
    have hgray : pnm_gray M 0 0 = .error .assertFail := by
      have hi : pnm_intensity M 0 0 = .nan := by
        unfold pnm_intensity
        rw [Dbl.ofInt_eq (by norm_num)]
        have : Dbl.div (.fin ((0 : Int) : ℚ)) (.fin ((0 : Int) : ℚ)) = .nan := by simp [Dbl.div]
        rw [this, hM.log_nan]
        have : Dbl.mul (.fin (rnd 53 (1 / 10))) .nan = .nan := rfl
        rw [this, hM.exp_nan]
        rfl
      unfold pnm_gray
      simp only [hi]
      rfl
    rw [WpE_bind]
    simp only [Int.toNat_natCast]
    refine WpE.mono (WpE_forRange (I := fun i _ => i = 0) (Nat.zero_le _) rfl ?_) ?_
    · rintro i s - hi rfl
      refine WpE.mono (WpE_forRange (I := fun j _ => j = 0) (Nat.zero_le _) rfl ?_) ?_
      · rintro j s - hj rfl
        rw [WpE_bind]
        have h0 := hzero 0 0 hY hX
        have hsz : 0 < w.size := by rw [hws]; positivity
        refine WpE.mono (Q := fun v => v = 0) (Ok.wpe ?_) ?_
        · rw [Ok_rdI]
          simpa using ⟨hsz, by simpa using h0⟩
        · rintro v rfl
          rw [WpE_bind, hgray]
          rfl
      · intro s h0; omega
    · intro s h0; omega
  cases hc : save_pgm jk M A x y with
  | ok f => rw [hc] at key; exact key.elim
  | error e => rw [hc] at key; rw [show e = .assertFail from key]

theorem exSqrt_ex (x : ℚ) (hx : 0 ≤ x) : ∃ s : ℚ, 0 ≤ s ∧ |s * s - x| ≤ x / 2 ^ 51 := by
  rcases hx.eq_or_lt with rfl | h
  · exact ⟨0, le_rfl, by norm_num⟩
  · have hx' : (0 : ℝ) < x := by exact_mod_cast h
    have hlt : Real.sqrt (x * (1 - 1 / 2 ^ 51)) < Real.sqrt x := by
      apply Real.sqrt_lt_sqrt
      · have : (0 : ℝ) ≤ 1 - 1 / 2 ^ 51 := by norm_num
        positivity
      · norm_num
        linarith
    obtain ⟨s, s1, s2⟩ := exists_rat_btwn hlt
    have s0 : (0 : ℝ) ≤ s := le_trans (Real.sqrt_nonneg _) s1.le
    have h1 : (x : ℝ) * (1 - 1 / 2 ^ 51) ≤ s * s := by
      rw [Real.sqrt_lt' (lt_of_le_of_lt (Real.sqrt_nonneg _) s1)] at s1
      nlinarith
    have h2 : (s : ℝ) * s ≤ x := by
      rw [Real.lt_sqrt s0] at s2
      nlinarith
    have h1' : x * (1 - 1 / 2 ^ 51) ≤ s * s := (Rat.cast_le (K := ℝ)).mp (by push_cast; exact h1)
    have h2' : s * s ≤ x := by exact_mod_cast h2
    refine ⟨s, by exact_mod_cast s0, ?_⟩
    rw [abs_le]
    constructor
    · linarith
    · have : 0 ≤ x / 2 ^ 51 := by positivity
      linarith

open Classical in
noncomputable def exSqrt (x : ℚ) : ℚ := if h : 0 ≤ x then (exSqrt_ex x h).choose else 0

theorem exSqrt_spec {x : ℚ} (h : 0 ≤ x) : 0 ≤ exSqrt x ∧ |exSqrt x * exSqrt x - x| ≤ x / 2 ^ 51 := by
  unfold exSqrt
  rw [dif_pos h]
  exact (exSqrt_ex x h).choose_spec

/-- A library. -/
noncomputable def exLibM : LibM where
  exp
    | .nan => .nan
    | .inf s => if s then .fin 0 else .inf false
    | .fin x => .fin (⌊(2 : ℝ) ^ 50 * Real.exp x⌋ / 2 ^ 50)
  log
    | .nan => .nan
    | .inf s => if s then .nan else .inf false
    | .fin x => if x = 0 then .inf true else .fin (⌈(2 : ℝ) ^ 50 * Real.log x⌉ / 2 ^ 50)
  sqrt
    | .nan => .nan
    | .inf s => if s then .nan else .inf false
    | .fin x => .fin (exSqrt x)

theorem exLibM_good : exLibM.Good (fun x => ⌈(2 : ℝ) ^ 50 * Real.log x⌉ / 2 ^ 50)
    (fun x => ⌊(2 : ℝ) ^ 50 * Real.exp x⌋ / 2 ^ 50) where
  log_nan := rfl
  log_zero := by simp [exLibM]
  log_fin x h _ := by simp [exLibM, h.ne']
  log_one := by simp
  log_mono x y hx h _ := by
    have h1 : Real.log x ≤ Real.log y := Real.log_le_log (by exact_mod_cast hx) (by exact_mod_cast h)
    have h2 : ⌈(2 : ℝ) ^ 50 * Real.log x⌉ ≤ ⌈(2 : ℝ) ^ 50 * Real.log y⌉ := Int.ceil_le_ceil (by gcongr)
    have h3 : ((⌈(2 : ℝ) ^ 50 * Real.log x⌉ : Int) : ℚ) ≤ ⌈(2 : ℝ) ^ 50 * Real.log y⌉ := by exact_mod_cast h2
    gcongr
  log_acc x _ _ := by
    have h1 := Int.le_ceil ((2 : ℝ) ^ 50 * Real.log x)
    have h2 := (Int.ceil_lt_add_one ((2 : ℝ) ^ 50 * Real.log x)).le
    push_cast
    rw [abs_le]
    constructor
    · have : Real.log x ≤ (⌈(2 : ℝ) ^ 50 * Real.log x⌉ : ℝ) / 2 ^ 50 := by rw [le_div_iff₀ (by positivity)]; linarith
      have : (0 : ℝ) < 1 / 2 ^ 40 := by positivity
      linarith
    · rw [sub_le_iff_le_add, div_le_iff₀ (by positivity)]
      norm_num at h2 ⊢
      linarith
  exp_nan := rfl
  exp_ninf := rfl
  exp_fin _ _ := rfl
  exp_zero := by
    have : ⌊(2 : ℝ) ^ 50 * Real.exp ((0 : ℚ) : ℝ)⌋ = 2 ^ 50 := by
      rw [Rat.cast_zero, Real.exp_zero, mul_one, Int.floor_eq_iff]
      norm_num
    simp only [this]
    norm_num
  exp_nonneg x _ := by
    have h : (0 : Int) ≤ ⌊(2 : ℝ) ^ 50 * Real.exp x⌋ := Int.floor_nonneg.mpr (by positivity)
    have : (0 : ℚ) ≤ ⌊(2 : ℝ) ^ 50 * Real.exp x⌋ := by exact_mod_cast h
    positivity
  exp_mono x y h _ := by
    have h1 : Real.exp x ≤ Real.exp y := Real.exp_le_exp.mpr (by exact_mod_cast h)
    have h2 : ⌊(2 : ℝ) ^ 50 * Real.exp x⌋ ≤ ⌊(2 : ℝ) ^ 50 * Real.exp y⌋ := Int.floor_le_floor (by gcongr)
    have h3 : ((⌊(2 : ℝ) ^ 50 * Real.exp x⌋ : Int) : ℚ) ≤ ⌊(2 : ℝ) ^ 50 * Real.exp y⌋ := by exact_mod_cast h2
    gcongr
  exp_acc x _ := by
    have h1 := Int.floor_le ((2 : ℝ) ^ 50 * Real.exp x)
    have h2 := (Int.lt_floor_add_one ((2 : ℝ) ^ 50 * Real.exp x)).le
    push_cast
    rw [abs_le]
    constructor
    · rw [le_sub_iff_add_le, le_div_iff₀ (by positivity)]
      norm_num at h2 ⊢
      linarith
    · have : (⌊(2 : ℝ) ^ 50 * Real.exp x⌋ : ℝ) / 2 ^ 50 ≤ Real.exp x := by rw [div_le_iff₀ (by positivity)]; linarith
      have : (0 : ℝ) < 1 / 2 ^ 40 := by positivity
      linarith

theorem exLibM_sqrt : exLibM.Sqrt exSqrt := ⟨fun _ _ => rfl, fun _ hx => (exSqrt_spec hx).1, fun _ hx => (exSqrt_spec hx).2⟩

/-- The hypotheses of `C61_gray_partial` are met: `exPix` drawn with two columns. -/
example : ∃ f level, save_pgm default exLibM exPix 2 2 = .ok f ∧ IsPgm f 2 2 level ∧ level 0 0 = 0 ∧ level 1 1 = 255 := by
  obtain ⟨f, e, level, h1, h2⟩ := Ok_iff.mp (C61_gray_partial default exLibM_good (A := exPix) (x := 2) (y := 2)
    (Csr.wf_of_check (by decide +kernel)) (by decide) (by decide) (by decide) (by decide) (by decide) (by decide))
  refine ⟨f, level, e, h1, h2.black 0 0 (by decide) (by decide) ?_, h2.white 1 1 (by decide) (by decide) ?_⟩
  · have : ∀ u' < 2, ∀ v' < 2, pixCount exPix 2 2 u' v' ≤ pixCount exPix 2 2 0 0 := by decide +kernel
    exact fun u' v' hu hv => this u' hu v' hv
  · decide +kernel

/-- The hypotheses of `C61_no_entry` are met. -/
example : save_pgm default exLibM { n := 2, m := 4, p := #[0, 0, 0], j := #[], x := none, F := Field.ofPrime 7 } 2 2 =
    .error .assertFail :=
  C61_no_entry default exLibM_good (x := 2) (y := 2) (Csr.wf_of_check (by decide +kernel)) (by decide) (by decide)
    (by decide) (by decide) (by decide) (by decide) (by decide)

end Spasm
