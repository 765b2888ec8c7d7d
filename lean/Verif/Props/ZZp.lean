import Verif.Proofs.Inverse
import Mathlib.Tactic.NormNum.Prime

/-
Properties C01 and C02: arithmetic modulo p (src/spasm_ZZp.c).
-/

namespace Spasm

/-- C01 (field). For every modulus accepted by the assertions, `spasm_field_init` ends
normally and builds a record that describes arithmetic modulo `q`. -/
theorem C01_field_init (q : ℕ) (h2 : 2 ≤ q) (hm : q ≤ 0xfffffffb) :
    Ok (field_init q) (fun F => F.Good q) := field_init_good q h2 hm

/-- C01 (init). Reduction of any integer. -/
theorem C01_init (q : ℕ) (F : Field) (hF : F.Good q) (x : Int) :
    Ok (ZZp_init F x) (fun r => Bal q r ∧ (q : Int) ∣ r - x) := init_spec hF x

/-- C01 (add). -/
theorem C01_add (q : ℕ) (F : Field) (hF : F.Good q) (a b : Int) (ha : Small q a)
    (hb : Small q b) : Ok (ZZp_add F a b) (fun r => Bal q r ∧ (q : Int) ∣ r - (a + b)) :=
  add_spec hF ha hb

/-- C01 (sub). -/
theorem C01_sub (q : ℕ) (F : Field) (hF : F.Good q) (a b : Int) (ha : Small q a)
    (hb : Small q b) : Ok (ZZp_sub F a b) (fun r => Bal q r ∧ (q : Int) ∣ r - (a - b)) :=
  sub_spec hF ha hb

/-- C01 (mul), IEEE binary64 round-to-nearest-even. -/
theorem C01_mul (q : ℕ) (F : Field) (hF : F.Good q) (a b : Int) (ha : Small q a)
    (hb : Small q b) : Ok (ZZp_mul F a b) (fun r => Bal q r ∧ (q : Int) ∣ r - a * b) :=
  mul_spec hF ha hb

/-- C01 (axpy), IEEE binary64 round-to-nearest-even. -/
theorem C01_axpy (q : ℕ) (F : Field) (hF : F.Good q) (a x y : Int) (ha : Small q a)
    (hx : Small q x) (hy : Small q y) :
    Ok (ZZp_axpy F a x y) (fun r => Bal q r ∧ (q : Int) ∣ r - (a * x + y)) :=
  axpy_spec hF ha hx hy

/-- C01 (mul, any rounding direction): only a relative error of 2^-52 per operation is used. -/
theorem C01_mul_any_rounding (q : ℕ) (F : Field) (hF : F.Good q) (r : ℚ → ℚ) (hr : RelErr r)
    (a b : Int) (ha : Small q a) (hb : Small q b) :
    Ok (ZZp_mulR r F a b) (fun c => Bal q c ∧ (q : Int) ∣ c - a * b) := mulR_spec hF hr ha hb

/-- C01 (axpy, any rounding direction). -/
theorem C01_axpy_any_rounding (q : ℕ) (F : Field) (hF : F.Good q) (r : ℚ → ℚ) (hr : RelErr r)
    (a x y : Int) (ha : Small q a) (hx : Small q x) (hy : Small q y) :
    Ok (ZZp_axpyR r F a x y) (fun c => Bal q c ∧ (q : Int) ∣ c - (a * x + y)) :=
  axpyR_spec hF hr ha hx hy

/-- C01 (axpy, with the multiplication and addition fused by the compiler). -/
theorem C01_axpy_fma (q : ℕ) (F : Field) (hF : F.Good q) (r : ℚ → ℚ) (hr : RelErr r)
    (a x y : Int) (ha : Small q a) (hx : Small q x) (hy : Small q y) :
    Ok (ZZp_axpyFma r F a x y) (fun c => Bal q c ∧ (q : Int) ∣ c - (a * x + y)) :=
  axpyFma_spec hF hr ha hx hy

/-- C01 (uniqueness). The balanced representative of a class is unique, so the above theorems
determine the results completely. -/
theorem C01_unique (q : ℕ) (a b : Int) (ha : Bal q a) (hb : Bal q b) (h : (q : Int) ∣ a - b) :
    a = b := by
  apply bal_unique ha hb
  rw [← ZMod.intCast_zmod_eq_zero_iff_dvd] at h
  push_cast at h
  exact sub_eq_zero.mp h

/-- The IEEE rounding used above satisfies the error bound. -/
theorem C01_ieee_rounding : RelErr (rnd 53) := relErr_rnd53

/-- Hypotheses of C01 are satisfied: the largest modulus, extreme operands. -/
example : ∃ F, field_init 4294967291 = .ok F ∧ F.Good 4294967291 ∧
    Small 4294967291 2147483645 ∧ Small 4294967291 (-2147483645) := by
  have h := C01_field_init 4294967291 (by norm_num) (by norm_num)
  rw [Ok_iff] at h
  obtain ⟨F, h1, h2⟩ := h
  exact ⟨F, h1, h2, by unfold Small; omega, by unfold Small; omega⟩

/-- C02. The modular inverse of every nonzero small value, for every prime. -/
theorem C02_inverse (q : ℕ) (hp : q.Prime) (F : Field) (hF : F.Good q) (a : Int)
    (ha : Small q a) (h0 : a ≠ 0) :
    Ok (ZZp_inverse F a) (fun r => Bal q r ∧ (q : Int) ∣ a * r - 1) := inverse_spec hF hp ha h0

/-- C02 (zero). The inverse of 0 ends normally and returns 0. -/
theorem C02_inverse_zero (q : ℕ) (F : Field) (hF : F.Good q) :
    Ok (ZZp_inverse F 0) (fun r => r = 0) := inverse_zero hF

example : (65537 : ℕ).Prime ∧ Small 65537 (-32768) ∧ (-32768 : Int) ≠ 0 := by
  refine ⟨by norm_num, ?_, by norm_num⟩
  unfold Small; omega

end Spasm
