import Verif.Model.Datatype
import Verif.Proofs.ZZp

/-
C42: the types of the entries of dense matrices.
-/

namespace Spasm

/-- The type chosen for `q` holds the integer `v` exactly. -/
def Datatype.Exact (dt : Datatype) (v : Int) : Prop :=
  dt.conv v = v ∧ (dt = .i64 → -2 ^ 63 ≤ v ∧ v < 2 ^ 63)

theorem conv_of_lt {dt : Datatype} {v : Int}
    (h : |v| < match dt with | .double => 2 ^ 53 | .float => 2 ^ 24 | .i64 => 2 ^ 63) : dt.Exact v := by
  cases dt with
  | double => exact ⟨rnd_int_exact 53 v h, fun h => by cases h⟩
  | float => exact ⟨rnd_int_exact 24 v h, fun h => by cases h⟩
  | i64 =>
    have := abs_lt.mp (show |v| < 2 ^ 63 from h)
    exact ⟨rfl, fun _ => by omega⟩

/-- C42 (arithmetic). With the type chosen for `q`, the result of a multiplication followed by an
addition, of residues of absolute value at most `q / 2`, is exact. -/
theorem C42_product (q : ℕ) (hq : q ≤ 0xfffffffb) (a b c : Int) (ha : Small q a) (hb : Small q b)
    (hc : Small q c) : (datatype_choose q).Exact (a * b + c) := by
  refine conv_of_lt ?_
  have key : ∀ M : Int, (q : Int) / 2 ≤ M → |a * b + c| ≤ M * M + M := by
    intro M hM
    have h1 : |a| ≤ M := abs_le.mpr ⟨by have := ha.1; omega, by have := ha.2; omega⟩
    have h2 : |b| ≤ M := abs_le.mpr ⟨by have := hb.1; omega, by have := hb.2; omega⟩
    have h3 : |c| ≤ M := abs_le.mpr ⟨by have := hc.1; omega, by have := hc.2; omega⟩
    calc |a * b + c| ≤ |a * b| + |c| := abs_add_le _ _
      _ = |a| * |b| + |c| := by rw [abs_mul]
      _ ≤ M * M + M := by
        have := mul_le_mul h1 h2 (abs_nonneg b) (le_trans (abs_nonneg a) h1)
        omega
  unfold datatype_choose
  by_cases h1 : (q : Int) ≤ 8191
  · rw [if_pos h1]
    have := key 4095 (by omega)
    simp only; omega
  · rw [if_neg h1]
    by_cases h2 : (q : Int) ≤ 189812531
    · rw [if_pos h2]
      have := key 94906265 (by omega)
      simp only; omega
    · rw [if_neg h2]
      have := key 2147483645 (by omega)
      simp only; omega

/-- The bounds are the best possible: a product of two residues may be inexact modulo
slightly larger numbers. -/
theorem C42_tight : (∃ a b, Small 8209 a ∧ Small 8209 b ∧ Datatype.float.conv (a * b) ≠ (a * b : Int)) ∧
    ∃ a b, Small 189812535 a ∧ Small 189812535 b ∧ Datatype.double.conv (a * b) ≠ (a * b : Int) := by
  refine ⟨⟨4103, 4103, by unfold Small; decide, by unfold Small; decide, ?_⟩,
    ⟨94906267, 94906267, by unfold Small; decide, by unfold Small; decide, ?_⟩⟩
  · decide +kernel
  · decide +kernel

theorem rd_eq {α : Type} [Inhabited α] {a : Array α} {i : Nat} (h : i < a.size) : rd a i = .ok (a.g i) := by
  obtain ⟨x, h1, h2⟩ := Ok_iff.1 ((Ok_rd a i (fun x => x = a.g i)).2 ⟨h, rfl⟩)
  rw [h1, h2]

theorem rd_ge {α : Type} {a : Array α} {i : Nat} (h : a.size ≤ i) : rd a i = .error .ub := by
  unfold rd
  rw [Array.getElem?_eq_none h]

theorem truncQ_int (v : Int) : truncQ (v : ℚ) = v := by
  unfold truncQ
  split <;> simp

/-- C42. With the type chosen for `q`, a value of absolute value at most `q / 2` that is written in a
cell is read back unchanged, and the other cells are not modified. -/
theorem C42_exact (q : ℕ) (h2 : 2 ≤ q) (hq : q ≤ 0xfffffffb) (A : Array ℚ) (i : Nat) (hi : i < A.size)
    (v : Int) (hv : Small q v) :
    Ok (datatype_write A i (datatype_choose q) v) (fun B => B.size = A.size ∧
      datatype_read B i (datatype_choose q) = .ok v ∧
      ∀ k, k ≠ i → datatype_read B k (datatype_choose q) = datatype_read A k (datatype_choose q)) := by
  have he := (C42_product q hq 0 0 v (small_zero q) (small_zero q) hv).1
  rw [mul_zero, zero_add] at he
  unfold datatype_write
  rw [Ok_wr]
  refine ⟨hi, by simp, ?_, ?_⟩
  · have hr : rd (A.upd i ((datatype_choose q).conv v)) i = .ok (v : ℚ) := by
      rw [rd_eq (by simpa using hi), g_upd_eq _ _ _ hi, he]
    have hb : -2 ^ 31 ≤ v ∧ v < 2 ^ 31 := by
      have := hv.1; have := hv.2; omega
    unfold datatype_read
    rw [hr]
    cases datatype_choose (q : Int) with
    | double =>
      change i32 (truncQ (v : ℚ)) = _
      rw [truncQ_int, i32, if_pos hb]
    | float =>
      change i32 (truncQ (v : ℚ)) = _
      rw [truncQ_int, i32, if_pos hb]
    | i64 =>
      change Except.ok (toI32 (v : ℚ).num) = _
      rw [Rat.num_intCast, toI32, Int.bmod_eq_of_le (by omega) (by omega)]
  · intro k hk
    have : rd (A.upd i ((datatype_choose q).conv v)) k = rd A k := by
      by_cases h : k < A.size
      · rw [rd_eq (by simpa using h), rd_eq h, g_upd_ne _ _ _ _ hk]
      · rw [rd_ge (by simpa using h), rd_ge (by omega)]
    unfold datatype_read
    rw [this]

/-- A value that needs the 24 bits of a `float`, and one that does not fit. -/
example : datatype_read #[Datatype.float.conv 4095] 0 (datatype_choose 8191) = .ok 4095 := by decide +kernel
example : datatype_read #[Datatype.float.conv 16777217] 0 .float = .ok 16777216 := by decide +kernel

end Spasm
