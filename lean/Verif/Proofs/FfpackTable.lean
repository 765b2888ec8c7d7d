import Verif.Proofs.FfpackExists

/-
A correct dense library, with explicit results on some matrices (for examples).
-/

namespace Spasm

open Finset

/-- Explicit results: null matrices, and single rows that start with 1. -/
def rrefTable (n m : Nat) (S : Array ℚ) : Option (Nat × Array ℚ × Array Nat) :=
  if n * m ≤ S.size ∧ (∀ k, k < n * m → S.g k = 0) then some (0, S, mkArr m fun i => i)
  else if n = 1 ∧ 0 < m ∧ m ≤ S.size ∧ S.g 0 = 1 then some (1, S, mkArr m fun i => i)
  else none

/-- Explicit factorizations: null matrices, and single rows that start with 1. -/
def luTable (n m : Nat) (S : Array ℚ) : Option (Nat × Array ℚ × Array Nat × Array Nat) :=
  if n * m ≤ S.size ∧ (∀ k, k < n * m → S.g k = 0) then some (0, S, mkArr n (fun i => i), mkArr m fun i => i)
  else if n = 1 ∧ 0 < m ∧ m ≤ S.size ∧ S.g 0 = 1 then some (1, S, #[0], mkArr m fun i => i)
  else none

/-- The library `ff`, except for the explicit results. -/
def Ffpack.over (ff : Ffpack) : Ffpack :=
  ⟨fun q n m S => match rrefTable n m S with
    | some r => r
    | none => ff.rref q n m S,
   fun q n m S => match luTable n m S with
    | some r => r
    | none => ff.lu q n m S⟩

theorem isPerm_mkArr (m : Nat) : IsPerm (mkArr m fun i => i).g m := by
  refine ⟨fun i hi => by rw [g_mkArr _ _ _ hi]; exact hi, fun i k hi hk e => ?_⟩
  rwa [g_mkArr _ _ _ hi, g_mkArr _ _ _ hk] at e

theorem rrefTable_correct {q : ℕ} {n m : Nat} {S : Array ℚ} {r : Nat × Array ℚ × Array Nat}
    (hr : rrefTable n m S = some r) {w : Nat → Nat → Int} (hC : Cells n m S w)
    (hb : ∀ i j, i < n → j < m → Bal q (w i j)) :
    Cells n m r.2.1 w ∧ DenseRref q n m w r.1 w r.2.2 ∧ r.2.1.size = S.size := by
  unfold rrefTable at hr
  split at hr
  · next h =>
    cases hr
    refine ⟨hC, ⟨Nat.zero_le _, Nat.zero_le _, size_mkArr .., isPerm_mkArr m, fun i j hi => by omega, ?_⟩, rfl⟩
    refine le_antisymm (spanOf_le fun t ht => by omega) (spanOf_le fun t ht => ?_)
    have : denseRow q m w t = 0 := by
      ext c
      unfold denseRow
      split
      · next hc =>
        have h1 := hC.2 t c ht hc
        have h2 := h.2 (t * m + c) (by
          have := Nat.mul_le_mul_right m (Nat.succ_le_of_lt ht)
          rw [Nat.succ_mul] at this
          omega)
        rw [h2] at h1
        have : w t c = 0 := by exact_mod_cast h1.symm
        rw [this]; simp
      · rfl
    rw [this]
    exact Submodule.zero_mem _
  · split at hr
    · next h =>
      cases hr
      obtain ⟨rfl, hm, hs, h1⟩ := h
      refine ⟨hC, ⟨le_refl _, hm, size_mkArr .., isPerm_mkArr m, fun i j hi _ hj => hb i j hi hj, ?_⟩, rfl⟩
      have h2 := hC.2 0 0 (by omega) hm
      rw [Nat.zero_mul, h1] at h2
      have h3 : w 0 0 = 1 := by exact_mod_cast h2.symm
      refine spanOf_congr fun i hi => ?_
      have : i = 0 := by omega
      subst this
      ext c
      unfold denseRrefRow denseRow onCols
      by_cases hc : c < m
      · rw [Finset.sum_eq_single c]
        · rw [g_mkArr _ _ _ hc, if_pos rfl, if_pos hc]
          by_cases h0 : c < 1
          · have : c = 0 := by omega
            subst this
            simp [h3]
          · simp only [if_neg h0]
        · intro b hb hbc
          rw [g_mkArr _ _ _ (mem_range.mp hb), if_neg hbc]
        · intro h; exact absurd (mem_range.mpr hc) h
      · rw [if_neg hc]
        refine Finset.sum_eq_zero fun b hb => ?_
        have := mem_range.mp hb
        rw [g_mkArr _ _ _ this, if_neg (by omega)]
    · cases hr

theorem cell_zero {n m : Nat} {S : Array ℚ} {w : Nat → Nat → Int} (hC : Cells n m S w)
    (h : ∀ k, k < n * m → S.g k = 0) {t c : Nat} (ht : t < n) (hc : c < m) : w t c = 0 := by
  have h1 := hC.2 t c ht hc
  have h2 := h (t * m + c) (by
    have := Nat.mul_le_mul_right m (Nat.succ_le_of_lt ht)
    rw [Nat.succ_mul] at this
    omega)
  rw [h2] at h1
  exact_mod_cast h1.symm

theorem luTable_correct {q : ℕ} {n m : Nat} {S : Array ℚ} {r : Nat × Array ℚ × Array Nat × Array Nat}
    (hr : luTable n m S = some r) {w : Nat → Nat → Int} (hC : Cells n m S w)
    (hb : ∀ i j, i < n → j < m → Bal q (w i j)) :
    Cells n m r.2.1 w ∧ IsPluq q n m w r.1 w r.2.2.1 r.2.2.2 ∧ r.2.1.size = S.size := by
  unfold luTable at hr
  split at hr
  · next h =>
    cases hr
    refine ⟨hC, ⟨Nat.zero_le _, Nat.zero_le _, size_mkArr .., size_mkArr .., isPerm_mkArr n, isPerm_mkArr m, hb,
      fun i hi => by omega, ?_⟩, rfl⟩
    intro i j hi hj
    simp only
    rw [g_mkArr _ _ _ hi, g_mkArr _ _ _ hj, cell_zero hC h.2 hi hj]
    simp
  · split at hr
    · next h =>
      cases hr
      obtain ⟨rfl, hm, hs, h1⟩ := h
      have h2 := hC.2 0 0 (by omega) hm
      rw [Nat.zero_mul, h1] at h2
      have h3 : w 0 0 = 1 := by exact_mod_cast h2.symm
      refine ⟨hC, ⟨le_refl _, hm, rfl, size_mkArr .., ⟨by simp only; decide, fun i k hi hk _ => by omega⟩,
        isPerm_mkArr m, hb, ?_, ?_⟩, rfl⟩
      · intro i hi
        have : i = 0 := by simp only at hi; omega
        subst this
        rw [h3]; decide
      · intro i j hi hj
        have : i = 0 := by omega
        subst this
        simp only
        rw [g_mkArr _ _ _ hj, Finset.sum_range_one, show (#[0] : Array Nat).g 0 = 0 from rfl]
        unfold luL luU
        rw [if_pos (le_refl _), h3]
        by_cases h0 : j = 0
        · subst h0; rw [h3, if_pos rfl]; simp
        · rw [if_neg h0, if_pos (by omega)]; simp
    · cases hr

theorem Ffpack.Correct.over {ff : Ffpack} {q : ℕ} (h : ff.Correct q) : ff.over.Correct q := by
  refine ⟨fun n m S w hC hb => ?_, fun n m S w hC hb => ?_⟩
  · unfold Ffpack.over
    cases e : rrefTable n m S with
    | none =>
      obtain ⟨w', h1⟩ := h.rref n m S w hC hb
      exact ⟨w', by simpa [e] using h1⟩
    | some r =>
      refine ⟨w, ?_⟩
      simp only [e]
      exact rrefTable_correct e hC hb
  · unfold Ffpack.over
    cases e : luTable n m S with
    | none =>
      obtain ⟨w', h1⟩ := h.lu n m S w hC hb
      exact ⟨w', by simpa [e] using h1⟩
    | some r =>
      refine ⟨w, ?_⟩
      simp only [e]
      exact luTable_correct e hC hb

end Spasm
