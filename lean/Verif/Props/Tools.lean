import Verif.Proofs.Tools
import Verif.Props.IoAny

/-!
C43: the tools `stack` and `vertical_swap`.  `stacked` and `mirrored` are specified in Spec/Stack.lean, the format of
the files in Spec/Text.lean.
-/

namespace Spasm

open Sha

theorem loaded_any {jk : Junk} {jw : Nat → W} {q : ℕ} {prime : Int} (hp : LoadField true q prime) {f : List Char}
    {T : Triplet} {md : Option (Array B)} (h : triplet_load jk jw f prime none = .ok (T, md)) :
    T.WF ∧ T.F.Good q ∧ ∀ k, k < T.nz → Bal q (T.val k) ∧ T.val k ≠ 0 := by
  have h := (triplet_load_any (E := fun _ => True) trivial trivial jk jw hp (f := f) (.inr trivial)
    (hash := none) (by rintro _ h; cases h)).val h
  obtain ⟨⟨⟨n, m, l, -, -, h1⟩, h2, h3, h4⟩, -⟩ := h
  refine ⟨h1.wf, h3 rfl, ?_⟩
  intro k hk
  obtain ⟨e, he, -, -, hs⟩ := forall₂_right h1.lst (b := (T.i.g k, T.j.g k, T.val k))
    (List.mem_map.mpr ⟨k, List.mem_range.mpr hk, rfl⟩)
  rw [if_pos rfl] at hs
  refine ⟨hs.1, fun h0 => ?_⟩
  have hk2 := (List.mem_filter.mp he).2
  rw [kept_iff] at hk2
  rw [h0] at hs
  exact hk2 ⟨rfl, by rw [← hs.2]; simp⟩

theorem field_42013 : LoadField true 42013 42013 := .inl ⟨rfl, rfl, by decide, by decide⟩

/-- C43 (stack). On every file that is accepted (with dimensions that fit in an `int` and less than `2^31` entries),
the tool writes an SMS file: as many rows as there are rows with entries, as many columns as there are columns with
entries, and the same entries in the same order, renumbered. -/
theorem C43_stack {jk : Junk} {jw : Nat → W} {f : List Char} {T : Triplet} {md : Option (Array B)}
    (h : triplet_load jk jw f 42013 none = .ok (T, md)) (hn : T.n < 2 ^ 31) (hm : T.m < 2 ^ 31)
    (hz : T.nz < 2 ^ 31) :
    Ok (tool_stack jk jw f) (fun g => IsSms g (Nat.count (RowUsed T.lst) T.n) (Nat.count (ColUsed T.lst) T.m)
      (fromOne (stacked T.lst))) := by
  obtain ⟨h1, h2, h3⟩ := loaded_any field_42013 h
  unfold tool_stack
  rw [h, Ok_bind, Ok_ok, Ok_bind]
  refine (stack_lst jk h1 hn hm hz).mono ?_
  rintro S ⟨a1, a2, a3, a4⟩
  refine (triplet_save_spec a1).mono ?_
  rintro text rfl
  rw [← a2, ← a3, ← a4]
  have hc1 : S.n ≤ T.n := by rw [a2]; exact Nat.count_le _
  have hc2 : S.m ≤ T.m := by rw [a3]; exact Nat.count_le _
  refine saveText_sms (triplet_fits a1 (by omega) (by omega) ?_)
  intro k hk
  have hmem : (S.i.g k, S.j.g k, S.val k) ∈ S.lst := List.mem_map.mpr ⟨k, List.mem_range.mpr hk, rfl⟩
  rw [a4] at hmem
  obtain ⟨e, he, hee⟩ := List.mem_map.mp hmem
  obtain ⟨k', hk', rfl⟩ := List.mem_map.mp he
  simp only [Prod.mk.injEq] at hee
  rw [← hee.2.2]
  exact small_lt h2 (h3 k' (List.mem_range.mp hk')).1.small

/-- C43 (stack, meaning). The renumbering maps the non-empty rows one-to-one onto `0, …, n' - 1` and keeps their
order; the same for columns; the entry at the new position is the old one. -/
theorem C43_stack_entries {n m : Nat} {l : List (Nat × Nat × Int)} (hi : ∀ e ∈ l, e.1 < n) (hj : ∀ e ∈ l, e.2.1 < m) :
    (∀ i i', RowUsed l i → RowUsed l i' → (Nat.count (RowUsed l) i < Nat.count (RowUsed l) i' ↔ i < i')) ∧
    (∀ a, a < Nat.count (RowUsed l) n ↔ ∃ i, RowUsed l i ∧ Nat.count (RowUsed l) i = a) ∧
    (∀ j j', ColUsed l j → ColUsed l j' → (Nat.count (ColUsed l) j < Nat.count (ColUsed l) j' ↔ j < j')) ∧
    (∀ b, b < Nat.count (ColUsed l) m ↔ ∃ j, ColUsed l j ∧ Nat.count (ColUsed l) j = b) ∧
    (∀ q i j, RowUsed l i → ColUsed l j →
      tsum q (stacked l) (Nat.count (RowUsed l) i) (Nat.count (ColUsed l) j) = tsum q l i j) := by
  have key : ∀ (P : Nat → Prop) [DecidablePred P] (n : Nat), (∀ i, P i → i < n) →
      (∀ i i', P i → P i' → (Nat.count P i < Nat.count P i' ↔ i < i')) ∧
      (∀ a, a < Nat.count P n ↔ ∃ i, P i ∧ Nat.count P i = a) := by
    intro P _ n hP
    refine ⟨?_, ?_⟩
    · intro i i' h h'
      constructor
      · intro hc
        by_contra hle
        have := Nat.count_monotone P (not_lt.mp hle)
        omega
      · intro hlt
        exact Nat.count_strict_mono h hlt
    · intro a
      constructor
      · intro ha
        induction n with
        | zero => simp at ha
        | succ n ih =>
          by_cases hx : a < Nat.count P n
          · clear ih
            have : ∀ n, a < Nat.count P n → ∃ i, P i ∧ Nat.count P i = a := by
              intro n
              induction n with
              | zero => simp
              | succ n ih =>
                intro h
                by_cases hx : a < Nat.count P n
                · exact ih hx
                · by_cases hn : P n
                  · rw [Nat.count_succ, if_pos hn] at h
                    exact ⟨n, hn, by omega⟩
                  · rw [Nat.count_succ, if_neg hn] at h; omega
            exact this n hx
          · by_cases hn : P n
            · rw [Nat.count_succ, if_pos hn] at ha
              exact ⟨n, hn, by omega⟩
            · rw [Nat.count_succ, if_neg hn] at ha; omega
      · rintro ⟨i, hi, rfl⟩
        exact Nat.count_strict_mono hi (hP i hi)
  obtain ⟨r1, r2⟩ := key (RowUsed l) n (by rintro i ⟨e, he, rfl⟩; exact hi e he)
  obtain ⟨c1, c2⟩ := key (ColUsed l) m (by rintro i ⟨e, he, rfl⟩; exact hj e he)
  refine ⟨r1, r2, c1, c2, ?_⟩
  intro q i j hRi hCj
  unfold tsum stacked
  rw [List.map_map]
  congr 1
  refine List.map_congr_left fun e he => ?_
  have e1 : Nat.count (RowUsed l) e.1 = Nat.count (RowUsed l) i ↔ e.1 = i :=
    ⟨fun h => Nat.count_injective ⟨e, he, rfl⟩ hRi h, fun h => by rw [h]⟩
  have e2 : Nat.count (ColUsed l) e.2.1 = Nat.count (ColUsed l) j ↔ e.2.1 = j :=
    ⟨fun h => Nat.count_injective ⟨e, he, rfl⟩ hCj h, fun h => by rw [h]⟩
  simp only [Function.comp_apply, e1, e2]

/-- C43 (vertical_swap). On every file that is accepted, the tool writes an SMS file with the same dimensions and the
same entries, in the mirrored columns. -/
theorem C43_swap {jk : Junk} {jw : Nat → W} {f : List Char} {T : Triplet} {md : Option (Array B)}
    (h : triplet_load jk jw f 42013 none = .ok (T, md)) (hn : T.n < 2 ^ 31) (hm : T.m < 2 ^ 31) :
    Ok (tool_vertical_swap jk jw f) (fun g => g = saveText T.n T.m (mirrored T.m T.lst) ∧
      IsSms g T.n T.m (fromOne (mirrored T.m T.lst))) := by
  obtain ⟨h1, h2, h3⟩ := loaded_any field_42013 h
  unfold tool_vertical_swap
  rw [h, Ok_bind, Ok_ok, Ok_bind]
  refine (swap_lst h1 hm).mono ?_
  rintro S ⟨a1, a2, a3, a4⟩
  refine (triplet_save_spec a1).mono ?_
  rintro text rfl
  rw [← a2, ← a3, a3, ← a4]
  refine ⟨rfl, ?_⟩
  rw [← a3]
  refine saveText_sms (triplet_fits a1 (by omega) (by omega) ?_)
  intro k hk
  have hmem : (S.i.g k, S.j.g k, S.val k) ∈ S.lst := List.mem_map.mpr ⟨k, List.mem_range.mpr hk, rfl⟩
  rw [a4] at hmem
  obtain ⟨e, he, hee⟩ := List.mem_map.mp hmem
  obtain ⟨k', hk', rfl⟩ := List.mem_map.mp he
  simp only [Prod.mk.injEq] at hee
  rw [← hee.2.2]
  exact small_lt h2 (h3 k' (List.mem_range.mp hk')).1.small

/-- C43 (vertical_swap). Applied twice, it gives the entries of the matrix that was loaded, in the same order. -/
theorem C43_swap_twice {jk : Junk} {jw : Nat → W} {f : List Char} {T : Triplet} {md : Option (Array B)}
    (h : triplet_load jk jw f 42013 none = .ok (T, md)) (hn : T.n < 2 ^ 31) (hm : T.m < 2 ^ 31) :
    Ok (tool_vertical_swap jk jw f) (fun g => Ok (tool_vertical_swap jk jw g) (fun g' =>
      IsSms g' T.n T.m (fromOne T.lst))) := by
  obtain ⟨h1, h2, h3⟩ := loaded_any field_42013 h
  refine (C43_swap h hn hm).mono ?_
  rintro g ⟨hg, hs⟩
  have hlst : ∀ e ∈ T.lst, e.1 < T.n ∧ e.2.1 < T.m ∧ Bal 42013 e.2.2 ∧ e.2.2 ≠ 0 := by
    intro e he
    obtain ⟨k, hk, rfl⟩ := List.mem_map.mp he
    have hk := List.mem_range.mp hk
    exact ⟨h1.i_lt k hk, h1.j_lt k hk, h3 k hk⟩
  have hmem : ∀ e ∈ mirrored T.m T.lst, e.1 < T.n ∧ e.2.1 < T.m ∧ Bal 42013 e.2.2 ∧ e.2.2 ≠ 0 := by
    intro e he
    obtain ⟨e', he', rfl⟩ := List.mem_map.mp he
    obtain ⟨b1, b2, b3⟩ := hlst e' he'
    exact ⟨b1, by simp only; omega, b3⟩
  have hfit : Fits T.n T.m (mirrored T.m T.lst) := ⟨hn, hm, fun e he => (hmem e he).1, fun e he => (hmem e he).2.1,
    fun e he => small_lt h2 (hmem e he).2.2.1.small⟩
  obtain ⟨r, hr, c1, -⟩ := Ok_iff.mp (C41_sms jk jw field_42013 hs ⟨by omega, by omega⟩ ⟨by omega, by omega⟩
    (fits_one hfit) (hash := none) (by rintro _ h; cases h))
  obtain ⟨S, md'⟩ := r
  obtain ⟨d1, d2⟩ := c1.dims hfit
  have hl : S.lst = mirrored T.m T.lst := by
    rw [stored_bal (by decide) (fun e he => (hmem e he).2.2.1) c1.lst]
    refine List.filter_eq_self.mpr fun e he => by simpa using (hmem e he).2.2.2
  simp only at d1 d2
  refine (C43_swap hr (by omega) (by omega)).mono ?_
  rintro g' ⟨-, hg'⟩
  rw [hl, d1, d2, mirrored_twice (fun e he => (hlst e he).2.1)] at hg'
  exact hg'

/-- A file with an empty row and an empty column. -/
def exGap : List Char := "3 4 M\n1 2 5\n3 4 -2\n3 2 1\n0 0 0\n".toList

/-- What the tools write. -/
example : (match tool_stack default exJw exGap with
      | .ok g => decide (g = "2 2 M\n1 1 5\n2 2 -2\n2 1 1\n0 0 0\n".toList)
      | .error _ => false) = true ∧
    (match tool_vertical_swap default exJw exGap with
      | .ok g => decide (g = "3 4 M\n1 3 5\n3 1 -2\n3 3 1\n0 0 0\n".toList)
      | .error _ => false) = true := by decide +kernel

/-- The hypotheses of C43 are met: the file is accepted, with the dimensions `3 × 4` and three entries. -/
example : (match triplet_load default exJw exGap 42013 none with
      | .ok (T, _) => decide (T.n = 3 ∧ T.m = 4 ∧ T.nz = 3)
      | .error _ => false) = true := by decide +kernel

end Spasm
