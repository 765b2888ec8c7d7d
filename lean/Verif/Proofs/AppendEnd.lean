import Verif.Proofs.Append

/-! The parallel appends end. -/

namespace Spasm

open Finset

variable {α : Type} {T : Nat}

/-- Twice the number of items left, minus the slots taken. -/
def ASt.left (s : ASt α T) : Nat :=
  ∑ t, (2 * (s.th t).todo.length - if (s.th t).slot.isSome = true then 1 else 0)

theorem left_update (s : ASt α T) (t : Fin T) (v : AThread α) (nz : Nat) (buf : Array α)
    (h : 2 * v.todo.length - (if v.slot.isSome = true then 1 else 0) <
      2 * (s.th t).todo.length - if (s.th t).slot.isSome = true then 1 else 0) :
    ASt.left ⟨nz, buf, Function.update s.th t v⟩ < s.left := by
  unfold ASt.left
  refine Finset.sum_lt_sum (fun u _ => ?_) ⟨t, mem_univ t, ?_⟩
  · by_cases hu : u = t
    · subst hu
      simp only [Function.update_self]
      exact h.le
    · simp only [Function.update_of_ne hu]
      exact le_rfl
  · simp only [Function.update_self]
    exact h

theorem astep_left {t : Fin T} {s s' : ASt α T} (h : astep t s = some (.ok s')) : s'.left < s.left := by
  unfold astep at h
  split at h
  · cases h
  · rename_i e es he
    cases h
    refine left_update s t _ _ _ ?_
    rw [he]
    simp
    omega
  · rename_i k e es he
    have h := Option.some.inj h
    unfold wr at h
    split at h
    · cases h
      refine left_update s t _ _ _ ?_
      rw [he]
      simp
      omega
    · cases h

/-- If no step is an error and the only states where nothing moves are final, a final state is reached. -/
theorem areach_end {s0 : ASt α T}
    (h : ∀ s, AReach s0 s → (∀ t r, astep t s = some r → ∃ s', r = .ok s') ∧ (s.Finished ∨ ∃ t r, astep t s = some r)) :
    ∃ s, AReach s0 s ∧ s.Finished := by
  have key : ∀ k s, s.left ≤ k → AReach s0 s → ∃ s, AReach s0 s ∧ s.Finished := by
    intro k
    induction k with
    | zero =>
      intro s hs hr
      obtain ⟨h1, h2⟩ := h s hr
      rcases h2 with h2 | ⟨t, r, h2⟩
      · exact ⟨s, hr, h2⟩
      · obtain ⟨s', rfl⟩ := h1 t r h2
        have := astep_left h2
        omega
    | succ k ih =>
      intro s hs hr
      obtain ⟨h1, h2⟩ := h s hr
      rcases h2 with h2 | ⟨t, r, h2⟩
      · exact ⟨s, hr, h2⟩
      · obtain ⟨s', rfl⟩ := h1 t r h2
        have := astep_left h2
        exact ih s' (by omega) (.step hr h2)
  exact key _ s0 le_rfl .init

end Spasm
