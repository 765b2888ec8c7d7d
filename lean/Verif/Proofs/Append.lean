import Verif.Model.Append
import Mathlib.Data.Multiset.Bind
import Mathlib.Algebra.BigOperators.Group.Finset.Basic
import Mathlib.Order.Interval.Finset.Nat
import Mathlib.Data.Fintype.BigOperators
import Mathlib.Algebra.Order.BigOperators.Group.Finset
import Mathlib.Tactic.Abel

namespace Spasm

open Finset

variable {α : Type} [Inhabited α] {T : Nat}

/-- Slot `k` is captured by some thread. -/
def ASt.Held (s : ASt α T) (k : Nat) : Prop := ∃ t, (s.th t).slot = some k

instance (s : ASt α T) (k : Nat) : Decidable (s.Held k) := by
  unfold ASt.Held; infer_instance

/-- The items already written. -/
def ASt.done (s : ASt α T) (nz0 : Nat) : Multiset α :=
  ((Ico nz0 s.nz).filter (fun k => ¬ s.Held k)).val.map s.buf.g

def ASt.todo (s : ASt α T) : Multiset α := ∑ t, ((s.th t).todo : Multiset α)

structure AInv (nz0 sz : Nat) (buf0 : Array α) (all : Multiset α) (s : ASt α T) : Prop where
  le : nz0 ≤ s.nz
  size : s.buf.size = sz
  old : ∀ k, k < nz0 → s.buf.g k = buf0.g k
  range : ∀ t k, (s.th t).slot = some k → nz0 ≤ k ∧ k < s.nz
  distinct : ∀ t u k, (s.th t).slot = some k → (s.th u).slot = some k → t = u
  busy : ∀ t, (s.th t).todo = [] → (s.th t).slot = none
  items : s.done nz0 + s.todo = all

theorem ainv_init (nz0 : Nat) (buf0 : Array α) (items : Fin T → List α) :
    AInv nz0 buf0.size buf0 (∑ t, (items t : Multiset α)) (ASt.init nz0 buf0 items) := by
  refine ⟨le_refl _, rfl, fun _ _ => rfl, ?_, ?_, fun _ _ => rfl, ?_⟩
  · intro t k h; simp [ASt.init] at h
  · intro t u k h; simp [ASt.init] at h
  · simp [ASt.done, ASt.todo, ASt.init]

theorem card_held_le {nz0 sz : Nat} {buf0 : Array α} {all : Multiset α} {s : ASt α T}
    (h : AInv nz0 sz buf0 all s) :
    ((Ico nz0 s.nz).filter (fun k => s.Held k)).card ≤ Multiset.card s.todo := by
  have h1 : Multiset.card s.todo = ∑ t, (s.th t).todo.length := by
    unfold ASt.todo
    exact map_sum (Multiset.cardHom (α := α)) (fun t => ((s.th t).todo : Multiset α)) univ
  rw [h1]
  have h2 : ((Ico nz0 s.nz).filter (fun k => s.Held k)) ⊆
      ((univ.filter fun t => (s.th t).slot.isSome = true).image fun t => (s.th t).slot.getD 0) := by
    intro k hk
    rw [mem_filter] at hk
    obtain ⟨-, t, ht⟩ := hk
    rw [mem_image]
    exact ⟨t, by simp [ht], by simp [ht]⟩
  refine (card_le_card h2).trans (card_image_le.trans ?_)
  rw [card_filter]
  refine sum_le_sum fun t _ => ?_
  split
  · rename_i hs
    rcases Nat.eq_zero_or_pos (s.th t).todo.length with h0 | h0
    · have := h.busy t (List.length_eq_zero_iff.mp h0)
      rw [this] at hs; simp at hs
    · exact h0
  · omega

theorem nz_le {nz0 sz : Nat} {buf0 : Array α} {all : Multiset α} {s : ASt α T}
    (h : AInv nz0 sz buf0 all s) : s.nz ≤ nz0 + Multiset.card all := by
  have h1 := card_held_le h
  have h2 : Multiset.card (s.done nz0) + Multiset.card s.todo = Multiset.card all := by
    rw [← h.items, Multiset.card_add]
  have h3 : Multiset.card (s.done nz0) = ((Ico nz0 s.nz).filter (fun k => ¬ s.Held k)).card := by
    unfold ASt.done; rw [Multiset.card_map]; rfl
  have h4 := card_filter_add_card_filter_not (s := Ico nz0 s.nz) (fun k => s.Held k)
  rw [Nat.card_Ico] at h4
  have := h.le
  omega

theorem todo_update (s : ASt α T) (t : Fin T) (v : AThread α) (nz : Nat) (buf : Array α) :
    ASt.todo ⟨nz, buf, Function.update s.th t v⟩ + ((s.th t).todo : Multiset α) =
      s.todo + (v.todo : Multiset α) := by
  unfold ASt.todo
  simp only
  rw [← Finset.add_sum_erase univ _ (mem_univ t), ← Finset.add_sum_erase univ
    (fun t => ((s.th t).todo : Multiset α)) (mem_univ t)]
  rw [Finset.sum_congr rfl (g := fun u => ((s.th u).todo : Multiset α))]
  · rw [Function.update_self]
    abel
  · intro u hu
    rw [Function.update_of_ne (ne_of_mem_erase hu)]

theorem astep_inv {nz0 sz : Nat} {buf0 : Array α} {all : Multiset α} {s : ASt α T}
    (h : AInv nz0 sz buf0 all s) (hcap : nz0 + Multiset.card all ≤ sz) (t : Fin T)
    {r : C (ASt α T)} (hr : astep t s = some r) : Ok r (AInv nz0 sz buf0 all) := by
  unfold astep at hr
  split at hr
  · cases hr
  · -- capture
    rename_i e es hth
    simp only [Option.some.injEq] at hr
    subst hr
    have hH : ∀ k, k < s.nz → (ASt.Held (⟨s.nz + 1, s.buf,
        Function.update s.th t ⟨some s.nz, e :: es⟩⟩ : ASt α T) k ↔ s.Held k) := by
      intro k hk
      constructor
      · rintro ⟨u, hu⟩
        simp only at hu
        by_cases he : u = t
        · subst he; rw [Function.update_self] at hu; simp at hu; omega
        · rw [Function.update_of_ne he] at hu; exact ⟨u, hu⟩
      · rintro ⟨u, hu⟩
        refine ⟨u, ?_⟩
        have he : u ≠ t := by rintro rfl; rw [hth] at hu; cases hu
        simp only
        rw [Function.update_of_ne he]; exact hu
    rw [Ok_ok]
    refine ⟨by have := h.le; simp only; omega, h.size, h.old, ?_, ?_, ?_, ?_⟩
    · intro u k hu
      simp only at hu ⊢
      by_cases he : u = t
      · subst he; rw [Function.update_self] at hu; simp at hu
        have := h.le; omega
      · rw [Function.update_of_ne he] at hu
        have := h.range u k hu; omega
    · intro u v k hu hv
      simp only at hu hv
      by_cases he : u = t <;> by_cases hf : v = t
      · rw [he, hf]
      · subst he; rw [Function.update_self] at hu; simp at hu
        rw [Function.update_of_ne hf] at hv
        have := h.range v k hv; omega
      · subst hf; rw [Function.update_self] at hv; simp at hv
        rw [Function.update_of_ne he] at hu
        have := h.range u k hu; omega
      · rw [Function.update_of_ne he] at hu
        rw [Function.update_of_ne hf] at hv
        exact h.distinct u v k hu hv
    · intro u hu
      simp only at hu ⊢
      by_cases he : u = t
      · subst he; rw [Function.update_self] at hu; cases hu
      · rw [Function.update_of_ne he] at hu ⊢
        exact h.busy u hu
    · have ht := todo_update s t ⟨some s.nz, e :: es⟩ (s.nz + 1) s.buf
      rw [hth] at ht
      simp only at ht
      have ht := add_right_cancel ht
      rw [ht]
      convert h.items using 2
      unfold ASt.done
      simp only
      congr 2
      ext k
      simp only [mem_filter, mem_Ico]
      constructor
      · rintro ⟨⟨h1, h2⟩, h3⟩
        have hne : k ≠ s.nz := by
          rintro rfl
          apply h3
          exact ⟨t, by simp⟩
        have hlt : k < s.nz := by omega
        exact ⟨⟨h1, hlt⟩, fun hc => h3 ((hH k hlt).mpr hc)⟩
      · rintro ⟨⟨h1, h2⟩, h3⟩
        exact ⟨⟨h1, by omega⟩, fun hc => h3 ((hH k h2).mp hc)⟩
  · -- write
    rename_i k e es hth
    simp only [Option.some.injEq] at hr
    subst hr
    have hk := h.range t k (by rw [hth])
    have hnz := nz_le h
    have hsz := h.size
    simp only [Ok_bind, Ok_wr, Ok_ok]
    refine ⟨by omega, ?_⟩
    have hH : ∀ l, (ASt.Held (⟨s.nz, s.buf.upd k e,
        Function.update s.th t ⟨none, es⟩⟩ : ASt α T) l ↔ s.Held l ∧ l ≠ k) := by
      intro l
      constructor
      · rintro ⟨u, hu⟩
        simp only at hu
        by_cases he : u = t
        · subst he; rw [Function.update_self] at hu; cases hu
        · rw [Function.update_of_ne he] at hu
          refine ⟨⟨u, hu⟩, ?_⟩
          rintro rfl
          exact he (h.distinct u t l hu (by rw [hth]))
      · rintro ⟨⟨u, hu⟩, hl⟩
        refine ⟨u, ?_⟩
        have he : u ≠ t := by
          rintro rfl; rw [hth] at hu; simp at hu; exact hl hu.symm
        simp only
        rw [Function.update_of_ne he]; exact hu
    refine ⟨h.le, by simpa using h.size, ?_, ?_, ?_, ?_, ?_⟩
    · intro l hl
      simp only
      rw [g_upd_ne _ _ _ _ (by omega)]; exact h.old l hl
    · intro u l hu
      simp only at hu ⊢
      by_cases he : u = t
      · subst he; rw [Function.update_self] at hu; cases hu
      · rw [Function.update_of_ne he] at hu
        exact h.range u l hu
    · intro u v l hu hv
      simp only at hu hv
      by_cases he : u = t
      · subst he; rw [Function.update_self] at hu; cases hu
      · by_cases hf : v = t
        · subst hf; rw [Function.update_self] at hv; cases hv
        · rw [Function.update_of_ne he] at hu
          rw [Function.update_of_ne hf] at hv
          exact h.distinct u v l hu hv
    · intro u hu
      simp only at hu ⊢
      by_cases he : u = t
      · subst he; rw [Function.update_self]
      · rw [Function.update_of_ne he] at hu ⊢
        exact h.busy u hu
    · have ht := todo_update s t ⟨none, es⟩ s.nz (s.buf.upd k e)
      rw [hth] at ht
      simp only at ht
      -- done' = done + {e}
      have hd : ASt.done (⟨s.nz, s.buf.upd k e, Function.update s.th t ⟨none, es⟩⟩ : ASt α T) nz0 =
          e ::ₘ s.done nz0 := by
        unfold ASt.done
        simp only
        have hf : ((Ico nz0 s.nz).filter (fun l => ¬ ASt.Held (⟨s.nz, s.buf.upd k e,
            Function.update s.th t ⟨none, es⟩⟩ : ASt α T) l)) =
            insert k ((Ico nz0 s.nz).filter (fun l => ¬ s.Held l)) := by
          ext l
          simp only [mem_filter, mem_Ico, mem_insert, hH]
          constructor
          · rintro ⟨h1, h2⟩
            by_cases hl : l = k
            · exact Or.inl hl
            · exact Or.inr ⟨h1, fun hc => h2 ⟨hc, hl⟩⟩
          · rintro (rfl | ⟨h1, h2⟩)
            · exact ⟨hk, fun hc => hc.2 rfl⟩
            · exact ⟨h1, fun hc => h2 hc.1⟩
        rw [hf]
        have hnk : k ∉ ((Ico nz0 s.nz).filter (fun l => ¬ s.Held l)) := by
          simp only [mem_filter, not_and, not_not]
          intro _
          exact ⟨t, by rw [hth]⟩
        rw [insert_val_of_notMem hnk, Multiset.map_cons, g_upd_eq _ _ _ (by omega)]
        congr 1
        refine Multiset.map_congr rfl ?_
        intro l hl
        rw [g_upd_ne]
        rintro rfl
        exact hnk hl
      rw [hd]
      have h3 := h.items
      have h4 : ((e :: es : List α) : Multiset α) = e ::ₘ (es : Multiset α) := rfl
      rw [h4] at ht
      rw [← h3]
      have : (e ::ₘ s.done nz0 + ASt.todo (⟨s.nz, s.buf.upd k e,
          Function.update s.th t ⟨none, es⟩⟩ : ASt α T)) + (es : Multiset α) =
          s.done nz0 + s.todo + (es : Multiset α) := by
        rw [← Multiset.singleton_add] at ht ⊢
        calc _ = s.done nz0 + (ASt.todo (⟨s.nz, s.buf.upd k e,
                Function.update s.th t ⟨none, es⟩⟩ : ASt α T) + ({e} + (es : Multiset α))) := by
              abel
          _ = _ := by rw [ht]; abel
      exact add_right_cancel this

theorem areach_inv {nz0 : Nat} {buf0 : Array α} {items : Fin T → List α}
    (hcap : nz0 + Multiset.card (∑ t, (items t : Multiset α)) ≤ buf0.size) {s : ASt α T}
    (h : AReach (ASt.init nz0 buf0 items) s) :
    AInv nz0 buf0.size buf0 (∑ t, (items t : Multiset α)) s := by
  induction h with
  | init => exact ainv_init nz0 buf0 items
  | step _ hs ih => exact astep_inv ih hcap _ hs

/-- In every interleaving: no step goes out of bounds; a state where no thread can move is
finished; and in a finished state the items appended are exactly those of the threads. -/
theorem append_spec {nz0 : Nat} {buf0 : Array α} {items : Fin T → List α}
    (hcap : nz0 + Multiset.card (∑ t, (items t : Multiset α)) ≤ buf0.size) {s : ASt α T}
    (h : AReach (ASt.init nz0 buf0 items) s) :
    (∀ t r, astep t s = some r → ∃ s', r = .ok s') ∧
    (s.Finished ∨ ∃ t r, astep t s = some r) ∧
    (s.Finished → s.nz = nz0 + Multiset.card (∑ t, (items t : Multiset α)) ∧
      s.buf.size = buf0.size ∧ (∀ k, k < nz0 → s.buf.g k = buf0.g k) ∧
      (Ico nz0 s.nz).val.map s.buf.g = ∑ t, (items t : Multiset α)) := by
  have hI := areach_inv hcap h
  refine ⟨?_, ?_, ?_⟩
  · intro t r hr
    have := astep_inv hI hcap t hr
    rw [Ok_iff] at this
    obtain ⟨s', h1, -⟩ := this
    exact ⟨s', h1⟩
  · by_cases hf : s.Finished
    · exact Or.inl hf
    · right
      unfold ASt.Finished at hf
      push Not at hf
      obtain ⟨t, ht⟩ := hf
      refine ⟨t, ?_⟩
      unfold astep
      cases hs : s.th t with
      | mk slot todo =>
        rw [hs] at ht
        cases todo with
        | nil => exact absurd rfl ht
        | cons e es => cases slot <;> exact ⟨_, rfl⟩
  · intro hf
    have hheld : ∀ k, ¬ s.Held k := by
      rintro k ⟨t, ht⟩
      rw [hI.busy t (hf t)] at ht; cases ht
    have htodo : s.todo = 0 := by
      unfold ASt.todo
      apply Finset.sum_eq_zero
      intro t _
      rw [hf t]; rfl
    have hdone := hI.items
    rw [htodo, add_zero] at hdone
    have hd : (Ico nz0 s.nz).val.map s.buf.g = ∑ t, (items t : Multiset α) := by
      rw [← hdone]
      unfold ASt.done
      rw [Finset.filter_true_of_mem (fun k _ => hheld k)]
    refine ⟨?_, hI.size, hI.old, hd⟩
    rw [← hd, Multiset.card_map]
    have := hI.le
    rw [show Multiset.card (Ico nz0 s.nz).val = (Ico nz0 s.nz).card from rfl, Nat.card_Ico]
    omega

end Spasm
