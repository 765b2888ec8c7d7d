import Verif.Proofs.SparseSolve
import Verif.Proofs.Lu
import Verif.Proofs.Enc
import Verif.Proofs.Lists

/-
The list of columns of the solution of a sparse triangular system, and loops over it.
-/

namespace Spasm

open Finset

/-- The columns `xj[top .. m)`. -/
def Dfs.list (s : Dfs) (m : Nat) : List Nat := (List.range' s.top (m - s.top)).map (s.xj.g ·)

theorem Dfs.length_list (s : Dfs) (m : Nat) : (s.list m).length = m - s.top := by
  simp [Dfs.list]

theorem Dfs.mem_list {s : Dfs} {m j : Nat} : j ∈ s.list m ↔ s.Pat m j := by
  unfold Dfs.list Dfs.Pat
  rw [List.mem_map]
  constructor
  · rintro ⟨t, h, rfl⟩
    rw [List.mem_range'_1] at h
    exact ⟨t, h.1, by omega, rfl⟩
  · rintro ⟨t, h1, h2, rfl⟩
    exact ⟨t, by rw [List.mem_range'_1]; omega, rfl⟩

theorem Dfs.list_nodup {s : Dfs} {m : Nat}
    (h : ∀ t u, s.top ≤ t → t < m → s.top ≤ u → u < m → s.xj.g t = s.xj.g u → t = u) :
    (s.list m).Nodup := by
  unfold Dfs.list
  rw [List.nodup_map_iff_inj_on (List.nodup_range' (step := 1))]
  intro a ha b hb hab
  rw [List.mem_range'_1] at ha hb
  exact h a b ha.1 (by omega) hb.1 (by omega) hab

/-- A loop over `xj[top .. m)`, with an invariant on the prefix of the list. -/
theorem Ok_forRange_cols {σ : Type} (w : Dfs) {m : Nat} (htop : w.top ≤ m)
    (I : List Nat → σ → Prop) {f : Nat → σ → C σ} {s0 : σ} {Q : σ → Prop} (h0 : I [] s0)
    (hstep : ∀ px l s, w.top ≤ px → px < m → I l s → Ok (f px s) (I (l ++ [w.xj.g px])))
    (hfin : ∀ s, I (w.list m) s → Q s) : Ok (forRange w.top m s0 f) Q := by
  refine Ok_forRange_imp
    (I := fun px s => I ((List.range' w.top (px - w.top)).map (w.xj.g ·)) s) htop
    (by simpa using h0) ?_ hfin
  intro px s h1 h2 hI
  refine (hstep px _ s h1 h2 hI).mono ?_
  intro s' h
  have e : px + 1 - w.top = (px - w.top) + 1 := by omega
  rw [e, List.range'_1_concat, List.map_append]
  have e2 : w.top + (px - w.top) = px := by omega
  simpa [e2] using h

theorem lsum_map_nodup {q : ℕ} {m : Nat} (g : Nat → Nat) (f : Nat → Int) (i : Nat) :
    ∀ l : List Nat, l.Nodup → (∀ j ∈ l, j < m) →
    lsum q (l.map fun j => (g j, f j)) i =
      ∑ j ∈ range m, if j ∈ l ∧ g j = i then (f j : ZMod q) else 0 := by
  intro l
  induction l with
  | nil => intro _ _; simp
  | cons a l ih =>
    intro hn hl
    rw [List.nodup_cons] at hn
    rw [List.map_cons, lsum_cons, ih hn.2 (fun j hj => hl j (by simp [hj]))]
    rw [← Finset.add_sum_erase _ _ (mem_range.mpr (hl a (by simp))),
      ← Finset.add_sum_erase (a := a) (range m) (fun j => if j ∈ a :: l ∧ g j = i then (f j : ZMod q) else 0)
        (mem_range.mpr (hl a (by simp)))]
    have e1 : (if a ∈ l ∧ g a = i then (f a : ZMod q) else 0) = 0 := if_neg (fun h => hn.1 h.1)
    rw [e1, zero_add]
    simp only [List.mem_cons, true_or, true_and]
    congr 1
    refine Finset.sum_congr rfl ?_
    intro j hj
    have := (Finset.mem_erase.mp hj).1
    simp [this]

/-- The entry of column `c` in a list of distinct columns. -/
theorem lsum_map_self {q : ℕ} (f : Nat → Int) (c : Nat) (l : List Nat) (hn : l.Nodup) :
    lsum q (l.map fun j => (j, f j)) c = if c ∈ l then (f c : ZMod q) else 0 := by
  induction l with
  | nil => simp
  | cons a l ih =>
    rw [List.nodup_cons] at hn
    rw [List.map_cons, lsum_cons, ih hn.2]
    by_cases h : a = c
    · subst h; simp [hn.1]
    · have h' : ¬ c = a := fun e => h e.symm
      simp [h, h']

end Spasm
