import Verif.Proofs.Zeroes

namespace Spasm

open Finset

theorem lsum_map_inj {q : ℕ} (g : Nat → Nat) (l : List (Nat × Int)) (j : Nat)
    (h : ∀ e ∈ l, g e.1 = g j → e.1 = j) :
    lsum q (l.map fun e => (g e.1, e.2)) (g j) = lsum q l j := by
  induction l with
  | nil => rfl
  | cons e l ih =>
    rw [List.map_cons, lsum_cons, lsum_cons, ih (fun e' he' => h e' (by simp [he']))]
    congr 1
    simp only
    by_cases he : e.1 = j
    · simp [he]
    · rw [if_neg he, if_neg (fun hg => he (h e (by simp) hg))]

theorem lsum_subEnt {q : ℕ} {c0 c1 : Int} (l : List (Nat × Int)) (j : Nat)
    (h0 : 0 ≤ c0) (h1 : c0 + j < c1) :
    lsum q (l.filterMap (subEnt c0 c1 true)) j = lsum q l (c0.toNat + j) := by
  induction l with
  | nil => rfl
  | cons e l ih =>
    by_cases hc : c0 ≤ (e.1 : Int) ∧ (e.1 : Int) < c1
    · have : subEnt c0 c1 true e = some ((e.1 - c0).toNat, e.2) := by simp [subEnt, hc]
      rw [List.filterMap_cons_some this, lsum_cons, lsum_cons, ih]
      congr 1
      simp only
      by_cases he : e.1 = c0.toNat + j
      · rw [if_pos he, if_pos (by omega)]
      · rw [if_neg he, if_neg (by omega)]
    · have : subEnt c0 c1 true e = none := by simp [subEnt]; omega
      rw [List.filterMap_cons_none this, lsum_cons, ih, if_neg (by omega), zero_add]

theorem lsum_filter_ne_zero {q : ℕ} (l : List (Nat × Int)) (j : Nat) :
    lsum q (l.filter fun e => decide (e.2 ≠ 0)) j = lsum q l j := by
  induction l with
  | nil => rfl
  | cons e l ih =>
    by_cases h : e.2 = 0
    · rw [List.filter_cons_of_neg (by simp [h]), ih, lsum_cons, h]; simp
    · rw [List.filter_cons_of_pos (by simp [h]), lsum_cons, lsum_cons, ih]

theorem lsum_flat {q : ℕ} (R : Nat → List (Nat × Int)) (n j : Nat) :
    lsum q (flat R n) j = ∑ i ∈ range n, lsum q (R i) j := by
  induction n with
  | zero => rfl
  | succ n ih => simp only [flat]; rw [lsum_append, ih, Finset.sum_range_succ]

theorem lsum_map_const {q : ℕ} (l : List (Nat × Int)) (i j k : Nat) :
    lsum q ((l.filter (fun e => decide (e.1 = j))).map (fun e => (i, e.2))) k
      = if i = k then lsum q l j else 0 := by
  induction l with
  | nil => simp
  | cons e l ih =>
    by_cases h : e.1 = j
    · rw [List.filter_cons_of_pos (by simp [h]), List.map_cons, lsum_cons, ih, lsum_cons]
      by_cases hk : i = k <;> simp [h, hk]
    · rw [List.filter_cons_of_neg (by simp [h]), ih, lsum_cons, if_neg h, zero_add]

theorem perm_flat_filter {α : Type} (key : α → Nat) (l : List α) (m : Nat)
    (h : ∀ e ∈ l, key e < m) :
    List.Perm (flat (fun j => l.filter (fun e => decide (key e = j))) m) l := by
  have : ∀ m, List.Perm (flat (fun j => l.filter (fun e => decide (key e = j))) m)
      (l.filter (fun e => decide (key e < m))) := by
    intro m
    induction m with
    | zero => simp [flat]
    | succ m ih =>
      simp only [flat]
      refine (List.Perm.append_right _ ih).trans ?_
      have hp := List.filter_append_perm (fun e => decide (key e < m))
        (l.filter (fun e => decide (key e < m + 1)))
      refine List.Perm.trans ?_ hp
      rw [List.filter_filter, List.filter_filter]
      apply List.Perm.of_eq
      congr 1
      · apply List.filter_congr; intro x _; rw [← Bool.decide_and]; simp only [decide_eq_decide]; omega
      · apply List.filter_congr; intro x _
        rw [← decide_not, ← Bool.decide_and]; simp only [decide_eq_decide]; omega
  refine (this m).trans ?_
  rw [List.filter_eq_self.mpr (fun e he => by simpa using h e he)]

theorem lsum_sel_items {q : ℕ} (T : Triplet) (t i j : Nat) :
    lsum q (sel (T.items t) i) j
      = ∑ k ∈ range t, if T.i.g k = i ∧ T.j.g k = j then (T.val k : ZMod q) else 0 := by
  induction t with
  | zero => rfl
  | succ t ih =>
    rw [T.items_succ, sel_append, lsum_append, ih, Finset.sum_range_succ]
    congr 1
    by_cases h : T.i.g t = i
    · subst h; rw [sel_single_eq, lsum_cons, lsum_nil, add_zero]; simp
    · rw [sel_single_ne _ (fun e => h e.symm), lsum_nil, if_neg (fun e => h e.1)]

theorem nodup_row_iff {A : Csr} :
    A.NoDup ↔ ∀ i, i < A.n → ((A.row i).map Prod.fst).Nodup := by
  have key : ∀ lo hi, ((A.seg lo hi).map Prod.fst).Nodup ↔
      ∀ k l, lo ≤ k → k < hi → lo ≤ l → l < hi → A.j.g k = A.j.g l → k = l := by
    intro lo hi
    unfold Csr.seg
    rw [List.map_map, List.nodup_map_iff_inj_on (List.nodup_range' (step := 1))]
    constructor
    · intro h k l h1 h2 h3 h4 h5
      exact h k (by rw [List.mem_range'_1]; omega) l (by rw [List.mem_range'_1]; omega) h5
    · intro h k hk l hl hkl
      rw [List.mem_range'_1] at hk hl
      exact h k l hk.1 (by omega) hl.1 (by omega) hkl
  unfold Csr.NoDup
  constructor
  · intro h i hi; exact (key _ _).mpr (h i hi)
  · intro h i hi; exact (key _ _).mp (h i hi)

theorem noZero_iff {A : Csr} (h : A.WF) :
    A.NoZero ↔ ∀ i, i < A.n → ∀ e ∈ A.row i, e.2 ≠ 0 := by
  constructor
  · intro hz i hi e he
    obtain ⟨k, h1, h2, rfl⟩ := Csr.mem_seg.mp he
    exact hz k (h.row_lt hi h2)
  · intro hz k hk
    obtain ⟨i, h1, h2, h3⟩ := h.row_of_pos hk
    exact hz i h1 (A.ent k) (Csr.mem_seg.mpr ⟨k, h2, h3, rfl⟩)

theorem card_filter_succ (P : Nat → Prop) [DecidablePred P] (j : Nat) :
    ((Finset.range (j + 1)).filter P).card = ((Finset.range j).filter P).card + if P j then 1 else 0 := by
  rw [Finset.range_add_one, Finset.filter_insert]
  by_cases hm : P j
  · rw [if_pos hm, if_pos hm, Finset.card_insert_of_notMem]
    simp
  · rw [if_neg hm, if_neg hm, Nat.add_zero]

end Spasm
