import Verif.Proofs.Permutation
import Verif.Spec.DmCanon
import Mathlib.Logic.Relation
import Mathlib.Data.Finset.Card

/-!
The coarse decomposition does not depend on the matching it was computed from.
-/

namespace Spasm

open Finset

/-- A coarse decomposition of a relation: `IsCoarse`, in natural numbers. -/
structure CoarseE (E : Nat → Nat → Prop) (n m : Nat) (p q : Nat → Nat) (c k1 k2 k3 : Nat) : Prop where
  perm_p : IsPerm p n
  perm_q : IsPerm q m
  le12 : k1 ≤ k2
  le23 : k2 ≤ k3
  le3 : k3 ≤ n
  col : m = c + k3
  mid : ∀ i j, i < n → j < m → E (p i) (q j) → k1 ≤ i → c + k1 ≤ j
  low : ∀ i j, i < n → j < m → E (p i) (q j) → k2 ≤ i → c + k2 ≤ j
  diag : ∀ t, t < k3 → E (p t) (q (c + t))
  vert : ∀ t, k2 ≤ t → t < n → ∃ u, k3 ≤ u ∧ u < n ∧
    Relation.ReflTransGen (fun s t => s < n ∧ t < k3 ∧ E (p s) (q (c + t))) u t
  horz : ∀ t, t < c + k1 → ∃ u, u < c ∧
    Relation.ReflTransGen (fun s t => s < m ∧ c ≤ t ∧ t < m ∧ E (p (t - c)) (q s)) u t

section

variable {E : Nat → Nat → Prop} {n m : Nat} {p q : Nat → Nat} {c k1 k2 k3 : Nat}

theorem IsPerm.rev {f : Nat → Nat} (h : IsPerm f n) : IsPerm (fun t => f (n - 1 - t)) n :=
  ⟨fun i hi => h.1 _ (by omega), fun i k hi hk e => by
    have := h.2 _ _ (by omega) (by omega) e
    omega⟩

/-- The decomposition of the transpose. -/
theorem CoarseE.dual (h : CoarseE E n m p q c k1 k2 k3) :
    CoarseE (fun j i => E i j) m n (fun t => q (m - 1 - t)) (fun t => p (n - 1 - t)) (n - k3) (k3 - k2) (k3 - k1) k3 := by
  have h1 := h.le12
  have h2 := h.le23
  have h3 := h.le3
  have h4 := h.col
  refine ⟨h.perm_q.rev, h.perm_p.rev, by omega, by omega, by omega, by omega, ?_, ?_, ?_, ?_, ?_⟩
  · intro i j hi hj e hk
    by_contra hn
    have := h.low (n - 1 - j) (m - 1 - i) (by omega) (by omega) e (by omega)
    omega
  · intro i j hi hj e hk
    by_contra hn
    have := h.mid (n - 1 - j) (m - 1 - i) (by omega) (by omega) e (by omega)
    omega
  · intro t ht
    have := h.diag (k3 - 1 - t) (by omega)
    rw [show n - 1 - (n - k3 + t) = k3 - 1 - t by omega, show m - 1 - t = c + (k3 - 1 - t) by omega]
    exact this
  · intro t ht htm
    obtain ⟨u, hu, hr⟩ := h.horz (m - 1 - t) (by omega)
    refine ⟨m - 1 - u, by omega, by omega, ?_⟩
    have := Relation.ReflTransGen.lift (p := fun s t => s < m ∧ t < k3 ∧
      E (p (n - 1 - (n - k3 + t))) (q (m - 1 - s))) (fun t => m - 1 - t) ?_ _ _ hr
    · simp only [Function.onFun] at this
      rwa [show m - 1 - (m - 1 - t) = t by omega] at this
    · rintro s t ⟨a, b, d, e⟩
      simp only [Function.onFun]
      refine ⟨by omega, by omega, ?_⟩
      rwa [show n - 1 - (n - k3 + (m - 1 - t)) = t - c by omega, show m - 1 - (m - 1 - s) = s by omega]
  · intro t ht
    obtain ⟨u, hu, hun, hr⟩ := h.vert (n - 1 - t) (by omega) (by omega)
    refine ⟨n - 1 - u, by omega, ?_⟩
    have := Relation.ReflTransGen.lift (p := fun s t => s < n ∧ n - k3 ≤ t ∧ t < n ∧
      E (p (n - 1 - s)) (q (m - 1 - (t - (n - k3))))) (fun t => n - 1 - t) ?_ _ _ hr
    · simp only [Function.onFun] at this
      rwa [show n - 1 - (n - 1 - t) = t by omega] at this
    · rintro s t ⟨a, b, e⟩
      simp only [Function.onFun]
      refine ⟨by omega, by omega, by omega, ?_⟩
      rwa [show n - 1 - (n - 1 - s) = s by omega, show m - 1 - (n - 1 - t - (n - k3)) = c + t by omega]

/-- The rows reached in at most `k` steps from the rows that are not matched. -/
def CoarseE.Near (E : Nat → Nat → Prop) (n : Nat) (p q : Nat → Nat) (c k3 : Nat) : Nat → Nat → Prop
  | 0, t => k3 ≤ t ∧ t < n
  | k + 1, t => CoarseE.Near E n p q c k3 k t ∨
      ∃ s, CoarseE.Near E n p q c k3 k s ∧ s < n ∧ t < k3 ∧ E (p s) (q (c + t))

theorem CoarseE.Near.of_path {u t : Nat} (hu : k3 ≤ u) (hun : u < n)
    (hr : Relation.ReflTransGen (fun s t => s < n ∧ t < k3 ∧ E (p s) (q (c + t))) u t) :
    ∃ k, CoarseE.Near E n p q c k3 k t := by
  induction hr with
  | refl => exact ⟨0, hu, hun⟩
  | tail _ e ih => obtain ⟨k, hk⟩ := ih; exact ⟨k + 1, .inr ⟨_, hk, e⟩⟩

/-- A matching of all columns after the first `c` that misses a row reached by an alternating path. -/
theorem CoarseE.shift (h : CoarseE E n m p q c k1 k2 k3) (k : Nat) : ∀ t, CoarseE.Near E n p q c k3 k t → t < n →
    ∃ σ : Nat → Nat, (∀ j, j < k3 → σ j < n ∧ E (p (σ j)) (q (c + j)) ∧ σ j ≠ t) ∧
      (∀ i j, i < k3 → j < k3 → σ i = σ j → i = j) ∧ ∀ j, j < k3 → ¬ CoarseE.Near E n p q c k3 k j → σ j = j := by
  have h3 := h.le3
  induction k with
  | zero =>
    rintro t ⟨ht, -⟩ _
    exact ⟨fun j => j, fun j hj => ⟨lt_of_lt_of_le hj h3, h.diag j hj, (lt_of_lt_of_le hj ht).ne⟩, fun i j _ _ e => e, fun j _ _ => rfl⟩
  | succ k ih =>
    intro t ht htn
    by_cases ht' : CoarseE.Near E n p q c k3 k t
    · obtain ⟨σ, a1, a2, a3⟩ := ih t ht' htn
      exact ⟨σ, a1, a2, fun j hj hn => a3 j hj fun hh => hn (.inl hh)⟩
    · obtain ht | ⟨s, hs, hsn, htk, e⟩ := ht
      · exact absurd ht ht'
      obtain ⟨σ, a1, a2, a3⟩ := ih s hs hsn
      have et := a3 t htk ht'
      have hst : s ≠ t := fun e => (a1 t htk).2.2 (by rw [et, e])
      refine ⟨fun j => if j = t then s else σ j, ?_, ?_, ?_⟩
      · intro j hj
        simp only
        split
        · next hjt => subst hjt; exact ⟨hsn, e, hst⟩
        · next hjt =>
          refine ⟨(a1 j hj).1, (a1 j hj).2.1, fun hh => hjt (a2 j t hj htk (by rw [hh, et]))⟩
      · intro i j hi hj hij
        simp only at hij
        split at hij <;> split at hij
        · omega
        · exact absurd hij.symm (a1 j hj).2.2
        · exact absurd hij (a1 i hi).2.2
        · exact a2 i j hi hj hij
      · intro j hj hn
        have hjt : j ≠ t := fun hh => hn (by rw [hh]; exact .inr ⟨s, hs, hsn, htk, e⟩)
        simp only [if_neg hjt]
        exact a3 j hj fun hh => hn (.inl hh)

/-- A matching that misses a row of the vertical part. -/
theorem CoarseE.exists_miss (h : CoarseE E n m p q c k1 k2 k3) {t : Nat} (ht : k2 ≤ t) (htn : t < n) :
    ∃ S, MatchingE E n m S ∧ S.card = k3 ∧ ∀ e ∈ S, e.1 ≠ p t := by
  obtain ⟨u, hu, hun, hr⟩ := h.vert t ht htn
  obtain ⟨k, hk⟩ := CoarseE.Near.of_path hu hun hr
  obtain ⟨σ, a1, a2, -⟩ := h.shift k t hk htn
  have h4 := h.col
  refine ⟨(range k3).image fun j => (p (σ j), q (c + j)), ⟨?_, ?_, ?_⟩, ?_, ?_⟩
  · intro e he
    obtain ⟨j, hj, rfl⟩ := mem_image.mp he
    have hj := mem_range.mp hj
    exact ⟨h.perm_p.1 _ (a1 j hj).1, h.perm_q.1 _ (by omega), (a1 j hj).2.1⟩
  · intro e he e' he' hee
    obtain ⟨j, hj, rfl⟩ := mem_image.mp he
    obtain ⟨i, hi, rfl⟩ := mem_image.mp he'
    have hj := mem_range.mp hj
    have hi := mem_range.mp hi
    rw [a2 j i hj hi (h.perm_p.2 _ _ (a1 j hj).1 (a1 i hi).1 hee)]
  · intro e he e' he' hee
    obtain ⟨j, hj, rfl⟩ := mem_image.mp he
    obtain ⟨i, hi, rfl⟩ := mem_image.mp he'
    have hj := mem_range.mp hj
    have hi := mem_range.mp hi
    have := h.perm_q.2 _ _ (by omega) (by omega) hee
    rw [show j = i by omega]
  · rw [card_image_of_injOn, card_range]
    intro j hj i hi hee
    simp only [coe_range, Set.mem_Iio] at hj hi
    have := h.perm_q.2 _ _ (by omega) (by omega) (Prod.mk.inj hee).2
    omega
  · intro e he hee
    obtain ⟨j, hj, rfl⟩ := mem_image.mp he
    have hj := mem_range.mp hj
    exact (a1 j hj).2.2 (h.perm_p.2 _ _ (a1 j hj).1 htn hee)

/-- No matching has more than `k3` entries, and those with `k3` entries contain all rows before the vertical part. -/
theorem CoarseE.hit (h : CoarseE E n m p q c k1 k2 k3) {S : Finset (Nat × Nat)} (hS : MatchingE E n m S) :
    S.card ≤ k3 ∧ (S.card = k3 → ∀ t, t < k2 → ∃ e ∈ S, e.1 = p t) := by
  classical
  have h2 := h.le23
  have h3 := h.le3
  have h4 := h.col
  have hpos : ∀ i, i < n → ∃ t, t < n ∧ p t = i := fun i hi => h.perm_p.surj hi
  have hpos' : ∀ j, j < m → ∃ t, t < m ∧ q t = j := fun j hj => h.perm_q.surj hj
  choose! pr hpr1 hpr2 using hpos
  choose! pc hpc1 hpc2 using hpos'
  let F : Nat × Nat → Nat := fun e => if pr e.1 < k2 then pr e.1 else pc e.2 - c
  have hcov : ∀ e ∈ S, ¬ pr e.1 < k2 → c + k2 ≤ pc e.2 := by
    intro e he hn
    have h1 := hS.entry e he
    refine h.low (pr e.1) (pc e.2) (hpr1 _ h1.1) (hpc1 _ h1.2.1) ?_ (by omega)
    rw [hpr2 _ h1.1, hpc2 _ h1.2.1]
    exact h1.2.2
  have hmap : ∀ e ∈ S, F e ∈ range k3 := by
    intro e he
    have h1 := hpc1 _ (hS.entry e he).2.1
    have h2 := hcov e he
    simp only [F, mem_range]
    split <;> omega
  have hinj : Set.InjOn F S := by
    intro e he f hf hef
    have he : e ∈ S := by simpa using he
    have hf : f ∈ S := by simpa using hf
    have h1 := hS.entry e he
    have h2 := hS.entry f hf
    have h3 := hcov e he
    have h4 := hcov f hf
    simp only [F] at hef
    split at hef <;> split at hef
    · exact hS.row e he f hf (by rw [← hpr2 _ h1.1, ← hpr2 _ h2.1, hef])
    · omega
    · omega
    · refine hS.col e he f hf ?_
      rw [← hpc2 _ h1.2.1, ← hpc2 _ h2.2.1]
      congr 1
      omega
  have hle := card_le_card_of_injOn F (fun e he => hmap e he) hinj
  rw [card_range] at hle
  refine ⟨hle, fun heq t ht => ?_⟩
  have himg : S.image F = range k3 :=
    eq_of_subset_of_card_le (fun x hx => by
      obtain ⟨e, he, rfl⟩ := mem_image.mp hx
      exact hmap e he) (by rw [card_range, card_image_of_injOn hinj, heq])
  have : t ∈ S.image F := by rw [himg, mem_range]; omega
  obtain ⟨e, he, hF⟩ := mem_image.mp this
  have h1 := hS.entry e he
  have h5 := hcov e he
  simp only [F] at hF
  split at hF
  · exact ⟨e, he, by rw [← hF, hpr2 _ h1.1]⟩
  · omega

theorem CoarseE.matched (h : CoarseE E n m p q c k1 k2 k3) : ∃ S, MatchingE E n m S ∧ S.card = k3 := by
  have h3 := h.le3
  have h4 := h.col
  refine ⟨(range k3).image fun j => (p j, q (c + j)), ⟨?_, ?_, ?_⟩, ?_⟩
  · intro e he
    obtain ⟨j, hj, rfl⟩ := mem_image.mp he
    have hj := mem_range.mp hj
    exact ⟨h.perm_p.1 _ (by omega), h.perm_q.1 _ (by omega), h.diag j hj⟩
  · intro e he e' he' hee
    obtain ⟨j, hj, rfl⟩ := mem_image.mp he
    obtain ⟨i, hi, rfl⟩ := mem_image.mp he'
    have hj := mem_range.mp hj
    have hi := mem_range.mp hi
    rw [h.perm_p.2 _ _ (by omega) (by omega) hee]
  · intro e he e' he' hee
    obtain ⟨j, hj, rfl⟩ := mem_image.mp he
    obtain ⟨i, hi, rfl⟩ := mem_image.mp he'
    have hj := mem_range.mp hj
    have hi := mem_range.mp hi
    have := h.perm_q.2 _ _ (by omega) (by omega) hee
    rw [show j = i by omega]
  · rw [card_image_of_injOn, card_range]
    intro j hj i hi hee
    simp only [coe_range, Set.mem_Iio] at hj hi
    exact h.perm_p.2 _ _ (by omega) (by omega) (Prod.mk.inj hee).1

/-- The largest matchings have `k3` entries. -/
theorem CoarseE.max_iff (h : CoarseE E n m p q c k1 k2 k3) {S : Finset (Nat × Nat)} :
    MaxMatchingE E n m S ↔ MatchingE E n m S ∧ S.card = k3 := by
  constructor
  · rintro ⟨h1, h2⟩
    obtain ⟨T, hT, hc⟩ := h.matched
    exact ⟨h1, le_antisymm (h.hit h1).1 (hc ▸ h2 T hT)⟩
  · rintro ⟨h1, h2⟩
    exact ⟨h1, fun T hT => h2 ▸ (h.hit hT).1⟩

/-- The vertical part: the rows missed by some largest matching. -/
theorem CoarseE.vert_iff (h : CoarseE E n m p q c k1 k2 k3) {t : Nat} (ht : t < n) :
    k2 ≤ t ↔ ∃ S, MaxMatchingE E n m S ∧ ∀ e ∈ S, e.1 ≠ p t := by
  constructor
  · intro hk
    obtain ⟨S, a, b, d⟩ := h.exists_miss hk ht
    exact ⟨S, h.max_iff.mpr ⟨a, b⟩, d⟩
  · rintro ⟨S, hS, hm⟩
    obtain ⟨a, b⟩ := h.max_iff.mp hS
    by_contra hn
    obtain ⟨e, he, hee⟩ := (h.hit a).2 b t (by omega)
    exact hm e he hee

theorem MatchingE.swap {S : Finset (Nat × Nat)} (h : MatchingE E n m S) :
    MatchingE (fun j i => E i j) m n (S.image Prod.swap) := by
  refine ⟨?_, ?_, ?_⟩
  · intro e he
    obtain ⟨f, hf, rfl⟩ := mem_image.mp he
    obtain ⟨a, b, d⟩ := h.entry f hf
    exact ⟨b, a, d⟩
  · intro e he e' he' hee
    obtain ⟨f, hf, rfl⟩ := mem_image.mp he
    obtain ⟨f', hf', rfl⟩ := mem_image.mp he'
    rw [h.col f hf f' hf' hee]
  · intro e he e' he' hee
    obtain ⟨f, hf, rfl⟩ := mem_image.mp he
    obtain ⟨f', hf', rfl⟩ := mem_image.mp he'
    rw [h.row f hf f' hf' hee]

theorem card_swap (S : Finset (Nat × Nat)) : (S.image Prod.swap).card = S.card :=
  card_image_of_injective _ Prod.swap_injective

theorem MaxMatchingE.swap {S : Finset (Nat × Nat)} (h : MaxMatchingE E n m S) :
    MaxMatchingE (fun j i => E i j) m n (S.image Prod.swap) := by
  refine ⟨h.1.swap, fun T hT => ?_⟩
  have := h.2 _ hT.swap
  rwa [card_swap] at this ⊢

/-- The horizontal part: the columns missed by some largest matching. -/
theorem CoarseE.horz_iff (h : CoarseE E n m p q c k1 k2 k3) {t : Nat} (ht : t < m) :
    t < c + k1 ↔ ∃ S, MaxMatchingE E n m S ∧ ∀ e ∈ S, e.2 ≠ q t := by
  have h1 := h.le12
  have h2 := h.le23
  have h4 := h.col
  have hd := h.dual.vert_iff (t := m - 1 - t) (by omega)
  rw [show m - 1 - (m - 1 - t) = t by omega] at hd
  rw [show t < c + k1 ↔ k3 - k1 ≤ m - 1 - t by omega, hd]
  constructor
  · rintro ⟨S, hS, hm⟩
    refine ⟨_, hS.swap, fun e he => ?_⟩
    obtain ⟨f, hf, rfl⟩ := mem_image.mp he
    exact hm f hf
  · rintro ⟨S, hS, hm⟩
    refine ⟨_, hS.swap, fun e he => ?_⟩
    obtain ⟨f, hf, rfl⟩ := mem_image.mp he
    exact hm f hf

/-- The rows of the horizontal part: those with an entry on a column of the horizontal part. -/
theorem CoarseE.horz_row_iff (h : CoarseE E n m p q c k1 k2 k3) {t : Nat} (ht : t < n) :
    t < k1 ↔ ∃ s, s < m ∧ s < c + k1 ∧ E (p t) (q s) := by
  have h1 := h.le12
  have h2 := h.le23
  have h4 := h.col
  constructor
  · intro hk
    exact ⟨c + t, by omega, by omega, h.diag t (by omega)⟩
  · rintro ⟨s, hs, hk, e⟩
    by_contra hn
    have := h.mid t s ht hs e (by omega)
    omega

/-- The columns of the vertical part: those with an entry on a row of the vertical part. -/
theorem CoarseE.vert_col_iff (h : CoarseE E n m p q c k1 k2 k3) {t : Nat} (ht : t < m) :
    c + k2 ≤ t ↔ ∃ s, s < n ∧ k2 ≤ s ∧ E (p s) (q t) := by
  have h2 := h.le23
  have h3 := h.le3
  have h4 := h.col
  constructor
  · intro hk
    refine ⟨t - c, by omega, by omega, ?_⟩
    have := h.diag (t - c) (by omega)
    rwa [show c + (t - c) = t by omega] at this
  · rintro ⟨s, hs, hk, e⟩
    exact h.low s t hs ht e hk

end

end Spasm
