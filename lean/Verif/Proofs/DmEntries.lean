import Verif.Proofs.DmCanonFine

/-!
Which entries belong to a largest matching.
-/

namespace Spasm

open Finset

section

variable {E : Nat → Nat → Prop} {n m : Nat} {p q : Nat → Nat} {c k1 k2 k3 : Nat}

/-- An entry can be exchanged with the one on its row, if its column is missed. -/
theorem MaxMatchingE.exchange {S : Finset (Nat × Nat)} (hS : MaxMatchingE E n m S) {i j : Nat} (hi : i < n) (hj : j < m)
    (e : E i j) (hm : ∀ f ∈ S, f.2 ≠ j) {g : Nat × Nat} (hg : g ∈ S) (hgi : g.1 = i) :
    ∃ T, MaxMatchingE E n m T ∧ (i, j) ∈ T := by
  classical
  have hn : (i, j) ∉ S.erase g := fun h => hm _ (mem_of_mem_erase h) rfl
  refine ⟨insert (i, j) (S.erase g), ⟨⟨?_, ?_, ?_⟩, ?_⟩, mem_insert_self _ _⟩
  · intro f hf
    rcases mem_insert.mp hf with rfl | hf
    · exact ⟨hi, hj, e⟩
    · exact hS.1.entry f (mem_of_mem_erase hf)
  · intro f hf f' hf' hff
    rcases mem_insert.mp hf with rfl | hf <;> rcases mem_insert.mp hf' with rfl | hf'
    · rfl
    · exact absurd (hS.1.row f' (mem_of_mem_erase hf') g hg (hff.symm.trans hgi.symm)) (ne_of_mem_erase hf')
    · exact absurd (hS.1.row f (mem_of_mem_erase hf) g hg (hff.trans hgi.symm)) (ne_of_mem_erase hf)
    · exact hS.1.row f (mem_of_mem_erase hf) f' (mem_of_mem_erase hf') hff
  · intro f hf f' hf' hff
    rcases mem_insert.mp hf with rfl | hf <;> rcases mem_insert.mp hf' with rfl | hf'
    · rfl
    · exact absurd hff.symm (hm f' (mem_of_mem_erase hf'))
    · exact absurd hff (hm f (mem_of_mem_erase hf))
    · exact hS.1.col f (mem_of_mem_erase hf) f' (mem_of_mem_erase hf') hff
  · intro T hT
    have := hS.2 T hT
    rw [card_insert_of_notMem hn, card_erase_of_mem hg]
    have := card_pos.mpr ⟨g, hg⟩
    omega

/-- Entries of the horizontal part. -/
theorem CoarseE.in_horz (h : CoarseE E n m p q c k1 k2 k3) {s w : Nat} (hs : s < k1) (hw : w < c + k1) (hwm : w < m)
    (e : E (p s) (q w)) : ∃ S, MaxMatchingE E n m S ∧ (p s, q w) ∈ S := by
  have a1 := h.le12
  have a2 := h.le23
  have a3 := h.le3
  obtain ⟨S, hS, hm⟩ := (h.horz_iff hwm).mp hw
  obtain ⟨b1, b2⟩ := h.max_iff.mp hS
  obtain ⟨g, hg, hgi⟩ := (h.hit b1).2 b2 s (by omega)
  exact hS.exchange (h.perm_p.1 s (by omega)) (h.perm_q.1 w hwm) e hm hg hgi

/-- Entries of the vertical part. -/
theorem CoarseE.in_vert (h : CoarseE E n m p q c k1 k2 k3) {s w : Nat} (hs : k2 ≤ s) (hsn : s < n) (hw : c + k2 ≤ w)
    (hwm : w < m) (e : E (p s) (q w)) : ∃ S, MaxMatchingE E n m S ∧ (p s, q w) ∈ S := by
  have a2 := h.le23
  have a3 := h.le3
  have a4 := h.col
  obtain ⟨S, hS, hm⟩ := h.dual.in_horz (s := m - 1 - w) (w := n - 1 - s) (by omega) (by omega) (by omega) (by
    rwa [show m - 1 - (m - 1 - w) = w by omega, show n - 1 - (n - 1 - s) = s by omega])
  rw [show m - 1 - (m - 1 - w) = w by omega, show n - 1 - (n - 1 - s) = s by omega] at hm
  exact ⟨_, hS.swap, mem_image.mpr ⟨_, hm, rfl⟩⟩

/-- The positions reached in at most `k` steps from `t`. -/
def CoarseE.NearTo (E : Nat → Nat → Prop) (p q : Nat → Nat) (c k1 k2 t : Nat) : Nat → Nat → Prop
  | 0, x => x = t
  | k + 1, x => CoarseE.NearTo E p q c k1 k2 t k x ∨
      ∃ s, CoarseE.NearTo E p q c k1 k2 t k s ∧ E (p s) (q (c + x)) ∧ k1 ≤ s ∧ s < k2 ∧ k1 ≤ x ∧ x < k2

theorem CoarseE.NearTo.of_path {t x : Nat} (hr : SqPath E p q c k1 k2 t x) :
    ∃ k, CoarseE.NearTo E p q c k1 k2 t k x := by
  induction hr with
  | refl => exact ⟨0, rfl⟩
  | tail _ e ih => obtain ⟨k, hk⟩ := ih; exact ⟨k + 1, .inr ⟨_, hk, e⟩⟩

/-- A matching of all columns after the first `c` but one, that misses a given row. -/
theorem CoarseE.turn (h : CoarseE E n m p q c k1 k2 k3) {t : Nat} (k : Nat) : ∀ x,
    CoarseE.NearTo E p q c k1 k2 t k x → x < k3 →
    ∃ σ : Nat → Nat, (∀ j, j < k3 → j ≠ t → σ j < n ∧ E (p (σ j)) (q (c + j)) ∧ σ j ≠ x) ∧
      (∀ i j, i < k3 → j < k3 → i ≠ t → j ≠ t → σ i = σ j → i = j) ∧
      ∀ j, j < k3 → j ≠ t → ¬ CoarseE.NearTo E p q c k1 k2 t k j → σ j = j := by
  have h2 := h.le23
  have h3 := h.le3
  induction k with
  | zero =>
    rintro x rfl hx
    exact ⟨fun j => j, fun j hj hne => ⟨lt_of_lt_of_le hj h3, h.diag j hj, hne⟩, fun i j _ _ _ _ e => e, fun j _ _ _ => rfl⟩
  | succ k ih =>
    intro x hx hx3
    by_cases hx' : CoarseE.NearTo E p q c k1 k2 t k x
    · obtain ⟨σ, a1, a2, a3⟩ := ih x hx' hx3
      exact ⟨σ, a1, a2, fun j hj hne hn => a3 j hj hne fun hh => hn (.inl hh)⟩
    · have hxt : x ≠ t := by
        rintro rfl
        refine hx' ?_
        clear ih hx hx'
        induction k with
        | zero => rfl
        | succ k ih => exact .inl ih
      have hx0 := hx
      obtain hx | ⟨s, hs, e, e1, e2, e3, e4⟩ := hx
      · exact absurd hx hx'
      obtain ⟨σ, a1, a2, a3⟩ := ih s hs (by omega)
      have et := a3 x hx3 hxt hx'
      have hst : s ≠ x := fun e => (a1 x hx3 hxt).2.2 (by rw [et, e])
      refine ⟨fun j => if j = x then s else σ j, ?_, ?_, ?_⟩
      · intro j hj hne
        simp only
        split
        · next hjt => subst hjt; exact ⟨by omega, e, hst⟩
        · next hjt =>
          exact ⟨(a1 j hj hne).1, (a1 j hj hne).2.1, fun hh => hjt (a2 j x hj hx3 hne hxt (by rw [hh, et]))⟩
      · intro i j hi hj hi' hj' hij
        simp only at hij
        split at hij <;> split at hij
        · omega
        · exact absurd hij.symm (a1 j hj hj').2.2
        · exact absurd hij (a1 i hi hi').2.2
        · exact a2 i j hi hj hi' hj' hij
      · intro j hj hne hn
        have hjt : j ≠ x := fun hh => hn (by rw [hh]; exact hx0)
        simp only [if_neg hjt]
        exact a3 j hj hne fun hh => hn (.inl hh)

/-- A matching given by the row of each matched column. -/
theorem CoarseE.of_fun (h : CoarseE E n m p q c k1 k2 k3) {σ : Nat → Nat}
    (h1 : ∀ j, j < k3 → σ j < n ∧ E (p (σ j)) (q (c + j))) (h2 : ∀ i j, i < k3 → j < k3 → σ i = σ j → i = j) :
    MaxMatchingE E n m ((range k3).image fun j => (p (σ j), q (c + j))) := by
  have h4 := h.col
  refine h.max_iff.mpr ⟨⟨?_, ?_, ?_⟩, ?_⟩
  · intro e he
    obtain ⟨j, hj, rfl⟩ := mem_image.mp he
    have hj := mem_range.mp hj
    exact ⟨h.perm_p.1 _ (h1 j hj).1, h.perm_q.1 _ (by omega), (h1 j hj).2⟩
  · intro e he e' he' hee
    obtain ⟨j, hj, rfl⟩ := mem_image.mp he
    obtain ⟨i, hi, rfl⟩ := mem_image.mp he'
    have hj := mem_range.mp hj
    have hi := mem_range.mp hi
    rw [h2 j i hj hi (h.perm_p.2 _ _ (h1 j hj).1 (h1 i hi).1 hee)]
  · intro e he e' he' hee
    obtain ⟨j, hj, rfl⟩ := mem_image.mp he
    obtain ⟨i, hi, rfl⟩ := mem_image.mp he'
    have hj := mem_range.mp hj
    have hi := mem_range.mp hi
    have := h.perm_q.2 _ _ (by omega) (by omega) hee
    rw [show j = i by omega]
  · rw [card_image_of_injOn, card_range]
    intro j hj i hi hee
    simp only [coe_range, Set.mem_Iio] at hj hi
    have := h.perm_q.2 _ _ (by omega) (by omega) (Prod.mk.inj hee).2
    omega

/-- Entries of the square part inside a component. -/
theorem CoarseE.in_square (h : CoarseE E n m p q c k1 k2 k3) {s t : Nat} (hs : s < k2) (ht : t < k2)
    (e : E (p s) (q (c + t))) (hr : SqPath E p q c k1 k2 t s) : ∃ S, MaxMatchingE E n m S ∧ (p s, q (c + t)) ∈ S := by
  have a2 := h.le23
  have a3 := h.le3
  obtain ⟨k, hk⟩ := CoarseE.NearTo.of_path hr
  obtain ⟨σ, b1, b2, -⟩ := h.turn k s hk (by omega)
  refine ⟨_, h.of_fun (σ := fun j => if j = t then s else σ j) ?_ ?_, mem_image.mpr ⟨t, mem_range.mpr (by omega), by
    rw [if_pos rfl]⟩⟩
  · intro j hj
    split
    · next hjt => subst hjt; exact ⟨by omega, e⟩
    · next hjt => exact ⟨(b1 j hj hjt).1, (b1 j hj hjt).2.1⟩
  · intro i j hi hj hij
    split at hij <;> split at hij
    · omega
    · next _ hj' => exact absurd hij.symm (b1 j hj hj').2.2
    · next hi' _ => exact absurd hij (b1 i hi hi').2.2
    · next hi' hj' => exact b2 i j hi hj hi' hj' hij

/-- The largest matchings use the columns of the vertical part for rows of the vertical part only. -/
theorem CoarseE.not_above (h : CoarseE E n m p q c k1 k2 k3) {S : Finset (Nat × Nat)} (hS : MaxMatchingE E n m S)
    {s w : Nat} (hsn : s < n) (hwm : w < m) (hw : c + k2 ≤ w) (he : (p s, q w) ∈ S) : k2 ≤ s := by
  classical
  by_contra hsk
  have h2 := h.le23
  have h3 := h.le3
  have h4 := h.col
  obtain ⟨b1, b2⟩ := h.max_iff.mp hS
  -- the rows before the vertical part use `k2` entries, which leaves `k3 - k2 - 1` columns for `k3 - k2` entries
  have hpos : ∀ i, i < n → ∃ t, t < n ∧ p t = i := fun i hi => h.perm_p.surj hi
  have hpos' : ∀ j, j < m → ∃ t, t < m ∧ q t = j := fun j hj => h.perm_q.surj hj
  choose! pr hpr1 hpr2 using hpos
  choose! pc hpc1 hpc2 using hpos'
  let S1 := S.filter fun e => pr e.1 < k2
  let S2 := S.filter fun e => ¬ pr e.1 < k2
  have hsum : S1.card + S2.card = S.card := card_filter_add_card_filter_not _
  have hpw : ∀ t, t < n → pr (p t) = t := fun t ht => h.perm_p.2 _ _ (hpr1 _ (h.perm_p.1 t ht)) ht (hpr2 _ (h.perm_p.1 t ht))
  have hqw : ∀ t, t < m → pc (q t) = t := fun t ht => h.perm_q.2 _ _ (hpc1 _ (h.perm_q.1 t ht)) ht (hpc2 _ (h.perm_q.1 t ht))
  have hc1 : S1.card ≤ k2 := by
    have := card_le_card_of_injOn (s := S1) (t := range k2) (fun e => pr e.1)
      (fun e he => by
        have := (mem_filter.mp he).2
        simpa using this)
      (fun e he f hf hef => by
        have he := (mem_filter.mp he).1
        have hf := (mem_filter.mp hf).1
        refine b1.row e he f hf ?_
        rw [← hpr2 _ (b1.entry e he).1, ← hpr2 _ (b1.entry f hf).1]
        exact congrArg p hef)
    rwa [card_range] at this
  have hc2 : S2.card ≤ k3 - k2 - 1 := by
    have := card_le_card_of_injOn (s := S2) (t := (Ico (c + k2) m).erase w) (fun e => pc e.2)
      (fun e he' => by
        obtain ⟨he1, he2⟩ := mem_filter.mp he'
        have hb := b1.entry e he1
        simp only [coe_erase, coe_Ico, Set.mem_sdiff, Set.mem_Ico, Set.mem_singleton_iff]
        refine ⟨⟨?_, hpc1 _ hb.2.1⟩, ?_⟩
        · refine h.low (pr e.1) (pc e.2) (hpr1 _ hb.1) (hpc1 _ hb.2.1) ?_ (by omega)
          rw [hpr2 _ hb.1, hpc2 _ hb.2.1]
          exact hb.2.2
        · intro hw'
          have e2 : e.2 = q w := by rw [← hw', hpc2 _ hb.2.1]
          have := b1.col e he1 _ he e2
          rw [this] at he2
          simp only [hpw s hsn] at he2
          omega)
      (fun e he f hf hef => by
        have he := (mem_filter.mp he).1
        have hf := (mem_filter.mp hf).1
        refine b1.col e he f hf ?_
        rw [← hpc2 _ (b1.entry e he).2.1, ← hpc2 _ (b1.entry f hf).2.1]
        exact congrArg q hef)
    rw [card_erase_of_mem (mem_Ico.mpr ⟨hw, hwm⟩), Nat.card_Ico] at this
    omega
  omega

/-- The largest matchings use the rows of the horizontal part for columns of the horizontal part only. -/
theorem CoarseE.not_right (h : CoarseE E n m p q c k1 k2 k3) {S : Finset (Nat × Nat)} (hS : MaxMatchingE E n m S)
    {s w : Nat} (hwm : w < m) (hs : s < k1) (he : (p s, q w) ∈ S) : w < c + k1 := by
  have a1 := h.le12
  have a2 := h.le23
  have a3 := h.le3
  have a4 := h.col
  have := h.dual.not_above hS.swap (s := m - 1 - w) (w := n - 1 - s) (by omega) (by omega) (by omega) (by
    rw [show m - 1 - (m - 1 - w) = w by omega, show n - 1 - (n - 1 - s) = s by omega]
    exact mem_image.mpr ⟨_, he, rfl⟩)
  omega

/-- The largest matchings contain only entries of the components in the square part. -/
theorem CoarseE.not_between (h : CoarseE E n m p q c k1 k2 k3) {S : Finset (Nat × Nat)} (hS : MaxMatchingE E n m S)
    {s t : Nat} (hs : s < k2) (ht : k1 ≤ t ∧ t < k2) (he : (p s, q (c + t)) ∈ S) : SqPath E p q c k1 k2 t s := by
  classical
  have a2 := h.le23
  have a3 := h.le3
  have a4 := h.col
  obtain ⟨b1, b2⟩ := h.max_iff.mp hS
  let X := (Ico k1 k2).filter fun x => SqPath E p q c k1 k2 t x
  have hX : ∀ x, x ∈ X ↔ (k1 ≤ x ∧ x < k2) ∧ SqPath E p q c k1 k2 t x := fun x => by
    simp only [X, mem_filter, mem_Ico]
  -- the column used for each row of X
  have hrow : ∀ x, x ∈ X → ∃ y, y ∈ X ∧ (p x, q (c + y)) ∈ S := by
    intro x hx
    obtain ⟨hx1, hx2⟩ := (hX x).mp hx
    obtain ⟨⟨i, j⟩, hf, rfl⟩ := (h.hit b1).2 b2 x hx1.2
    have hb := b1.entry _ hf
    simp only at hb hf
    obtain ⟨w, hw, rfl⟩ := h.perm_q.surj hb.2.1
    have h1 := h.mid x w (by omega) hw hb.2.2 hx1.1
    have h2 : w < c + k2 := by
      by_contra hn
      have := h.not_above hS (by omega) hw (by omega) hf
      omega
    refine ⟨w - c, (hX _).mpr ⟨by omega, hx2.tail ⟨?_, by omega, by omega, by omega, by omega⟩⟩, ?_⟩
    · rw [show c + (w - c) = w by omega]; exact hb.2.2
    · rw [show c + (w - c) = w by omega]; exact hf
  choose! φ hφ1 hφ2 using hrow
  have hinj : Set.InjOn φ X := by
    intro x hx y hy e
    have h1 := hφ2 x hx
    have h2 := hφ2 y hy
    rw [← e] at h2
    have h3 := b1.col _ h1 _ h2 rfl
    have hx := ((hX x).mp hx).1
    have hy := ((hX y).mp hy).1
    exact h.perm_p.2 _ _ (by omega) (by omega) (Prod.mk.inj h3).1
  have himg : X.image φ = X := by
    refine eq_of_subset_of_card_le ?_ (by rw [card_image_of_injOn hinj])
    intro y hy
    obtain ⟨x, hx, rfl⟩ := mem_image.mp hy
    exact hφ1 x hx
  have htX : t ∈ X := (hX t).mpr ⟨ht, .refl⟩
  rw [← himg] at htX
  obtain ⟨x, hx, hxt⟩ := mem_image.mp htX
  have h1 := hφ2 x hx
  rw [hxt] at h1
  have h3 := b1.col _ he _ h1 rfl
  obtain ⟨hx1, hx2⟩ := (hX x).mp hx
  have := h.perm_p.2 _ _ (by omega) (by omega) (Prod.mk.inj h3).1
  rwa [this]

end

end Spasm
