import Verif.Proofs.DmCanon
import Mathlib.Data.Finset.Image
import Mathlib.Order.Interval.Finset.Nat

/-!
The coarse decomposition and the components of the square part are determined by the positions of the entries.
-/

namespace Spasm

open Finset

section

variable {E : Nat → Nat → Prop} {n m : Nat} {p q p' q' : Nat → Nat} {c k1 k2 k3 c' k1' k2' k3' : Nat}

theorem CoarseE.vert_card (h : CoarseE E n m p q c k1 k2 k3) :
    {i | i < n ∧ ∃ S, MaxMatchingE E n m S ∧ ∀ e ∈ S, e.1 ≠ i}.ncard = n - k2 := by
  have : {i | i < n ∧ ∃ S, MaxMatchingE E n m S ∧ ∀ e ∈ S, e.1 ≠ i} = ((Ico k2 n).image p : Finset Nat) := by
    ext i
    simp only [Set.mem_ofPred_eq, coe_image, Set.mem_image, mem_coe, mem_Ico]
    constructor
    · rintro ⟨hi, hS⟩
      obtain ⟨t, ht, rfl⟩ := h.perm_p.surj hi
      exact ⟨t, ⟨(h.vert_iff ht).mpr hS, ht⟩, rfl⟩
    · rintro ⟨t, ⟨h1, h2⟩, rfl⟩
      exact ⟨h.perm_p.1 t h2, (h.vert_iff h2).mp h1⟩
  rw [this, Set.ncard_coe_finset, card_image_of_injOn, Nat.card_Ico]
  intro s hs t ht e
  simp only [coe_Ico, Set.mem_Ico] at hs ht
  exact h.perm_p.2 _ _ hs.2 ht.2 e

/-- The sizes of the parts are determined by the positions of the entries. -/
theorem CoarseE.same_sizes (h : CoarseE E n m p q c k1 k2 k3) (h' : CoarseE E n m p' q' c' k1' k2' k3') :
    c = c' ∧ k1 = k1' ∧ k2 = k2' ∧ k3 = k3' := by
  have h3 : k3 = k3' := by
    obtain ⟨S, hS, e⟩ := h.matched
    obtain ⟨S', hS', e'⟩ := h'.matched
    have a := (h.hit hS').1
    have b := (h'.hit hS).1
    omega
  have v := h.vert_card
  have d := h.dual.vert_card
  rw [h'.vert_card] at v
  rw [h'.dual.vert_card] at d
  have a1 := h.le12
  have a2 := h.le23
  have a3 := h.le3
  have a4 := h.col
  have b1 := h'.le12
  have b2 := h'.le23
  have b3 := h'.le3
  have b4 := h'.col
  omega

/-- A row is in the same part of both. -/
theorem CoarseE.same_part (h : CoarseE E n m p q c k1 k2 k3) (h' : CoarseE E n m p' q' c k1 k2 k3) {t t' : Nat}
    (ht : t < n) (ht' : t' < n) (e : p t = p' t') : (t < k1 ↔ t' < k1) ∧ (t < k2 ↔ t' < k2) := by
  constructor
  · rw [h.horz_row_iff ht, h'.horz_row_iff ht', e]
    constructor
    · rintro ⟨s, a, b, d⟩
      obtain ⟨s', hs', es⟩ := h'.perm_q.surj (h.perm_q.1 s a)
      refine ⟨s', hs', (h'.horz_iff hs').mpr ?_, by rw [es]; exact d⟩
      rw [es]
      exact (h.horz_iff a).mp b
    · rintro ⟨s, a, b, d⟩
      obtain ⟨s', hs', es⟩ := h.perm_q.surj (h'.perm_q.1 s a)
      refine ⟨s', hs', (h.horz_iff hs').mpr ?_, by rw [es]; exact d⟩
      rw [es]
      exact (h'.horz_iff a).mp b
  · have := h.vert_iff ht
    rw [e, ← h'.vert_iff ht'] at this
    omega

/-- A column is in the same part of both. -/
theorem CoarseE.same_part_col (h : CoarseE E n m p q c k1 k2 k3) (h' : CoarseE E n m p' q' c k1 k2 k3) {t t' : Nat}
    (ht : t < m) (ht' : t' < m) (e : q t = q' t') : (t < c + k1 ↔ t' < c + k1) ∧ (t < c + k2 ↔ t' < c + k2) := by
  have a1 := h.le12
  have a2 := h.le23
  have a4 := h.col
  have := h.dual.same_part h'.dual (t := m - 1 - t) (t' := m - 1 - t') (by omega) (by omega) (by
    rw [show m - 1 - (m - 1 - t) = t by omega, show m - 1 - (m - 1 - t') = t' by omega, e])
  omega

/-- Paths in the square part. -/
def SqPath (E : Nat → Nat → Prop) (p q : Nat → Nat) (c k1 k2 : Nat) : Nat → Nat → Prop :=
  Relation.ReflTransGen fun s t => E (p s) (q (c + t)) ∧ k1 ≤ s ∧ s < k2 ∧ k1 ≤ t ∧ t < k2

/-- Paths do not depend on the matching. -/
theorem CoarseE.path (h : CoarseE E n m p q c k1 k2 k3) (h' : CoarseE E n m p' q' c k1 k2 k3) {s t s' t' : Nat}
    (hs : k1 ≤ s ∧ s < k2) (hs' : k1 ≤ s' ∧ s' < k2) (ht' : t' < n) (es : p s = p' s') (et : p t = p' t')
    (hr : SqPath E p q c k1 k2 s t) : SqPath E p' q' c k1 k2 s' t' := by
  classical
  have a2 := h.le23
  have a3 := h.le3
  have a4 := h.col
  -- the positions reached in the second decomposition, and the corresponding positions in the first
  let X' := (Ico k1 k2).filter fun x => SqPath E p' q' c k1 k2 s' x
  let X := (Ico k1 k2).filter fun x => ∃ x' ∈ X', p x = p' x'
  have hX' : ∀ x, x ∈ X' ↔ (k1 ≤ x ∧ x < k2) ∧ SqPath E p' q' c k1 k2 s' x := fun x => by
    simp only [X', mem_filter, mem_Ico]
  have hX : ∀ x, x ∈ X ↔ (k1 ≤ x ∧ x < k2) ∧ ∃ x' ∈ X', p x = p' x' := fun x => by
    simp only [X, mem_filter, mem_Ico]
  have step : ∀ x y, x ∈ X → k1 ≤ y → y < k2 → E (p x) (q (c + y)) →
      q (c + y) ∈ X'.image fun x => q' (c + x) := by
    intro x y hx hy1 hy2 e
    obtain ⟨hx1, x', hx', ex⟩ := (hX x).mp hx
    obtain ⟨hx2, hp⟩ := (hX' x').mp hx'
    obtain ⟨w, hw, ew⟩ := h'.perm_q.surj (h.perm_q.1 (c + y) (by omega))
    have hm := h.same_part_col h' (t := c + y) (t' := w) (by omega) hw ew.symm
    refine mem_image.mpr ⟨w - c, (hX' _).mpr ⟨by omega, hp.tail ⟨?_, by omega, by omega, by omega, by omega⟩⟩, ?_⟩
    · rw [show c + (w - c) = w by omega, ew, ← ex]
      exact e
    · rw [show c + (w - c) = w by omega, ew]
  have injp : Set.InjOn p X := fun x hx y hy e => by
    have hx := ((hX x).mp hx).1
    have hy := ((hX y).mp hy).1
    exact h.perm_p.2 _ _ (by omega) (by omega) e
  have injp' : Set.InjOn p' X' := fun x hx y hy e => by
    have hx := ((hX' x).mp hx).1
    have hy := ((hX' y).mp hy).1
    exact h'.perm_p.2 _ _ (by omega) (by omega) e
  have injq : Set.InjOn (fun x => q (c + x)) X := fun x hx y hy e => by
    have hx := ((hX x).mp hx).1
    have hy := ((hX y).mp hy).1
    have := h.perm_q.2 _ _ (by omega) (by omega) e
    omega
  have injq' : Set.InjOn (fun x => q' (c + x)) X' := fun x hx y hy e => by
    have hx := ((hX' x).mp hx).1
    have hy := ((hX' y).mp hy).1
    have := h'.perm_q.2 _ _ (by omega) (by omega) e
    omega
  have hrows : X.image p = X'.image p' := by
    ext i
    constructor
    · intro hi
      obtain ⟨x, hx, rfl⟩ := mem_image.mp hi
      obtain ⟨_, x', hx', ex⟩ := (hX x).mp hx
      exact mem_image.mpr ⟨x', hx', ex.symm⟩
    · intro hi
      obtain ⟨x', hx', rfl⟩ := mem_image.mp hi
      have b := ((hX' x').mp hx').1
      obtain ⟨x, hx, ex⟩ := h.perm_p.surj (h'.perm_p.1 x' (by omega))
      have hm := h.same_part h' hx (t' := x') (by omega) ex
      exact mem_image.mpr ⟨x, (hX x).mpr ⟨by omega, x', hx', ex⟩, ex⟩
  have hcard : X.card = X'.card := by
    rw [← card_image_of_injOn injp, hrows, card_image_of_injOn injp']
  have hcols : X.image (fun x => q (c + x)) = X'.image fun x => q' (c + x) := by
    refine eq_of_subset_of_card_le ?_ ?_
    · intro j hj
      obtain ⟨x, hx, rfl⟩ := mem_image.mp hj
      have b := ((hX x).mp hx).1
      exact step x x hx b.1 b.2 (h.diag x (by omega))
    · rw [card_image_of_injOn injq, card_image_of_injOn injq', hcard]
  have hall : ∀ y, SqPath E p q c k1 k2 s y → y ∈ X := by
    intro y hy
    induction hy with
    | refl => exact (hX s).mpr ⟨hs, s', (hX' s').mpr ⟨hs', .refl⟩, es⟩
    | @tail x y _ e ih =>
      obtain ⟨e1, e2, e3, e4, e5⟩ := e
      have := step x y ih e4 e5 e1
      rw [← hcols] at this
      obtain ⟨z, hz, ez⟩ := mem_image.mp this
      have b := ((hX z).mp hz).1
      have := h.perm_q.2 _ _ (by omega) (by omega) ez
      rwa [show z = y by omega] at hz
  obtain ⟨_, x', hx', ex⟩ := (hX t).mp (hall t hr)
  obtain ⟨b, hp⟩ := (hX' x').mp hx'
  have := h'.perm_p.2 _ _ (by omega) ht' (ex.symm.trans et)
  rwa [← this]

/-- A splitting of the square part into components: `IsFine`, in natural numbers.  The components are the positions from
`r b` to `r (b + 1)`, for `b < k`. -/
structure FineE (E : Nat → Nat → Prop) (p q : Nat → Nat) (c k1 k2 : Nat) (r : Nat → Nat) (k : Nat) : Prop where
  first : r 0 = k1
  last : r k = k2
  lt : ∀ b, b < k → r b < r (b + 1)
  conn : ∀ b, b < k → ∀ s t, r b ≤ s → s < r (b + 1) → r b ≤ t → t < r (b + 1) → SqPath E p q c k1 k2 s t
  same : ∀ s t, k1 ≤ s → s < k2 → k1 ≤ t → t < k2 → SqPath E p q c k1 k2 s t → SqPath E p q c k1 k2 t s →
    ∃ b, b < k ∧ r b ≤ s ∧ s < r (b + 1) ∧ r b ≤ t ∧ t < r (b + 1)

variable {r r' : Nat → Nat} {k k' : Nat}

theorem FineE.mono (h : FineE E p q c k1 k2 r k) {a b : Nat} (hab : a ≤ b) (hb : b ≤ k) : r a ≤ r b := by
  induction b with
  | zero => rw [show a = 0 by omega]
  | succ b ih =>
    rcases Nat.lt_or_ge a (b + 1) with h1 | h1
    · have := h.lt b (by omega)
      have := ih (by omega) (by omega)
      omega
    · rw [show a = b + 1 by omega]

theorem FineE.unique (h : FineE E p q c k1 k2 r k) {a b t : Nat} (ha : a < k) (hb : b < k) (h1 : r a ≤ t) (h2 : t < r (a + 1))
    (h3 : r b ≤ t) (h4 : t < r (b + 1)) : a = b := by
  rcases Nat.lt_trichotomy a b with hab | hab | hab
  · have := h.mono (a := a + 1) (b := b) (by omega) (by omega); omega
  · exact hab
  · have := h.mono (a := b + 1) (b := a) (by omega) (by omega); omega

/-- The rows of a component. -/
def blockRows (p r : Nat → Nat) (b : Nat) : Finset Nat := (Ico (r b) (r (b + 1))).image p

theorem FineE.range (h : FineE E p q c k1 k2 r k) {b : Nat} (hb : b < k) : k1 ≤ r b ∧ r (b + 1) ≤ k2 := by
  have h1 := h.mono (a := 0) (b := b) (by omega) (by omega)
  have h2 := h.mono (a := b + 1) (b := k) (by omega) (by omega)
  rw [h.first] at h1
  rw [h.last] at h2
  exact ⟨h1, h2⟩

theorem FineE.block_card (h : FineE E p q c k1 k2 r k) (hc : CoarseE E n m p q c k1 k2 k3) {b : Nat} (hb : b < k) :
    (blockRows p r b).card = r (b + 1) - r b := by
  have a2 := hc.le23
  have a3 := hc.le3
  have := h.range hb
  unfold blockRows
  rw [card_image_of_injOn, Nat.card_Ico]
  intro s hs t ht e
  simp only [coe_Ico, Set.mem_Ico] at hs ht
  exact hc.perm_p.2 _ _ (by omega) (by omega) e

theorem FineE.block_inj (h : FineE E p q c k1 k2 r k) (hc : CoarseE E n m p q c k1 k2 k3) :
    Set.InjOn (blockRows p r) (Finset.range k) := by
  have a2 := hc.le23
  have a3 := hc.le3
  intro a ha b hb e
  simp only [coe_range, Set.mem_Iio] at ha hb
  have ra := h.range ha
  have rb := h.range hb
  have la := h.lt a ha
  have : p (r a) ∈ blockRows p r b := by
    rw [← e]
    exact mem_image.mpr ⟨r a, mem_Ico.mpr ⟨le_rfl, la⟩, rfl⟩
  obtain ⟨t, ht, et⟩ := mem_image.mp this
  have ht := mem_Ico.mp ht
  have := hc.perm_p.2 _ _ (by omega) (by omega) et
  exact h.unique ha hb (t := r a) le_rfl la (by omega) (by omega)

/-- Every component of one decomposition is a component of the other. -/
theorem FineE.block (h : FineE E p q c k1 k2 r k) (hc : CoarseE E n m p q c k1 k2 k3) (h' : FineE E p' q' c k1 k2 r' k')
    (hc' : CoarseE E n m p' q' c k1 k2 k3) {b : Nat} (hb : b < k) : ∃ b', b' < k' ∧ blockRows p r b = blockRows p' r' b' := by
  have a2 := hc.le23
  have a3 := hc.le3
  have rb := h.range hb
  have lb := h.lt b hb
  -- the position of the first row of the component
  obtain ⟨s', hs', es⟩ := hc'.perm_p.surj (hc.perm_p.1 (r b) (by omega))
  have ms := hc.same_part hc' (t := r b) (by omega) hs' es.symm
  obtain ⟨b', hb', r1, r2, -, -⟩ := h'.same s' s' (by omega) (by omega) (by omega) (by omega) .refl .refl
  have rb' := h'.range hb'
  refine ⟨b', hb', ?_⟩
  ext i
  constructor
  · intro hi
    obtain ⟨t, ht, rfl⟩ := mem_image.mp hi
    have ht := mem_Ico.mp ht
    obtain ⟨t', ht', et⟩ := hc'.perm_p.surj (hc.perm_p.1 t (by omega))
    have mt := hc.same_part hc' (t := t) (by omega) ht' et.symm
    have p1 := hc.path hc' (s := r b) (t := t) (s' := s') (t' := t') (by omega) (by omega) ht' es.symm et.symm
      (h.conn b hb _ _ (by omega) (by omega) (by omega) (by omega))
    have p2 := hc.path hc' (s := t) (t := r b) (s' := t') (t' := s') (by omega) (by omega) hs' et.symm es.symm
      (h.conn b hb _ _ (by omega) (by omega) (by omega) (by omega))
    obtain ⟨b2, hb2, r3, r4, r5, r6⟩ := h'.same s' t' (by omega) (by omega) (by omega) (by omega) p1 p2
    have := h'.unique hb' hb2 r1 r2 r3 r4
    subst this
    exact mem_image.mpr ⟨t', mem_Ico.mpr ⟨r5, r6⟩, et⟩
  · intro hi
    obtain ⟨t', ht', rfl⟩ := mem_image.mp hi
    have ht' := mem_Ico.mp ht'
    obtain ⟨t, ht, et⟩ := hc.perm_p.surj (hc'.perm_p.1 t' (by omega))
    have mt := hc.same_part hc' (t := t) (t' := t') (by omega) (by omega) et
    have p1 := hc'.path hc (s := s') (t := t') (s' := r b) (t' := t) (by omega) (by omega) ht es et.symm
      (h'.conn b' hb' _ _ (by omega) (by omega) (by omega) (by omega))
    have p2 := hc'.path hc (s := t') (t := s') (s' := t) (t' := r b) (by omega) (by omega) (by omega) et.symm es
      (h'.conn b' hb' _ _ (by omega) (by omega) (by omega) (by omega))
    obtain ⟨b2, hb2, r3, r4, r5, r6⟩ := h.same (r b) t (by omega) (by omega) (by omega) (by omega) p1 p2
    have := h.unique hb hb2 (t := r b) (by omega) (by omega) r3 r4
    subst this
    exact mem_image.mpr ⟨t, mem_Ico.mpr ⟨r5, r6⟩, et⟩

/-- The sizes of the components. -/
def blockSizes (r : Nat → Nat) (k : Nat) : List Nat := (List.range k).map fun b => r (b + 1) - r b

/-- The sizes of the components are determined by the positions of the entries, up to their order. -/
theorem FineE.sizes (h : FineE E p q c k1 k2 r k) (hc : CoarseE E n m p q c k1 k2 k3) (h' : FineE E p' q' c k1 k2 r' k')
    (hc' : CoarseE E n m p' q' c k1 k2 k3) : (blockSizes r k).Perm (blockSizes r' k') := by
  classical
  have key : ∀ {p q : Nat → Nat} {r : Nat → Nat} {k : Nat}, FineE E p q c k1 k2 r k → CoarseE E n m p q c k1 k2 k3 →
      ((blockSizes r k : List Nat) : Multiset Nat) = (((Finset.range k).image (blockRows p r)).val).map Finset.card := by
    intro p q r k h hc
    rw [Finset.image_val_of_injOn (h.block_inj hc), Multiset.map_map]
    show _ = Multiset.map _ (Multiset.range k)
    rw [Multiset.range, Multiset.map_coe]
    congr 1
    unfold blockSizes
    refine List.map_congr_left fun b hb => ?_
    exact (h.block_card hc (List.mem_range.mp hb)).symm
  refine Multiset.coe_eq_coe.mp ?_
  rw [key h hc, key h' hc']
  congr 2
  ext X
  simp only [mem_image, Finset.mem_range]
  constructor
  · rintro ⟨b, hb, rfl⟩
    obtain ⟨b', hb', e⟩ := h.block hc h' hc' hb
    exact ⟨b', hb', e.symm⟩
  · rintro ⟨b, hb, rfl⟩
    obtain ⟨b', hb', e⟩ := h'.block hc' h hc hb
    exact ⟨b', hb', e.symm⟩

/-- The components of the transpose. -/
theorem FineE.dual (h : FineE E p q c k1 k2 r k) (hc : CoarseE E n m p q c k1 k2 k3) :
    FineE (fun j i => E i j) (fun t => q (m - 1 - t)) (fun t => p (n - 1 - t)) (n - k3) (k3 - k2) (k3 - k1)
      (fun b => k3 - r (k - b)) k := by
  have a1 := hc.le12
  have a2 := hc.le23
  have a3 := hc.le3
  have a4 := hc.col
  have hpath : ∀ {s t}, k1 ≤ t → t < k2 → SqPath E p q c k1 k2 s t → k1 ≤ s → s < k2 →
      SqPath (fun j i => E i j) (fun t => q (m - 1 - t)) (fun t => p (n - 1 - t)) (n - k3) (k3 - k2) (k3 - k1)
        (k3 - 1 - t) (k3 - 1 - s) := by
    intro s t ht1 ht2 hr hs1 hs2
    induction hr with
    | refl => exact .refl
    | tail _ e ih =>
      obtain ⟨e1, e2, e3, e4, e5⟩ := e
      refine Relation.ReflTransGen.head ⟨?_, by omega, by omega, by omega, by omega⟩ (ih e2 e3)
      simp only
      rw [show ∀ x, x < k2 → n - 1 - (n - k3 + (k3 - 1 - x)) = x from fun x hx => by omega,
        show ∀ x, x < k2 → m - 1 - (k3 - 1 - x) = c + x from fun x hx => by omega]
      · exact e1
      · exact e5
      · exact e3
  have hpath' : ∀ {s t}, k3 - k2 ≤ t → t < k3 - k1 →
      SqPath (fun j i => E i j) (fun t => q (m - 1 - t)) (fun t => p (n - 1 - t)) (n - k3) (k3 - k2) (k3 - k1) s t →
      k3 - k2 ≤ s → s < k3 - k1 → SqPath E p q c k1 k2 (k3 - 1 - t) (k3 - 1 - s) := by
    intro s t ht1 ht2 hr hs1 hs2
    induction hr with
    | refl => exact .refl
    | tail _ e ih =>
      obtain ⟨e1, e2, e3, e4, e5⟩ := e
      refine Relation.ReflTransGen.head ⟨?_, by omega, by omega, by omega, by omega⟩ (ih e2 e3)
      simp only at e1
      rw [show ∀ x, x < k3 → n - 1 - (n - k3 + x) = k3 - 1 - x from fun x hx => by omega,
        show ∀ x, x < k3 → m - 1 - x = c + (k3 - 1 - x) from fun x hx => by omega] at e1
      · exact e1
      · omega
      · omega
  have e0 := h.first
  have ek := h.last
  refine ⟨?_, ?_, ?_, ?_, ?_⟩
  · simp only [Nat.sub_zero]; rw [ek]
  · simp only [Nat.sub_self]; rw [e0]
  · intro b hb
    have := h.lt (k - (b + 1)) (by omega)
    have h2 := (h.range (b := k - (b + 1)) (by omega)).2
    rw [show k - (b + 1) + 1 = k - b by omega] at this h2
    omega
  · intro b hb s t
    have h1 := h.range (b := k - (b + 1)) (by omega)
    have hcn := h.conn (k - (b + 1)) (by omega) (k3 - 1 - t) (k3 - 1 - s)
    rw [show k - (b + 1) + 1 = k - b by omega] at h1 hcn
    intro s1 s2 t1 t2
    have := hpath (by omega) (by omega) (hcn (by omega) (by omega) (by omega) (by omega)) (by omega) (by omega)
    rwa [show k3 - 1 - (k3 - 1 - s) = s by omega, show k3 - 1 - (k3 - 1 - t) = t by omega] at this
  · intro s t s1 s2 t1 t2 p1 p2
    have q1 := hpath' t1 t2 p1 s1 s2
    have q2 := hpath' s1 s2 p2 t1 t2
    obtain ⟨b, hb, w1, w2, w3, w4⟩ := h.same (k3 - 1 - s) (k3 - 1 - t) (by omega) (by omega) (by omega) (by omega) q2 q1
    have h1 := h.range hb
    refine ⟨k - (b + 1), by omega, ?_⟩
    rw [show k - (k - (b + 1)) = b + 1 by omega, show k - (k - (b + 1) + 1) = b by omega]
    omega

theorem blockSizes_dual (h : FineE E p q c k1 k2 r k) (hc : CoarseE E n m p q c k1 k2 k3) :
    blockSizes (fun b => k3 - r (k - b)) k = (blockSizes r k).reverse := by
  have a2 := hc.le23
  unfold blockSizes
  refine List.ext_getElem (by simp) ?_
  intro b h1 h2
  simp only [List.length_map, List.length_range] at h1
  have := h.range (b := k - (b + 1)) (by omega)
  rw [show k - (b + 1) + 1 = k - b by omega] at this
  simp only [List.getElem_map, List.getElem_range, List.getElem_reverse, List.length_map, List.length_range]
  rw [show k - 1 - b + 1 = k - b by omega, show k - 1 - b = k - (b + 1) by omega]
  omega

end

end Spasm
