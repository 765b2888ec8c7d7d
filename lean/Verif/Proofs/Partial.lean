import Verif.Spec.Echelonize
import Verif.Proofs.Lu
import Mathlib.Algebra.Field.ZMod
import Mathlib.Algebra.BigOperators.Pi
import Mathlib.Tactic.FieldSimp

/-
Steps of a factorization in progress.
-/

namespace Spasm

open Finset

section
variable {q : ℕ}

theorem mem_spanOf {f : Nat → Nat → ZMod q} {n i : Nat} (h : i < n) : f i ∈ spanOf f n :=
  Submodule.subset_span ⟨i, h, rfl⟩

theorem spanOf_le {f : Nat → Nat → ZMod q} {n : Nat} {P : Submodule (ZMod q) (Nat → ZMod q)}
    (h : ∀ i, i < n → f i ∈ P) : spanOf f n ≤ P := by
  refine Submodule.span_le.mpr ?_
  rintro _ ⟨i, hi, rfl⟩
  exact h i hi

theorem spanOf_congr {f g : Nat → Nat → ZMod q} {n : Nat} (h : ∀ i, i < n → f i = g i) :
    spanOf f n = spanOf g n := by
  refine le_antisymm (spanOf_le fun i hi => ?_) (spanOf_le fun i hi => ?_)
  · rw [h i hi]; exact mem_spanOf hi
  · rw [← h i hi]; exact mem_spanOf hi

theorem sum_mem_spanOf {f : Nat → Nat → ZMod q} {n : Nat} (y : Nat → ZMod q) :
    (fun c => ∑ i ∈ range n, y i * f i c) ∈ spanOf f n := by
  have : (fun c => ∑ i ∈ range n, y i * f i c) = ∑ i ∈ range n, y i • f i := by
    ext c
    rw [Finset.sum_apply]
    rfl
  rw [this]
  exact Submodule.sum_mem _ fun i hi => Submodule.smul_mem _ _ (mem_spanOf (mem_range.mp hi))

theorem mem_spanOf_iff {f : Nat → Nat → ZMod q} {n : Nat} {w : Nat → ZMod q} :
    w ∈ spanOf f n ↔ ∃ y : Nat → ZMod q, ∀ c, w c = ∑ i ∈ range n, y i * f i c := by
  constructor
  · intro h
    unfold spanOf at h
    induction h using Submodule.span_induction with
    | mem x hx =>
      obtain ⟨i, hi, rfl⟩ := hx
      refine ⟨fun k => if k = i then 1 else 0, fun c => ?_⟩
      rw [Finset.sum_eq_single i]
      · simp
      · intro k _ hk; simp [hk]
      · intro hn; exact absurd (mem_range.mpr hi) hn
    | zero => exact ⟨fun _ => 0, fun c => by simp⟩
    | add x y _ _ hx hy =>
      obtain ⟨a, ha⟩ := hx
      obtain ⟨b, hb⟩ := hy
      refine ⟨fun i => a i + b i, fun c => ?_⟩
      rw [Pi.add_apply, ha, hb, ← Finset.sum_add_distrib]
      exact Finset.sum_congr rfl fun i _ => by ring
    | smul r x _ hx =>
      obtain ⟨a, ha⟩ := hx
      refine ⟨fun i => r * a i, fun c => ?_⟩
      rw [Pi.smul_apply, ha, smul_eq_mul, Finset.mul_sum]
      exact Finset.sum_congr rfl fun i _ => by ring
  · rintro ⟨y, hy⟩
    have : w = fun c => ∑ i ∈ range n, y i * f i c := funext hy
    rw [this]; exact sum_mem_spanOf y

theorem spanOf_zero {f : Nat → Nat → ZMod q} : spanOf f 0 = ⊥ := by
  unfold spanOf
  have : Set.Iio 0 = (∅ : Set Nat) := by ext; simp
  rw [this, Set.image_empty, Submodule.span_empty]

theorem spanOf_mono {f : Nat → Nat → ZMod q} {n k : Nat} (h : n ≤ k) : spanOf f n ≤ spanOf f k :=
  spanOf_le fun _ hi => mem_spanOf (by omega)

theorem spanOf_succ_le {f : Nat → Nat → ZMod q} {n : Nat} :
    spanOf (fun t => f (t + 1)) n ≤ spanOf f (n + 1) :=
  spanOf_le fun i hi => mem_spanOf (f := f) (i := i + 1) (by omega)

end

/-- Entries outside of the matrix. -/
theorem Csr.WF.entry_ge {A : Csr} (hA : A.WF) {q i c : Nat} (hi : i < A.n) (hc : A.m ≤ c) :
    A.entry q i c = 0 := by
  refine Csr.entry_eq_zero_of_not_inRow fun h => ?_
  have := hA.inRow_lt hi h
  omega

theorem mem_rowSpace_iff {q : ℕ} {A : Csr} (hA : A.WF) {w : Nat → ZMod q} :
    w ∈ A.rowSpace q ↔ InSpan q A w ∧ ∀ c, A.m ≤ c → w c = 0 := by
  unfold Csr.rowSpace
  rw [mem_spanOf_iff]
  constructor
  · rintro ⟨y, hy⟩
    refine ⟨⟨y, fun c _ => (hy c).symm⟩, fun c hc => ?_⟩
    rw [hy c]
    refine Finset.sum_eq_zero fun i hi => ?_
    rw [hA.entry_ge (mem_range.mp hi) hc, mul_zero]
  · rintro ⟨⟨y, hy⟩, hz⟩
    refine ⟨y, fun c => ?_⟩
    by_cases hc : c < A.m
    · exact (hy c hc).symm
    · rw [hz c (by omega)]
      symm
      refine Finset.sum_eq_zero fun i hi => ?_
      rw [hA.entry_ge (mem_range.mp hi) (by omega), mul_zero]

/-- Coefficients on the first `old` rows vanish if the combination vanishes on their pivots. -/
theorem Echelon.coeff_zero_of_lt {q : ℕ} {U : Csr} {qinv : Array Int} (h : Echelon q U qinv)
    (y : Nat → ZMod q) {old : Nat} (ho : old ≤ U.n)
    (hy : ∀ i, i < old → ∑ k ∈ range U.n, y k * U.entry q k (U.pivot i) = 0) :
    ∀ i, i < old → y i = 0 := by
  intro i
  induction i using Nat.strong_induction_on with
  | _ i ih =>
    intro hi
    have := hy i hi
    rw [Finset.sum_eq_single i] at this
    · rwa [h.entry_pivot (by omega), mul_one] at this
    · intro k hk hne
      have hk := mem_range.mp hk
      rcases Nat.lt_or_gt_of_ne hne with hl | hl
      · rw [ih k hl (by omega), zero_mul]
      · rw [Csr.entry_eq_zero_of_not_inRow (h.tri i k hl hk), mul_zero]
    · intro hn; exact absurd (mem_range.mpr (by omega)) hn

theorem Triplet.sum_eq_zero_of_not_has {T : Triplet} {q i c : Nat} (h : ¬ T.Has i c) :
    T.sum q i c = 0 := by
  unfold Triplet.sum
  refine Finset.sum_eq_zero fun k hk => ?_
  rw [if_neg]
  exact fun hh => h ⟨k, mem_range.mp hk, hh.1, hh.2⟩

/-- What the processing of row `i` adds to `L`: the coefficients `ℓ` of the row on the columns
`0, ..., n - 1`. -/
structure AddsRow (q : ℕ) (Z Z' : Triplet) (i n : Nat) (ℓ : Nat → ZMod q) : Prop where
  wfv : Z'.WFV q
  n_eq : Z'.n = Z.n
  m_ge : Z.m ≤ Z'.m
  has : ∀ a c, Z'.Has a c → Z.Has a c ∨ (a = i ∧ c < n ∧ ℓ c ≠ 0)
  sum : ∀ a c, c < n → Z'.sum q a c = Z.sum q a c + if a = i then ℓ c else 0
  sum_ge : ∀ a c, n ≤ c → Z'.sum q a c = Z.sum q a c

section
variable {q : ℕ} {A U : Csr} {qinv : Array Int} {v : Nat → Nat → ZMod q} {nr : Nat}
  {o : Nat → Nat} {old : Nat} {complete : Bool}

/-- Processing the first remaining row, which gives a pivot. -/
theorem PartialL.pivot [Fact q.Prime] {Z Z' : Triplet} {P P' : Nat → Nat}
    (h : PartialL q A U Z P v (nr + 1) o old complete) {U' : Csr} (hn : U'.n = U.n + 1)
    (hU : ∀ i, i < U.n → U'.entry q i = U.entry q i) {ℓ : Nat → ZMod q}
    (hv : ∀ c, v 0 c = ∑ k ∈ range (U.n + 1), ℓ k * U'.entry q k c) (hl : ℓ U.n ≠ 0)
    (hold : ∀ k, k < old → ℓ k = 0)
    (hZ : AddsRow q Z Z' (o 0) (U.n + 1) ℓ)
    (hP : ∀ k, k < U.n → P' k = P k) (hP' : P' U.n = o 0) :
    PartialL q A U' Z' P' (fun t => v (t + 1)) nr (fun t => o (t + 1)) old complete := by
  have hz : ∀ a c, U.n ≤ c → Z.sum q a c = 0 := by
    intro a c hc
    refine Triplet.sum_eq_zero_of_not_has fun hh => ?_
    have := (h.has a c hh).1
    omega
  have hsum : ∀ a c, Z'.sum q a c = Z.sum q a c + if a = o 0 ∧ c < U.n + 1 then ℓ c else 0 := by
    intro a c
    by_cases hc : c < U.n + 1
    · rw [hZ.sum a c hc]; simp [hc]
    · rw [hZ.sum_ge a c (by omega), if_neg (fun hh => hc hh.2), add_zero]
  have hsne : ∀ a c, a ≠ o 0 → Z'.sum q a c = Z.sum q a c := by
    intro a c ha
    rw [hsum, if_neg (fun hh => ha hh.1), add_zero]
  have hmul : ∀ a c, a ≠ o 0 → ∑ j ∈ range U'.n, Z'.sum q a j * U'.entry q j c =
      ∑ j ∈ range U.n, Z.sum q a j * U.entry q j c := by
    intro a c ha
    rw [hn, Finset.sum_range_succ, hsne a _ ha, hz a U.n (le_refl _), zero_mul, add_zero]
    refine Finset.sum_congr rfl fun j hj => ?_
    rw [hsne a j ha, hU j (mem_range.mp hj)]
  refine ⟨hZ.wfv, by rw [hZ.n_eq, h.n_eq], le_trans h.m_ge hZ.m_ge, ?_, ?_, ?_, ?_, ?_, ?_, ?_, ?_, ?_, ?_⟩
  · intro i c hh
    rcases hZ.has i c hh with h1 | ⟨rfl, h2, h3⟩
    · have := h.has i c h1
      refine ⟨by omega, ?_⟩
      rw [hsum]
      split_ifs with h2
      · obtain ⟨rfl, -⟩ := h2
        rw [hold c (h.rem_old 0 (by omega) c h1), add_zero]; exact this.2
      · rw [add_zero]; exact this.2
    · refine ⟨by omega, ?_⟩
      have hno : ¬ Z.Has (o 0) c := by
        intro h1
        exact h3 (hold c (h.rem_old 0 (by omega) c h1))
      rw [hsum, Triplet.sum_eq_zero_of_not_has hno, if_pos ⟨rfl, h2⟩, zero_add]; exact h3
  · intro k hk
    by_cases hk' : k = U.n
    · rw [hk', hP']; exact h.rem_lt 0 (by omega)
    · rw [hP k (by omega)]; exact h.P_lt k (by omega)
  · intro k hk
    by_cases hk' : k = U.n
    · rw [hk', hP', hsum, hz _ _ (le_refl _), zero_add, if_pos ⟨rfl, by omega⟩]; exact hl
    · rw [hP k (by omega), hsne _ _ (h.rem_new k 0 (by omega) (by omega))]
      exact h.diag k (by omega)
  · intro k j hkj hj
    rw [hP k (by omega), hsne _ _ (h.rem_new k 0 (by omega) (by omega))]
    by_cases hj' : j = U.n
    · rw [hj']; exact hz _ _ (le_refl _)
    · exact h.upper k j hkj (by omega)
  · intro i hi hor c
    by_cases hi0 : i = o 0
    · rw [hi0, h.rem 0 (by omega) c, hv c, hn, Finset.sum_range_succ, Finset.sum_range_succ]
      have : ∀ j ∈ range U.n, Z'.sum q (o 0) j * U'.entry q j c =
          ℓ j * U'.entry q j c + Z.sum q (o 0) j * U.entry q j c := by
        intro j hj
        have hj := mem_range.mp hj
        rw [hsum, if_pos ⟨rfl, by omega⟩, hU j hj]; ring
      rw [Finset.sum_congr rfl this, Finset.sum_add_distrib, hsum, if_pos ⟨rfl, by omega⟩,
        hz _ _ (le_refl _)]
      ring
    · rw [hmul i c hi0]
      refine h.prod i hi ?_ c
      rcases hor with ⟨k, hk, rfl⟩ | ⟨h1, h2⟩
      · left
        have hk' : k ≠ U.n := fun e => hi0 (by rw [e, hP'])
        exact ⟨k, by omega, (hP k (by omega)).symm⟩
      · right
        refine ⟨h1, fun t ht => ?_⟩
        rcases t with _ | t
        · exact fun e => hi0 e.symm
        · exact h2 t (by omega)
  · intro t ht; exact h.rem_lt _ (by omega)
  · intro s t hs ht e
    have := h.rem_inj (s + 1) (t + 1) (by omega) (by omega) e
    omega
  · intro k t hk ht
    by_cases hk' : k = U.n
    · rw [hk', hP']
      intro e
      have := h.rem_inj 0 (t + 1) (by omega) (by omega) e
      omega
    · rw [hP k (by omega)]
      exact h.rem_new k (t + 1) (by omega) (by omega)
  · intro t ht c hh
    rcases hZ.has _ c hh with h1 | ⟨e, -⟩
    · exact h.rem_old (t + 1) (by omega) c h1
    · have := h.rem_inj (t + 1) 0 (by omega) (by omega) e
      omega
  · intro t ht c
    rw [hmul]
    · exact h.rem (t + 1) (by omega) c
    · intro e
      have := h.rem_inj (t + 1) 0 (by omega) (by omega) e
      omega

/-- Processing the first remaining row, which gives no pivot. -/
theorem PartialL.nopivot {Z Z' : Triplet} {P : Nat → Nat}
    (h : PartialL q A U Z P v (nr + 1) o old complete) {ℓ : Nat → ZMod q}
    (hv : ∀ c, v 0 c = ∑ k ∈ range U.n, ℓ k * U.entry q k c)
    (hold : ∀ k, k < old → ℓ k = 0)
    (hZ : AddsRow q Z Z' (o 0) U.n ℓ) :
    PartialL q A U Z' P (fun t => v (t + 1)) nr (fun t => o (t + 1)) old complete := by
  have hsne : ∀ a c, a ≠ o 0 → Z'.sum q a c = Z.sum q a c := by
    intro a c ha
    by_cases hc : c < U.n
    · rw [hZ.sum a c hc, if_neg ha, add_zero]
    · rw [hZ.sum_ge a c (by omega)]
  have hmul : ∀ a c, a ≠ o 0 → ∑ j ∈ range U.n, Z'.sum q a j * U.entry q j c =
      ∑ j ∈ range U.n, Z.sum q a j * U.entry q j c := by
    intro a c ha
    refine Finset.sum_congr rfl fun j hj => ?_
    rw [hsne a j ha]
  refine ⟨hZ.wfv, by rw [hZ.n_eq, h.n_eq], le_trans h.m_ge hZ.m_ge, ?_, h.P_lt, ?_, ?_, ?_, ?_, ?_, ?_, ?_, ?_⟩
  · intro i c hh
    rcases hZ.has i c hh with h1 | ⟨rfl, h2, h3⟩
    · have h4 := h.has i c h1
      refine ⟨h4.1, ?_⟩
      rw [hZ.sum i c h4.1]
      split_ifs with h2
      · rw [hold c (h.rem_old 0 (by omega) c (by rw [← h2]; exact h1)), add_zero]; exact h4.2
      · rw [add_zero]; exact h4.2
    · refine ⟨by omega, ?_⟩
      have hno : ¬ Z.Has (o 0) c := by
        intro h1
        exact h3 (hold c (h.rem_old 0 (by omega) c h1))
      rw [hZ.sum _ c h2, Triplet.sum_eq_zero_of_not_has hno, if_pos rfl, zero_add]; exact h3
  · intro k hk
    rw [hsne _ _ (h.rem_new k 0 hk (by omega))]
    exact h.diag k (by omega)
  · intro k j hkj hj
    rw [hsne _ _ (h.rem_new k 0 (by omega) (by omega))]
    exact h.upper k j hkj (by omega)
  · intro i hi hor c
    by_cases hi0 : i = o 0
    · rw [hi0, h.rem 0 (by omega) c, hv c, ← Finset.sum_add_distrib]
      refine Finset.sum_congr rfl fun j hj => ?_
      rw [hZ.sum _ j (mem_range.mp hj), if_pos rfl]; ring
    · rw [hmul i c hi0]
      refine h.prod i hi ?_ c
      rcases hor with h1 | ⟨h1, h2⟩
      · exact .inl h1
      · right
        refine ⟨h1, fun t ht => ?_⟩
        rcases t with _ | t
        · exact fun e => hi0 e.symm
        · exact h2 t (by omega)
  · intro t ht; exact h.rem_lt _ (by omega)
  · intro s t hs ht e
    have := h.rem_inj (s + 1) (t + 1) (by omega) (by omega) e
    omega
  · intro k t hk ht
    exact h.rem_new k (t + 1) (by omega) (by omega)
  · intro t ht c hh
    rcases hZ.has _ c hh with h1 | ⟨e, -⟩
    · exact h.rem_old (t + 1) (by omega) c h1
    · have := h.rem_inj (t + 1) 0 (by omega) (by omega) e
      omega
  · intro t ht c
    rw [hmul]
    · exact h.rem (t + 1) (by omega) c
    · intro e
      have := h.rem_inj (t + 1) 0 (by omega) (by omega) e
      omega

/-- Coefficients on old rows are zero. -/
theorem Partial.coeff_old {L : Option Triplet} {Lp : Option (Array Nat)}
    (h : Partial q A U qinv L Lp v nr o old complete) {t : Nat} (ht : t < nr) {ℓ : Nat → ZMod q}
    {w : Nat → ZMod q} (hv : ∀ c, v t c = w c + ∑ k ∈ range U.n, ℓ k * U.entry q k c)
    (hw : ∀ i, i < old → w (U.pivot i) = 0) : ∀ k, k < old → ℓ k = 0 := by
  refine h.ech.coeff_zero_of_lt ℓ h.old_le ?_
  intro i hi
  have := hv (U.pivot i)
  rw [h.zero t ht i hi, hw i hi, zero_add] at this
  exact this.symm

/-- The spaces do not change when the first remaining row becomes a row of `U`. -/
theorem span_pivot [Fact q.Prime] {U' : Csr} (hn : U'.n = U.n + 1)
    (hU : ∀ i, i < U.n → U'.entry q i = U.entry q i) {ℓ : Nat → ZMod q}
    (hv : ∀ c, v 0 c = ∑ k ∈ range (U.n + 1), ℓ k * U'.entry q k c) (hl : ℓ U.n ≠ 0) :
    U'.rowSpace q ⊔ spanOf (fun t => v (t + 1)) nr = U.rowSpace q ⊔ spanOf v (nr + 1) := by
  have hUU : U.rowSpace q ≤ U'.rowSpace q := by
    refine spanOf_le fun i hi => ?_
    rw [← hU i hi]
    exact mem_spanOf (by omega)
  refine le_antisymm ?_ ?_
  · refine sup_le (spanOf_le fun i hi => ?_) (le_trans spanOf_succ_le le_sup_right)
    by_cases hi' : i = U.n
    · subst hi'
      have e : U'.entry q U.n = (ℓ U.n)⁻¹ • (v 0 - fun c => ∑ k ∈ range U.n, ℓ k * U.entry q k c) := by
        ext c
        rw [Pi.smul_apply, Pi.sub_apply, hv c, Finset.sum_range_succ, smul_eq_mul]
        have : ∑ k ∈ range U.n, ℓ k * U'.entry q k c = ∑ k ∈ range U.n, ℓ k * U.entry q k c :=
          Finset.sum_congr rfl fun k hk => by rw [hU k (mem_range.mp hk)]
        rw [this]
        field_simp
        ring
      rw [e]
      refine Submodule.smul_mem _ _ (Submodule.sub_mem _ ?_ ?_)
      · exact Submodule.mem_sup_right (mem_spanOf (by omega))
      · exact Submodule.mem_sup_left (sum_mem_spanOf ℓ)
    · rw [hU i (by omega)]
      exact Submodule.mem_sup_left (mem_spanOf (by omega))
  · refine sup_le (le_trans hUU le_sup_left) (spanOf_le fun t ht => ?_)
    rcases t with _ | t
    · refine Submodule.mem_sup_left ?_
      have : v 0 = fun c => ∑ k ∈ range (U.n + 1), ℓ k * U'.entry q k c := funext hv
      rw [this, ← hn]
      exact sum_mem_spanOf ℓ
    · exact Submodule.mem_sup_right (mem_spanOf (f := fun t => v (t + 1)) (by omega))

theorem span_nopivot {ℓ : Nat → ZMod q}
    (hv : ∀ c, v 0 c = ∑ k ∈ range U.n, ℓ k * U.entry q k c) :
    U.rowSpace q ⊔ spanOf (fun t => v (t + 1)) nr = U.rowSpace q ⊔ spanOf v (nr + 1) := by
  refine le_antisymm (sup_le le_sup_left (le_trans spanOf_succ_le le_sup_right)) ?_
  refine sup_le le_sup_left (spanOf_le fun t ht => ?_)
  rcases t with _ | t
  · refine Submodule.mem_sup_left ?_
    have : v 0 = fun c => ∑ k ∈ range U.n, ℓ k * U.entry q k c := funext hv
    rw [this]
    exact sum_mem_spanOf ℓ
  · exact Submodule.mem_sup_right (mem_spanOf (f := fun t => v (t + 1)) (by omega))

end

end Spasm
