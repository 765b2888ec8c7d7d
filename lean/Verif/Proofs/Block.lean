import Verif.Proofs.Partial
import Verif.Spec.Dense

/-
Several rows at once join a factorization in progress.
-/

namespace Spasm

open Finset

/-- What the processing of the rows `o 0, ..., o (s - 1)` adds to `L`: for the rows that are kept, the
coefficients `μ` on the columns `0, ..., n - 1`. -/
structure AddsBlock (q : ℕ) (Z Z' : Triplet) (o : Nat → Nat) (s n : Nat) (keep : Nat → Prop)
    (μ : Nat → Nat → ZMod q) : Prop where
  wfv : Z'.WFV q
  n_eq : Z'.n = Z.n
  m_eq : Z'.m = Z.m
  sum : ∀ t, t < s → keep t → ∀ c, Z'.sum q (o t) c = Z.sum q (o t) c + if c < n then μ t c else 0
  sum_ne : ∀ a c, (∀ t, t < s → keep t → o t ≠ a) → Z'.sum q a c = Z.sum q a c
  has : ∀ a c, Z'.Has a c → Z.Has a c ∨ ∃ t, t < s ∧ keep t ∧ o t = a ∧ c < n ∧ μ t c ≠ 0

theorem PartialL.block {q : ℕ} {A U : Csr} {Z Z' : Triplet} {P P' : Nat → Nat} {v : Nat → Nat → ZMod q}
    {s nr : Nat} {o : Nat → Nat} {old : Nat} {complete : Bool}
    (h : PartialL q A U Z P v (s + nr) o old complete) {U' : Csr} {r : Nat} (hn : U'.n = U.n + r)
    (hU : ∀ i, i < U.n → U'.entry q i = U.entry q i) {σ : Nat → Nat} (hσ : IsPerm σ s) (hrs : r ≤ s)
    {μ : Nat → Nat → ZMod q}
    (hv : ∀ t, t < s → ∀ c, v (σ t) c = ∑ k ∈ range U'.n, μ t k * U'.entry q k c)
    (hd : ∀ t, t < r → μ t (U.n + t) ≠ 0) (hup : ∀ t k, t < r → t < k → μ t (U.n + k) = 0)
    (hold : ∀ t, t < s → ∀ k, k < old → μ t k = 0) {keep : Nat → Prop}
    (hk1 : ∀ t, t < r → keep t) (hk2 : complete = true → ∀ t, t < s → keep t)
    (hZ : AddsBlock q Z Z' (fun t => o (σ t)) s U'.n keep μ)
    (hP : ∀ k, k < U.n → P' k = P k) (hP' : ∀ t, t < r → P' (U.n + t) = o (σ t)) :
    PartialL q A U' Z' P' (fun t => v (s + t)) nr (fun t => o (s + t)) old complete := by
  have hz : ∀ a c, U.n ≤ c → Z.sum q a c = 0 := by
    intro a c hc
    refine Triplet.sum_eq_zero_of_not_has fun hh => ?_
    have := (h.has a c hh).1
    omega
  have hz' : ∀ t, t < s → ∀ c, old ≤ c → Z.sum q (o (σ t)) c = 0 := by
    intro t ht c hc
    refine Triplet.sum_eq_zero_of_not_has fun hh => ?_
    have := h.rem_old (σ t) (by have := hσ.1 t ht; omega) c hh
    omega
  have hext : ∀ a c, ∑ j ∈ range U'.n, Z.sum q a j * U'.entry q j c =
      ∑ j ∈ range U.n, Z.sum q a j * U.entry q j c := by
    intro a c
    rw [hn, Finset.sum_range_add, Finset.sum_eq_zero (s := range r), add_zero]
    · exact Finset.sum_congr rfl fun j hj => by rw [hU j (mem_range.mp hj)]
    · intro j _
      rw [hz a _ (by omega), zero_mul]
  have hsσ : ∀ t, t < s → σ t < s := hσ.1
  have hinj : ∀ t t', t < s → t' < s → o (σ t) = o (σ t') → t = t' := by
    intro t t' ht ht' e
    have h1 := hsσ t ht
    have h2 := hsσ t' ht'
    exact hσ.2 t t' ht ht' (h.rem_inj _ _ (by omega) (by omega) e)
  -- rows that are kept
  have K : ∀ t, t < s → keep t → ∀ c,
      A.entry q (o (σ t)) c = ∑ j ∈ range U'.n, Z'.sum q (o (σ t)) j * U'.entry q j c := by
    intro t ht hkt c
    have h1 := hsσ t ht
    rw [h.rem (σ t) (by omega) c, hv t ht c, ← hext, ← Finset.sum_add_distrib]
    refine Finset.sum_congr rfl fun j hj => ?_
    rw [hZ.sum t ht hkt j, if_pos (mem_range.mp hj)]
    ring
  have hrem : ∀ t, t < nr → ∀ c, Z'.sum q (o (s + t)) c = Z.sum q (o (s + t)) c := by
    intro t ht c
    refine hZ.sum_ne _ c fun t' ht' _ e => ?_
    have h1 := hsσ t' ht'
    have := h.rem_inj _ _ (by omega) (by omega) e
    omega
  have hPz : ∀ k, k < U.n → ∀ c, Z'.sum q (P k) c = Z.sum q (P k) c := by
    intro k hk c
    refine hZ.sum_ne _ c fun t' ht' _ e => ?_
    have h1 := hsσ t' ht'
    exact h.rem_new k (σ t') hk (by omega) e.symm
  have hcase : ∀ k, k < U'.n → k < U.n ∨ ∃ t, t < r ∧ k = U.n + t := by
    intro k hk
    by_cases e : k < U.n
    · exact Or.inl e
    · exact Or.inr ⟨k - U.n, by omega, by omega⟩
  constructor
  · exact hZ.wfv
  · rw [hZ.n_eq, h.n_eq]
  · rw [hZ.m_eq]; exact h.m_ge
  · intro a c hh
    rcases hZ.has a c hh with hh | ⟨t, ht, hkt, rfl, hc, hm⟩
    · obtain ⟨h1, h2⟩ := h.has a c hh
      refine ⟨by omega, ?_⟩
      by_cases e : ∃ t, t < s ∧ keep t ∧ o (σ t) = a
      · obtain ⟨t, ht, hkt, rfl⟩ := e
        have hco := h.rem_old (σ t) (by have := hsσ t ht; omega) c hh
        rw [hZ.sum t ht hkt c, hold t ht c hco]
        simpa using h2
      · rw [hZ.sum_ne a c (fun t ht hkt e' => e ⟨t, ht, hkt, e'⟩)]
        exact h2
    · refine ⟨hc, ?_⟩
      have hco : old ≤ c := by
        by_contra hlt
        exact hm (hold t ht c (by omega))
      have := hZ.sum t ht hkt c
      rw [this, if_pos hc, hz' t ht c hco, zero_add]
      exact hm
  · intro k hk
    rcases hcase k hk with e | ⟨t, ht, rfl⟩
    · rw [hP k e]; exact h.P_lt k e
    · rw [hP' t ht]
      exact h.rem_lt _ (by have := hsσ t (by omega); omega)
  · intro k hk
    rcases hcase k hk with e | ⟨t, ht, rfl⟩
    · rw [hP k e, hPz k e]; exact h.diag k e
    · rw [hP' t ht]
      have := hZ.sum t (by omega) (hk1 t ht) (U.n + t)
      rw [this, if_pos hk, hz _ _ (by omega), zero_add]
      exact hd t ht
  · intro k j hkj hj
    rcases hcase k (by omega) with e | ⟨t, ht, rfl⟩
    · rw [hP k e, hPz k e]
      by_cases hj' : j < U.n
      · exact h.upper k j hkj hj'
      · exact hz _ _ (by omega)
    · rw [hP' t ht]
      have := hZ.sum t (by omega) (hk1 t ht) j
      rw [this, if_pos hj, hz _ _ (by omega), zero_add]
      have := hup t (j - U.n) ht (by omega)
      rwa [show U.n + (j - U.n) = j by omega] at this
  · intro i hi hcond c
    by_cases e : ∃ t, t < s ∧ keep t ∧ o (σ t) = i
    · obtain ⟨t, ht, hkt, rfl⟩ := e
      exact K t ht hkt c
    · have hsum : ∀ j, Z'.sum q i j = Z.sum q i j := fun j =>
        hZ.sum_ne i j fun t ht hkt e' => e ⟨t, ht, hkt, e'⟩
      have hsum' : ∑ j ∈ range U'.n, Z'.sum q i j * U'.entry q j c =
          ∑ j ∈ range U.n, Z.sum q i j * U.entry q j c := by
        rw [← hext]
        exact Finset.sum_congr rfl fun j _ => by rw [hsum j]
      rw [hsum']
      refine h.prod i hi ?_ c
      rcases hcond with ⟨k, hk, rfl⟩ | ⟨hc, hno⟩
      · rcases hcase k hk with e' | ⟨t, ht, rfl⟩
        · exact Or.inl ⟨k, e', (hP k e').symm⟩
        · exact absurd ⟨t, by omega, hk1 t ht, (hP' t ht).symm⟩ e
      · refine Or.inr ⟨hc, ?_⟩
        intro t ht e'
        by_cases hts : t < s
        · obtain ⟨t', ht', e2⟩ := hσ.surj hts
          exact e ⟨t', ht', hk2 hc t' ht', by rw [e2, e']⟩
        · exact hno (t - s) (by omega) (by rw [show s + (t - s) = t by omega]; exact e')
  · intro t ht; exact h.rem_lt _ (by omega)
  · intro a b ha hb e
    have := h.rem_inj _ _ (by omega) (by omega) e
    omega
  · intro k t hk ht
    rcases hcase k hk with e | ⟨t', ht', rfl⟩
    · rw [hP k e]; exact h.rem_new k _ e (by omega)
    · rw [hP' t' ht']
      intro e
      have h1 := hsσ t' (by omega)
      have := h.rem_inj _ _ (by omega) (by omega) e
      omega
  · intro t ht c hh
    rcases hZ.has _ c hh with hh | ⟨t', ht', -, e, -, -⟩
    · exact h.rem_old _ (by omega) c hh
    · have h1 := hsσ t' (by omega)
      have := h.rem_inj _ _ (by omega) (by omega) e
      omega
  · intro t ht c
    rw [h.rem _ (by omega) c, ← hext]
    congr 1
    exact Finset.sum_congr rfl fun j _ => by rw [hrem t ht j]

/-- The spaces do not change when a block of remaining vectors is replaced by rows of `U`. -/
theorem span_block {q : ℕ} {U U' : Csr} {v : Nat → Nat → ZMod q} {s nr : Nat}
    (hU : U.rowSpace q ≤ U'.rowSpace q)
    (h1 : spanOf v s ≤ U'.rowSpace q) (h2 : U'.rowSpace q ≤ U.rowSpace q ⊔ spanOf v s) :
    U'.rowSpace q ⊔ spanOf (fun t => v (s + t)) nr = U.rowSpace q ⊔ spanOf v (s + nr) := by
  have hs : spanOf v s ≤ spanOf v (s + nr) := spanOf_mono (by omega)
  refine le_antisymm (sup_le ?_ ?_) (sup_le ?_ ?_)
  · exact h2.trans (sup_le le_sup_left (hs.trans le_sup_right))
  · refine le_trans (spanOf_le fun t ht => ?_) le_sup_right
    exact mem_spanOf (f := v) (by omega)
  · exact hU.trans le_sup_left
  · refine spanOf_le fun t ht => ?_
    by_cases e : t < s
    · exact (h1.trans le_sup_left) (mem_spanOf e)
    · refine Submodule.mem_sup_right ?_
      have := mem_spanOf (f := fun t => v (s + t)) (n := nr) (i := t - s) (by omega)
      rwa [show s + (t - s) = t by omega] at this

/-- The new rows come from the block, when the coefficients are triangular. -/
theorem rows_of_block {q : ℕ} [Fact q.Prime] {U U' : Csr} {v : Nat → Nat → ZMod q} {s r : Nat}
    (hn : U'.n = U.n + r) (hU : ∀ i, i < U.n → U'.entry q i = U.entry q i) {σ : Nat → Nat}
    (hσ : ∀ t, t < s → σ t < s) (hrs : r ≤ s) {μ : Nat → Nat → ZMod q}
    (hv : ∀ t, t < s → ∀ c, v (σ t) c = ∑ k ∈ range U'.n, μ t k * U'.entry q k c)
    (hd : ∀ t, t < r → μ t (U.n + t) ≠ 0) (hup : ∀ t k, t < r → t < k → μ t (U.n + k) = 0) :
    U'.rowSpace q ≤ U.rowSpace q ⊔ spanOf v s := by
  have key : ∀ t, t < r → U'.entry q (U.n + t) ∈ U.rowSpace q ⊔ spanOf v s := by
    intro t
    induction t using Nat.strong_induction_on with
    | _ t ih =>
      intro ht
      have he : U'.entry q (U.n + t) = (μ t (U.n + t))⁻¹ • (v (σ t) -
          ∑ k ∈ range (U.n + t), μ t k • U'.entry q k) := by
        ext c
        have := hv t (by omega) c
        rw [hn, show U.n + r = (U.n + t + 1) + (r - t - 1) by omega, Finset.sum_range_add,
          Finset.sum_eq_zero (s := range (r - t - 1)), add_zero, Finset.sum_range_succ] at this
        · rw [Pi.smul_apply, Pi.sub_apply, Finset.sum_apply, this]
          simp only [Pi.smul_apply, smul_eq_mul]
          rw [add_sub_cancel_left, ← mul_assoc, inv_mul_cancel₀ (hd t ht), one_mul]
        · intro k _
          have := hup t (t + 1 + k) ht (by omega)
          rw [show U.n + t + 1 + k = U.n + (t + 1 + k) by omega, this, zero_mul]
      rw [he]
      refine Submodule.smul_mem _ _ (Submodule.sub_mem _ ?_ (Submodule.sum_mem _ fun k hk =>
        Submodule.smul_mem _ _ ?_))
      · exact Submodule.mem_sup_right (mem_spanOf (hσ t (by omega)))
      · have hk' := mem_range.mp hk
        by_cases e : k < U.n
        · rw [hU k e]; exact Submodule.mem_sup_left (mem_spanOf e)
        · have := ih (k - U.n) (by omega) (by omega)
          rwa [show U.n + (k - U.n) = k by omega] at this
  refine spanOf_le fun k hk => ?_
  by_cases e : k < U.n
  · rw [hU k e]; exact Submodule.mem_sup_left (mem_spanOf e)
  · have := key (k - U.n) (by omega)
    rwa [show U.n + (k - U.n) = k by omega] at this

end Spasm
