import Verif.Proofs.TransferBlock
import Mathlib.Data.ZMod.ValMinAbs
import Mathlib.Tactic.FieldSimp

/-
The assumption on the dense linear algebra library can be met.
-/

namespace Spasm

open Finset

theorem exists_bal {q : ℕ} [NeZero q] (x : ZMod q) : Bal q x.valMinAbs ∧ ((x.valMinAbs : Int) : ZMod q) = x := by
  have h := x.valMinAbs_mem_Ioc
  refine ⟨?_, x.coe_valMinAbs⟩
  obtain ⟨h1, h2⟩ := h
  unfold Bal
  omega

/-- Exchange of two positions. -/
def swapF (f : Nat → Nat) (a b t : Nat) : Nat := if t = a then f b else if t = b then f a else f t

theorem IsPerm.swapF {f : Nat → Nat} {n a b : Nat} (h : IsPerm f n) (ha : a < n) (hb : b < n) :
    IsPerm (swapF f a b) n := by
  refine ⟨fun i hi => ?_, fun i k hi hk e => ?_⟩
  · unfold Spasm.swapF; split
    · exact h.1 b hb
    · split
      · exact h.1 a ha
      · exact h.1 i hi
  · unfold Spasm.swapF at e
    split at e <;> split at e <;> try split at e
    all_goals try split at e
    all_goals try (have := h.2 _ _ (by assumption) (by assumption) e)
    all_goals omega

/-! ### Reduced echelon forms -/

/-- Rows in reduced echelon form. -/
structure RrefF (q : ℕ) (m n : Nat) (v : Nat → Nat → ZMod q) (r : Nat) (Q : Nat → Nat)
    (R : Nat → Nat → ZMod q) : Prop where
  r_n : r ≤ n
  r_m : r ≤ m
  perm : IsPerm Q m
  supp : ∀ i, i < r → ∀ c, m ≤ c → R i c = 0
  delta : ∀ i j, i < r → j < r → R i (Q j) = if j = i then 1 else 0
  span : spanOf R r = spanOf v n

theorem spanOf_succ_eq {q : ℕ} (f : Nat → Nat → ZMod q) (n : Nat) :
    spanOf f (n + 1) = spanOf f n ⊔ Submodule.span (ZMod q) {f n} := by
  refine le_antisymm (spanOf_le fun i hi => ?_) (sup_le (spanOf_le fun i hi => mem_spanOf (by omega)) ?_)
  · by_cases e : i = n
    · subst e; exact Submodule.mem_sup_right (Submodule.mem_span_singleton_self _)
    · exact Submodule.mem_sup_left (mem_spanOf (by omega))
  · rw [Submodule.span_singleton_le_iff_mem]; exact mem_spanOf (by omega)

theorem exists_rrefF {q : ℕ} [Fact q.Prime] (m n : Nat) (v : Nat → Nat → ZMod q)
    (hv : ∀ i c, m ≤ c → v i c = 0) : ∃ r Q R, RrefF q m n v r Q R := by
  induction n with
  | zero =>
    refine ⟨0, id, fun _ _ => 0, by omega, by omega, isPerm_id m, fun i hi => by omega,
      fun i j hi => by omega, ?_⟩
    exact le_antisymm (spanOf_le fun i hi => by omega) (spanOf_le fun i hi => by omega)
  | succ n ih =>
    obtain ⟨r, Q, R, h⟩ := ih
    have hrn := h.r_n
    have hrm := h.r_m
    set s : Nat → ZMod q := fun c => ∑ i ∈ range r, v n (Q i) * R i c with hs
    set u : Nat → ZMod q := v n - s with hu
    have hsm : s ∈ spanOf R r := sum_mem_spanOf _
    have hsz : ∀ c, m ≤ c → s c = 0 := fun c hc =>
      Finset.sum_eq_zero fun i hi => by rw [h.supp i (mem_range.mp hi) c hc, mul_zero]
    have huz : ∀ c, m ≤ c → u c = 0 := fun c hc => by
      rw [hu, Pi.sub_apply, hsz c hc, hv n c hc, sub_zero]
    have huQ : ∀ j, j < r → u (Q j) = 0 := by
      intro j hj
      have : s (Q j) = v n (Q j) := by
        rw [hs]
        simp only
        rw [Finset.sum_eq_single j]
        · rw [h.delta j j hj hj, if_pos rfl, mul_one]
        · intro i hi hne
          rw [h.delta i j (mem_range.mp hi) hj, if_neg (fun e => hne e.symm), mul_zero]
        · intro hn; exact absurd (mem_range.mpr hj) hn
      rw [hu, Pi.sub_apply, this, sub_self]
    by_cases hzero : u = 0
    · refine ⟨r, Q, R, by omega, hrm, h.perm, h.supp, h.delta, ?_⟩
      rw [spanOf_succ_eq, ← h.span]
      have : v n = s := sub_eq_zero.mp hzero
      rw [eq_comm, sup_eq_left, Submodule.span_singleton_le_iff_mem, this]
      exact hsm
    · obtain ⟨c, hc⟩ : ∃ c, u c ≠ 0 := by
        by_contra hcon
        push Not at hcon
        exact hzero (funext hcon)
      have hcm : c < m := by
        by_contra hcm
        exact hc (huz c (by omega))
      obtain ⟨k, hk, rfl⟩ := h.perm.surj hcm
      have hkr : r ≤ k := by
        by_contra hlt
        exact hc (huQ k (by omega))
      set z : ZMod q := u (Q k) with hz
      set R' : Nat → Nat → ZMod q := fun i =>
        if i = r then z⁻¹ • u else R i - (R i (Q k) * z⁻¹) • u with hR'
      have hold : ∀ i, i < r → R' i = R i - (R i (Q k) * z⁻¹) • u := by
        intro i hi; rw [hR']; simp only; rw [if_neg (by omega)]
      have hnew : R' r = z⁻¹ • u := by rw [hR']; exact if_pos rfl
      have hQ' : ∀ j, j < r → Spasm.swapF Q r k j = Q j := by
        intro j hj; unfold Spasm.swapF; rw [if_neg (by omega), if_neg (by omega)]
      have hQr : Spasm.swapF Q r k r = Q k := by unfold Spasm.swapF; rw [if_pos rfl]
      have hun : u ∈ spanOf R' (r + 1) := by
        have : u = z • R' r := by
          rw [hnew, smul_smul, mul_inv_cancel₀ hc, one_smul]
        rw [this]
        exact Submodule.smul_mem _ _ (mem_spanOf (by omega))
      have hRn : ∀ i, i < r → R i ∈ spanOf R' (r + 1) := by
        intro i hi
        have : R i = R' i + (R i (Q k) * z⁻¹) • u := by rw [hold i hi]; simp
        rw [this]
        exact Submodule.add_mem _ (mem_spanOf (by omega)) (Submodule.smul_mem _ _ hun)
      refine ⟨r + 1, Spasm.swapF Q r k, R', by omega, by omega, h.perm.swapF (by omega) hk, ?_, ?_, ?_⟩
      · intro i hi c' hc'
        by_cases e : i = r
        · subst e; rw [hnew, Pi.smul_apply, huz c' hc', smul_zero]
        · rw [hold i (by omega), Pi.sub_apply, Pi.smul_apply, huz c' hc', h.supp i (by omega) c' hc',
            smul_zero, sub_zero]
      · intro i j hi hj
        by_cases ei : i = r
        · subst ei
          rw [hnew, Pi.smul_apply, smul_eq_mul]
          by_cases ej : j = i
          · rw [ej, hQr, if_pos rfl, inv_mul_cancel₀ hc]
          · rw [hQ' j (by omega), huQ j (by omega), mul_zero, if_neg ej]
        · rw [hold i (by omega), Pi.sub_apply, Pi.smul_apply, smul_eq_mul]
          by_cases ej : j = r
          · rw [ej, hQr, if_neg (by omega), mul_assoc, inv_mul_cancel₀ hc, mul_one, sub_self]
          · rw [hQ' j (by omega), huQ j (by omega), mul_zero, sub_zero, h.delta i j (by omega) (by omega)]
      · rw [spanOf_succ_eq v n, ← h.span]
        refine le_antisymm ?_ (sup_le (spanOf_le hRn) ?_)
        · have hvn : v n ∈ spanOf R r ⊔ Submodule.span (ZMod q) {v n} :=
            Submodule.mem_sup_right (Submodule.mem_span_singleton_self _)
          have hum : u ∈ spanOf R r ⊔ Submodule.span (ZMod q) {v n} :=
            Submodule.sub_mem _ hvn (Submodule.mem_sup_left hsm)
          have := le_sup_left (a := spanOf R r) (b := Submodule.span (ZMod q) {v n})
          refine spanOf_le fun i hi => ?_
          by_cases e : i = r
          · subst e; rw [hnew]; exact Submodule.smul_mem _ _ hum
          · rw [hold i (by omega)]
            exact Submodule.sub_mem _ (this (mem_spanOf (by omega))) (Submodule.smul_mem _ _ hum)
        · rw [Submodule.span_singleton_le_iff_mem]
          have : v n = u + s := by rw [hu]; simp
          rw [this]
          exact Submodule.add_mem _ hun (spanOf_le hRn hsm)

/-- Every matrix has a reduced echelon form. -/
theorem exists_dense_rref {q : ℕ} [Fact q.Prime] (n m : Nat) (w : Nat → Nat → Int) :
    ∃ r w' Q, DenseRref q n m w r w' Q ∧ ∀ i j, Bal q (w' i j) := by
  obtain ⟨r, Q, R, h⟩ := exists_rrefF (q := q) m n (denseRow q m w) (fun i c hc => by
    unfold denseRow; rw [if_neg (by omega)])
  have hq := (Fact.out : q.Prime).pos
  have : NeZero q := ⟨by omega⟩
  refine ⟨r, fun i j => (R i (Q j)).valMinAbs, mkArr m Q, ⟨h.r_n, h.r_m, size_mkArr .., ?_, ?_, ?_⟩,
    fun i j => (exists_bal _).1⟩
  · exact ⟨fun i hi => by rw [g_mkArr _ _ _ hi]; exact h.perm.1 i hi, fun i k hi hk e => by
      rw [g_mkArr _ _ _ hi, g_mkArr _ _ _ hk] at e; exact h.perm.2 i k hi hk e⟩
  · intro i j _ _ _; exact (exists_bal _).1
  · rw [← h.span]
    refine spanOf_congr fun i hi => ?_
    ext c
    unfold denseRrefRow onCols
    have key : ∀ t ∈ range m, (if (mkArr m Q).g t = c then
        (if t < r then (if t = i then (1 : ZMod q) else 0) else ((R i (Q t)).valMinAbs : ZMod q)) else 0) =
        if Q t = c then R i (Q t) else 0 := by
      intro t ht
      rw [g_mkArr _ _ _ (mem_range.mp ht)]
      by_cases e : Q t = c
      · rw [if_pos e, if_pos e]
        by_cases htr : t < r
        · rw [if_pos htr, h.delta i t hi htr]
        · rw [if_neg htr, (exists_bal _).2]
      · rw [if_neg e, if_neg e]
    rw [Finset.sum_congr rfl key]
    by_cases hc : c < m
    · obtain ⟨k, hk, rfl⟩ := h.perm.surj hc
      rw [Finset.sum_eq_single k]
      · rw [if_pos rfl]
      · intro t ht hne
        rw [if_neg]
        intro e; exact hne (h.perm.2 t k (mem_range.mp ht) hk e)
      · intro hn; exact absurd (mem_range.mpr hk) hn
    · rw [h.supp i hi c (by omega)]
      refine Finset.sum_eq_zero fun t ht => if_neg ?_
      have := h.perm.1 t (mem_range.mp ht)
      omega

/-! ### PLUQ factorizations -/

structure PluqF (q : ℕ) (n m : Nat) (w : Nat → Nat → ZMod q) (r : Nat) (P Q : Nat → Nat)
    (L U : Nat → Nat → ZMod q) : Prop where
  r_n : r ≤ n
  r_m : r ≤ m
  p_perm : IsPerm P n
  q_perm : IsPerm Q m
  lzero : ∀ i k, i < k → L i k = 0
  diag : ∀ i, i < r → L i i ≠ 0
  uzero : ∀ k j, j < k → U k j = 0
  uone : ∀ k, k < r → U k k = 1
  prod : ∀ i j, i < n → j < m → w (P i) (Q j) = ∑ k ∈ range r, L i k * U k j

theorem exists_forward {q : ℕ} (U : Nat → Nat → ZMod q) (y : Nat → ZMod q) (r : Nat)
    (hz : ∀ k j, j < k → U k j = 0) (h1 : ∀ k, k < r → U k k = 1) :
    ∃ l : Nat → ZMod q, ∀ j, j < r → y j = ∑ k ∈ range r, l k * U k j := by
  induction r with
  | zero => exact ⟨fun _ => 0, fun j hj => by omega⟩
  | succ r ih =>
    obtain ⟨l, hl⟩ := ih fun k hk => h1 k (by omega)
    set a : ZMod q := y r - ∑ k ∈ range r, l k * U k r
    have hs : ∀ j, ∑ k ∈ range (r + 1), (if k = r then a else l k) * U k j =
        ∑ k ∈ range r, l k * U k j + a * U r j := by
      intro j
      rw [Finset.sum_range_succ, if_pos rfl]
      congr 1
      exact Finset.sum_congr rfl fun k hk => by
        rw [if_neg (by have := mem_range.mp hk; omega)]
    refine ⟨fun k => if k = r then a else l k, fun j hj => ?_⟩
    rw [hs]
    by_cases e : j = r
    · subst e
      rw [h1 j (by omega), mul_one, add_sub_cancel]
    · rw [hz r j (by omega), mul_zero, add_zero]
      exact hl j (by omega)

theorem exists_pluqF {q : ℕ} [Fact q.Prime] (n m : Nat) (w : Nat → Nat → ZMod q) :
    ∃ r P Q L U, PluqF q n m w r P Q L U := by
  induction n with
  | zero =>
    refine ⟨0, id, id, fun _ _ => 0, fun _ _ => 0, by omega, by omega, isPerm_id 0, isPerm_id m,
      fun _ _ _ => rfl, fun i hi => by omega, fun _ _ _ => rfl, fun i hi => by omega,
      fun i j hi => by omega⟩
  | succ n ih =>
    obtain ⟨r, P, Q, L, U, h⟩ := ih
    have hrn := h.r_n
    have hrm := h.r_m
    obtain ⟨l, hl⟩ := exists_forward U (fun j => w n (Q j)) r h.uzero h.uone
    set z : Nat → ZMod q := fun j => w n (Q j) - ∑ k ∈ range r, l k * U k j with hzd
    have hzr : ∀ j, j < r → z j = 0 := fun j hj => by
      rw [hzd]; exact sub_eq_zero.mpr (hl j hj)
    by_cases hall : ∀ j, j < m → z j = 0
    · -- a dependent row, at the end
      refine ⟨r, fun i => if i = n then n else P i, Q, fun i k => if i = n then (if k ≤ n then l k else 0)
        else L i k, U, by omega, hrm, ⟨?_, ?_⟩, h.q_perm, ?_, ?_, h.uzero, h.uone, ?_⟩
      · intro i hi
        simp only
        split
        · omega
        · have := h.p_perm.1 i (by omega); omega
      · intro i k hi hk e
        simp only at e
        split at e <;> split at e
        · omega
        · have := h.p_perm.1 k (by omega); omega
        · have := h.p_perm.1 i (by omega); omega
        · exact h.p_perm.2 i k (by omega) (by omega) e
      · intro i k hik
        split
        · rw [if_neg (by omega)]
        · exact h.lzero i k hik
      · intro i hi
        rw [if_neg (by omega)]
        exact h.diag i hi
      · intro i j hi hj
        by_cases e : i = n
        · simp only [if_pos e]
          have := hall j hj
          rw [hzd] at this
          rw [sub_eq_zero.mp this]
          exact Finset.sum_congr rfl fun k hk => by
            rw [if_pos (by have := mem_range.mp hk; omega)]
        · simp only [if_neg e]
          exact h.prod i j (by omega) hj
    · push Not at hall
      obtain ⟨c, hcm, hc⟩ := hall
      have hcr : r ≤ c := by
        by_contra hlt
        exact hc (hzr c (by omega))
      -- a new pivot: row `n` in position `r`, column `c` in position `r`
      set τ : Nat → Nat := swapF id r c with hτ
      have hτlt : ∀ j, j < r → τ j = j := by
        intro j hj; rw [hτ]; unfold Spasm.swapF; rw [if_neg (by omega), if_neg (by omega)]; rfl
      have hτr : τ r = c := by rw [hτ]; unfold Spasm.swapF; rw [if_pos rfl]; rfl
      have hτge : ∀ j, r ≤ j → r ≤ τ j := by
        intro j hj; rw [hτ]; unfold Spasm.swapF; simp only [id]; split
        · exact hcr
        · split <;> omega
      have hτm : ∀ j, j < m → τ j < m := (isPerm_id m).swapF (by omega) hcm |>.1
      have hQτ : ∀ j, swapF Q r c j = Q (τ j) := by
        intro j; rw [hτ]; unfold Spasm.swapF; simp only [id]
        split
        · rfl
        · split <;> rfl
      set P0 : Nat → Nat := fun i => if i = n then n else P i with hP0
      have hP0p : IsPerm P0 (n + 1) := by
        refine ⟨fun i hi => ?_, fun i k hi hk e => ?_⟩
        · rw [hP0]
          simp only
          split
          · omega
          · have := h.p_perm.1 i (by omega); omega
        · rw [hP0] at e
          simp only at e
          split at e <;> split at e
          · omega
          · have := h.p_perm.1 k (by omega); omega
          · have := h.p_perm.1 i (by omega); omega
          · exact h.p_perm.2 i k (by omega) (by omega) e
      set U' : Nat → Nat → ZMod q := fun k j =>
        if k < r then U k (τ j) else if k = r then (z c)⁻¹ * z (τ j) else 0 with hU'
      set L' : Nat → Nat → ZMod q := fun i k =>
        if i = r then (if k < r then l k else if k = r then z c else 0)
        else if k < r then (if i = n then L r k else L i k) else 0 with hL'
      have hL'r : ∀ k, k < r → L' r k = l k := fun k hk => by
        rw [hL']; simp only [if_true]; rw [if_pos hk]
      have hL'rr : L' r r = z c := by
        rw [hL']; simp
      have hL'i : ∀ i k, i ≠ r → k < r → L' i k = if i = n then L r k else L i k := fun i k hi hk => by
        rw [hL']; simp only; rw [if_neg hi, if_pos hk]
      have hL'ir : ∀ i, i ≠ r → L' i r = 0 := fun i hi => by
        rw [hL']; simp only; rw [if_neg hi, if_neg (by omega)]
      have hU'k : ∀ k j, k < r → U' k j = U k (τ j) := fun k j hk => by
        rw [hU']; simp only; rw [if_pos hk]
      have hU'r : ∀ j, U' r j = (z c)⁻¹ * z (τ j) := fun j => by
        rw [hU']; simp only; rw [if_neg (by omega)]; simp
      refine ⟨r + 1, swapF P0 r n, swapF Q r c, L', U', by omega, by omega,
        hP0p.swapF (by omega) (by omega), h.q_perm.swapF (by omega) hcm, ?_, ?_, ?_, ?_, ?_⟩
      · intro i k hik
        rw [hL']
        simp only
        by_cases e : i = r
        · rw [if_pos e, if_neg (by omega), if_neg (by omega)]
        · rw [if_neg e]
          split
          · rename_i hk
            rw [if_neg (by omega)]
            exact h.lzero i k hik
          · rfl
      · intro i hi
        by_cases e : i = r
        · subst e; rw [hL'rr]; exact hc
        · rw [hL'i i i e (by omega), if_neg (by omega)]
          exact h.diag i (by omega)
      · intro k j hjk
        rcases Nat.lt_trichotomy k r with e | e | e
        · rw [hU'k k j e, hτlt j (by omega)]
          exact h.uzero k j hjk
        · subst e
          rw [hU'r, hτlt j hjk, hzr j hjk, mul_zero]
        · rw [hU']; simp only; rw [if_neg (by omega), if_neg (by omega)]
      · intro k hk
        by_cases e : k = r
        · subst e; rw [hU'r, hτr, inv_mul_cancel₀ hc]
        · rw [hU'k k k (by omega), hτlt k (by omega)]
          exact h.uone k (by omega)
      · intro i j hi hj
        rw [hQτ, Finset.sum_range_succ, hU'r]
        have hjm := hτm j hj
        by_cases e : i = r
        · subst e
          have hPr : swapF P0 i n i = n := by
            unfold Spasm.swapF; rw [if_pos rfl, hP0]; simp
          rw [hPr, hL'rr, ← mul_assoc, mul_inv_cancel₀ hc, one_mul, hzd]
          simp only
          rw [Finset.sum_congr rfl fun k hk => by
            rw [hL'r k (mem_range.mp hk), hU'k k j (mem_range.mp hk)]]
          rw [add_sub_cancel]
        · rw [hL'ir i e, zero_mul, add_zero]
          by_cases e2 : i = n
          · subst e2
            have hri : r < i := by omega
            have hPr : swapF P0 r i i = P r := by
              unfold Spasm.swapF; rw [if_neg e, if_pos rfl, hP0]; simp only; rw [if_neg (by omega)]
            rw [hPr, h.prod r (τ j) hri hjm]
            exact Finset.sum_congr rfl fun k hk => by
              rw [hL'i i k e (mem_range.mp hk), if_pos rfl, hU'k k j (mem_range.mp hk)]
          · have hPr : swapF P0 r n i = P i := by
              unfold Spasm.swapF; rw [if_neg e, if_neg e2, hP0]; simp only; rw [if_neg e2]
            rw [hPr, h.prod i (τ j) (by omega) hjm]
            exact Finset.sum_congr rfl fun k hk => by
              rw [hL'i i k e (mem_range.mp hk), if_neg e2, hU'k k j (mem_range.mp hk)]

/-- Every matrix has a PLUQ factorization. -/
theorem exists_pluq {q : ℕ} [Fact q.Prime] (n m : Nat) (w : Nat → Nat → Int) :
    ∃ r w' P Q, IsPluq q n m w r w' P Q := by
  obtain ⟨r, P, Q, L, U, h⟩ := exists_pluqF (q := q) n m fun i j => (w i j : ZMod q)
  have hq := (Fact.out : q.Prime).pos
  have : NeZero q := ⟨by omega⟩
  have hb0 : Bal q 0 := by unfold Bal; omega
  refine ⟨r, fun i j => if j ≤ i then (L i j).valMinAbs else (U i j).valMinAbs, mkArr n P, mkArr m Q,
    h.r_n, h.r_m, size_mkArr .., size_mkArr .., ?_, ?_, ?_, ?_, ?_⟩
  · exact ⟨fun i hi => by rw [g_mkArr _ _ _ hi]; exact h.p_perm.1 i hi, fun i k hi hk e => by
      rw [g_mkArr _ _ _ hi, g_mkArr _ _ _ hk] at e; exact h.p_perm.2 i k hi hk e⟩
  · exact ⟨fun i hi => by rw [g_mkArr _ _ _ hi]; exact h.q_perm.1 i hi, fun i k hi hk e => by
      rw [g_mkArr _ _ _ hi, g_mkArr _ _ _ hk] at e; exact h.q_perm.2 i k hi hk e⟩
  · intro i j _ _
    split <;> exact (exists_bal _).1
  · intro i hi
    simp only [le_refl, if_true]
    intro e
    apply h.diag i hi
    rw [← (exists_bal (L i i)).2, e, Int.cast_zero]
  · intro i j hi hj
    rw [g_mkArr _ _ _ hi, g_mkArr _ _ _ hj, h.prod i j hi hj]
    refine Finset.sum_congr rfl fun k hk => ?_
    have hk := mem_range.mp hk
    congr 1
    · unfold luL
      by_cases e : k ≤ i
      · rw [if_pos e]; simp only; rw [if_pos e, (exists_bal _).2]
      · rw [if_neg e, h.lzero i k (by omega)]
    · unfold luU
      by_cases e : j = k
      · subst e; rw [if_pos rfl, h.uone j hk]
      · rw [if_neg e]
        by_cases e2 : k < j
        · rw [if_pos e2]; simp only; rw [if_neg (by omega), (exists_bal _).2]
        · rw [if_neg e2, h.uzero k j (by omega)]

/-! ### A library -/

/-- Cells that contain `w`. -/
def fillCells (n m : Nat) (S : Array ℚ) (w : Nat → Nat → Int) : Array ℚ :=
  mkArr S.size fun t => if t < n * m then (w (t / m) (t % m) : ℚ) else S.g t

theorem cells_fill {n m : Nat} {S : Array ℚ} (hS : n * m ≤ S.size) (w : Nat → Nat → Int) :
    Cells n m (fillCells n m S w) w ∧ (fillCells n m S w).size = S.size := by
  have hs : (fillCells n m S w).size = S.size := size_mkArr ..
  refine ⟨⟨by omega, fun i j hi hj => ?_⟩, hs⟩
  have := cell_lt hi hj
  obtain ⟨e1, e2⟩ := cell_div (k := i) hj
  unfold fillCells
  rw [g_mkArr _ _ _ (by omega), if_pos this, e1, e2]

theorem DenseRref.congr {q n m : Nat} {w0 w1 w' : Nat → Nat → Int} {r : Nat} {Q : Array Nat}
    (h : DenseRref q n m w0 r w' Q) (he : ∀ i j, i < n → j < m → w0 i j = w1 i j) :
    DenseRref q n m w1 r w' Q := by
  refine ⟨h.r_n, h.r_m, h.size, h.perm, h.bal, h.span.trans (spanOf_congr fun i hi => ?_)⟩
  ext c
  unfold denseRow
  split
  · rename_i hc; rw [he i c hi hc]
  · rfl

theorem IsPluq.congr {q n m : Nat} {w0 w1 w' : Nat → Nat → Int} {r : Nat} {P Q : Array Nat}
    (h : IsPluq q n m w0 r w' P Q) (he : ∀ i j, i < n → j < m → w0 i j = w1 i j) :
    IsPluq q n m w1 r w' P Q := by
  refine ⟨h.r_n, h.r_m, h.p_size, h.q_size, h.p_perm, h.q_perm, h.bal, h.diag, fun i j hi hj => ?_⟩
  rw [← he _ _ (h.p_perm.1 i hi) (h.q_perm.1 j hj)]
  exact h.prod i j hi hj

/-- There is a library that meets the assumption. -/
theorem Ffpack.exists_correct (q : ℕ) [Fact q.Prime] : ∃ ff : Ffpack, ff.Correct q := by
  have hcell : ∀ n m (S : Array ℚ) w, Cells n m S w → ∀ i j, i < n → j < m →
      (S.g (i * m + j)).num = w i j := by
    intro n m S w h i j hi hj
    rw [h.2 i j hi hj, Rat.num_intCast]
  choose r1 w1 Q1 h1 using fun n m w => exists_dense_rref (q := q) n m w
  choose r2 w2 P2 Q2 h2 using fun n m w => exists_pluq (q := q) n m w
  refine ⟨⟨fun _ n m S =>
      let w := fun i j => (S.g (i * m + j)).num
      (r1 n m w, fillCells n m S (w1 n m w), Q1 n m w),
    fun _ n m S =>
      let w := fun i j => (S.g (i * m + j)).num
      (r2 n m w, fillCells n m S (w2 n m w), P2 n m w, Q2 n m w)⟩, ?_, ?_⟩
  · intro n m S w hC _
    exact ⟨_, (cells_fill hC.1 _).1, (h1 n m _).1.congr (hcell n m S w hC), (cells_fill hC.1 _).2⟩
  · intro n m S w hC _
    exact ⟨_, (cells_fill hC.1 _).1, (h2 n m _).congr (hcell n m S w hC), (cells_fill hC.1 _).2⟩

end Spasm
