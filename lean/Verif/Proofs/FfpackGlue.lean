import Verif.Spec.FfpackLib
import Verif.Proofs.WpE
import Verif.Proofs.FfpackExists

/-
Permutations in the format of LAPACK, and the calls to FFLAS-FFPACK.
-/

namespace Spasm

open Finset

/-- What item `i` becomes when items `k` and `j` are exchanged. -/
def exch (k j i : Nat) : Nat := if i = k then j else if i = j then k else i

theorem exch_exch (k j i : Nat) : exch k j (exch k j i) = i := by
  unfold exch
  split_ifs <;> omega

theorem exch_lt {k j i n : Nat} (hk : k < n) (hj : j < n) (hi : i < n) : exch k j i < n := by
  unfold exch
  split_ifs <;> omega

theorem exch_self (k i : Nat) : exch k k i = i := by
  unfold exch
  split_ifs <;> omega

theorem exchanged_succ {α : Type} (P : Nat → Nat) (k : Nat) (f : Nat → α) (i : Nat) :
    exchanged P (k + 1) f i = exchanged P k f (exch k (P k) i) := rfl

theorem exchanged_comp {α : Type} (P : Nat → Nat) (k : Nat) (f : Nat → α) (i : Nat) :
    exchanged P k f i = f (exchanged P k id i) := by
  induction k generalizing i with
  | zero => rfl
  | succ k ih => rw [exchanged_succ, exchanged_succ, ih]

theorem exchanged_lt {P : Nat → Nat} {n : Nat} (hP : ∀ i, i < n → P i < n) (k : Nat) (hk : k ≤ n) {i : Nat} (hi : i < n) :
    exchanged P k id i < n := by
  induction k generalizing i with
  | zero => exact hi
  | succ k ih =>
    rw [exchanged_succ]
    exact ih (by omega) (exch_lt (by omega) (hP k (by omega)) hi)

theorem exchanged_inj (P : Nat → Nat) (k : Nat) {i j : Nat} (h : exchanged P k id i = exchanged P k id j) : i = j := by
  induction k generalizing i j with
  | zero => exact h
  | succ k ih =>
    rw [exchanged_succ, exchanged_succ] at h
    rw [← exch_exch k (P k) i, ih h, exch_exch]

theorem exchanged_perm {P : Nat → Nat} {n : Nat} (hP : ∀ i, i < n → P i < n) : IsPerm (exchanged P n id) n :=
  ⟨fun _ hi => exchanged_lt hP n le_rfl hi, fun _ _ _ _ h => exchanged_inj P n h⟩

theorem swap_cells_ok {M : Array Nat} {i j : Nat} (hi : i < M.size) (hj : j < M.size) :
    Ok (swap_cells M i j) fun M' => M'.size = M.size ∧ ∀ k, M'.g k = M.g (exch i j k) := by
  unfold swap_cells
  simp only [Ok_bind, Ok_rd, Ok_wr, size_upd]
  refine ⟨hi, hj, hi, hj, trivial, fun k => ?_⟩
  unfold exch
  by_cases h1 : k = j
  · subst h1
    rw [g_upd_eq _ _ _ (by rw [size_upd]; exact hj)]
    by_cases h2 : k = i
    · rw [if_pos h2, h2]
    · rw [if_neg h2, if_pos rfl]
  · rw [g_upd_ne _ _ _ _ h1]
    by_cases h2 : k = i
    · rw [if_pos h2, h2, g_upd_eq _ _ _ hi]
    · rw [if_neg h2, if_neg h1, g_upd_ne _ _ _ _ h2]

theorem lapack_to_math_ok {M P : Array Nat} {N : Nat} (hM : N ≤ M.size) (hP : IsLapack P N) :
    Ok (lapack_to_math M P N) fun M' => M'.size = M.size ∧ (∀ i, i < N → M'.g i = exchanged P.g N id i) ∧
      ∀ i, N ≤ i → M'.g i = M.g i := by
  unfold lapack_to_math
  rw [Ok_bind]
  refine Ok_forRange_imp (I := fun k M' => M'.size = M.size ∧ (∀ i, i < k → M'.g i = i) ∧
    ∀ i, k ≤ i → M'.g i = M.g i) (Nat.zero_le _) ⟨rfl, by omega, fun _ _ => rfl⟩ ?_ ?_
  · rintro k M' - hk ⟨h1, h2, h3⟩
    rw [Ok_wr]
    refine ⟨by omega, by rw [size_upd, h1], fun i hi => ?_, fun i hi => ?_⟩
    · by_cases h : i = k
      · subst h
        exact g_upd_eq _ _ _ (by omega)
      · rw [g_upd_ne _ _ _ _ h]
        exact h2 i (by omega)
    · rw [g_upd_ne _ _ _ _ (by omega)]
      exact h3 i (by omega)
  · rintro M1 ⟨h1, h2, h3⟩
    refine Ok_forRange_imp (I := fun k M' => M'.size = M.size ∧ (∀ i, i < N → M'.g i = exchanged P.g k id i) ∧
      ∀ i, N ≤ i → M'.g i = M.g i) (Nat.zero_le _) ⟨h1, h2, h3⟩ ?_ fun _ h => h
    rintro k M' - hk ⟨g1, g2, g3⟩
    obtain ⟨hl, hu⟩ := hP.2 k hk
    rw [Ok_bind, Ok_rd]
    refine ⟨by rw [hP.1]; exact hk, (swap_cells_ok (by omega) (by omega)).mono ?_⟩
    rintro M2 ⟨f1, f2⟩
    refine ⟨by omega, fun i hi => ?_, fun i hi => ?_⟩
    · rw [f2, g2 _ (exch_lt hk hu hi)]
      rfl
    · rw [f2]
      unfold exch
      rw [if_neg (by omega), if_neg (by omega)]
      exact g3 i hi

theorem ff_zeros_ok (jk : Junk) (k : Nat) : Ok (ff_zeros jk k) fun P => P.size = k := by
  unfold ff_zeros
  refine Ok_forRange_imp (I := fun _ P => P.size = k) (Nat.zero_le _) (size_mkArr ..) ?_ fun _ h => h
  rintro i P - hi h
  rw [Ok_wr]
  exact ⟨by omega, by rw [size_upd, h]⟩

/-- The values of a row with exchanged columns, put back on the columns given by the permutation. -/
theorem onCols_exchanged {q : ℕ} {Q : Array Nat} {m : Nat} (hp : IsPerm Q.g m) {v : Nat → ZMod q}
    (hv : ∀ c, m ≤ c → v c = 0) : (onCols Q m fun j => v (Q.g j)) = v := by
  ext c
  unfold onCols
  by_cases hc : c < m
  · have hs : ∃ t, t < m ∧ Q.g t = c := by
      have hsurj : Set.SurjOn Q.g ↑(range m) ↑(range m) :=
        Finset.surjOn_of_injOn_of_card_le _ (fun i hi => by
          simp only [coe_range, Set.mem_Iio] at hi ⊢
          exact hp.1 i hi) (fun i hi j hj h => by
          simp only [coe_range, Set.mem_Iio] at hi hj
          exact hp.2 i j hi hj h) le_rfl
      obtain ⟨t, ht, e⟩ := hsurj (show c ∈ (↑(range m) : Set ℕ) by simpa using hc)
      exact ⟨t, by simpa using ht, e⟩
    obtain ⟨t, ht, e⟩ := hs
    rw [Finset.sum_eq_single t]
    · rw [if_pos e]
      exact congrArg v e
    · intro b hb hne
      rw [if_neg fun h => hne (hp.2 b t (mem_range.mp hb) ht (h.trans e.symm))]
    · intro h
      exact absurd (mem_range.mpr ht) h
  · rw [hv c (by omega), Finset.sum_eq_zero]
    intro b hb
    rw [if_neg]
    have := hp.1 b (mem_range.mp hb)
    omega

theorem LibRref.math {q n m : Nat} {w w' : Nat → Nat → Int} {r : Nat} {Qt Q : Array Nat}
    (h : LibRref q n m w r w' Qt) (hs : Q.size = m) (hQ : ∀ i, i < m → Q.g i = exchanged Qt.g m id i) :
    DenseRref q n m w r w' Q := by
  obtain ⟨R, h1, h2, h3⟩ := h.form
  have hp0 := exchanged_perm (fun i hi => (h.lapack.2 i hi).2)
  have hp : IsPerm Q.g m := ⟨fun i hi => by rw [hQ i hi]; exact hp0.1 i hi, fun i k hi hk e => by
    rw [hQ i hi, hQ k hk] at e
    exact hp0.2 i k hi hk e⟩
  refine ⟨h.r_n, h.r_m, hs, hp, h.bal, ?_⟩
  rw [← h3]
  refine spanOf_congr fun i hi => ?_
  conv_rhs => rw [← onCols_exchanged hp (fun c hc => h1 i c hi hc)]
  unfold denseRrefRow
  ext c
  unfold onCols
  refine Finset.sum_congr rfl fun t ht => ?_
  have ht := mem_range.mp ht
  have := h2 i t hi ht
  rw [exchanged_comp, ← hQ t ht] at this
  simp only [this]

theorem LibPluq.math {q n m : Nat} {w w' : Nat → Nat → Int} {r : Nat} {P0 Q0 P Q : Array Nat}
    (h : LibPluq q n m w r w' P0 Q0) (hps : P.size = n) (hqs : Q.size = m)
    (hP : ∀ i, i < n → P.g i = exchanged P0.g n id i) (hQ : ∀ i, i < m → Q.g i = exchanged Q0.g m id i) :
    IsPluq q n m w r w' P Q := by
  have hp0 := exchanged_perm (fun i hi => (h.p_lapack.2 i hi).2)
  have hq0 := exchanged_perm (fun i hi => (h.q_lapack.2 i hi).2)
  refine ⟨h.r_n, h.r_m, hps, hqs, ⟨fun i hi => by rw [hP i hi]; exact hp0.1 i hi, fun i k hi hk e => by
    rw [hP i hi, hP k hk] at e
    exact hp0.2 i k hi hk e⟩, ⟨fun i hi => by rw [hQ i hi]; exact hq0.1 i hi, fun i k hi hk e => by
    rw [hQ i hi, hQ k hk] at e
    exact hq0.2 i k hi hk e⟩, h.bal, h.diag, fun i j hi hj => ?_⟩
  rw [← h.prod i j hi hj, hP i hi, hQ j hj, exchanged_comp Q0.g m (exchanged P0.g n w i), exchanged_comp P0.g n w]

/-! ### Every permutation has a format of LAPACK -/

theorem exchanged_fix {P : Nat → Nat} (t : Nat) (h : ∀ i, i < t → P i = i) (i : Nat) : exchanged P t id i = i := by
  induction t with
  | zero => rfl
  | succ t ih => rw [exchanged_succ, h t (by omega), exch_self, ih fun i hi => h i (by omega)]

theorem exchanged_cons {P P' : Nat → Nat} {t : Nat} (h : ∀ i, i ≤ t → P i = i) (h' : ∀ i, i ≠ t → P' i = P i) (d : Nat)
    (i : Nat) : exchanged P' (t + 1 + d) id i = exch t (P' t) (exchanged P (t + 1 + d) id i) := by
  induction d generalizing i with
  | zero =>
    rw [Nat.add_zero, exchanged_succ, exchanged_fix t (fun i hi => (h' i (by omega)).trans (h i (by omega))),
      exchanged_fix (t + 1) (fun i hi => h i (by omega))]
  | succ d ih => rw [← Nat.add_assoc, exchanged_succ, exchanged_succ, ih, h' (t + 1 + d) (by omega)]

theorem exists_lapack_from (n k : Nat) (σ : Nat → Nat) (hk : k ≤ n) (hp : IsPerm σ n)
    (hfix : ∀ i, i < n - k → σ i = i) :
    ∃ P : Nat → Nat, (∀ i, i < n → i ≤ P i ∧ P i < n) ∧ (∀ i, i < n - k → P i = i) ∧
      ∀ i, i < n → exchanged P n id i = σ i := by
  induction k generalizing σ with
  | zero =>
    exact ⟨id, fun i hi => ⟨le_rfl, hi⟩, fun _ _ => rfl, fun i hin => by
      rw [exchanged_fix (P := id) n (fun _ _ => rfl), hfix i (by omega)]⟩
  | succ k ih =>
    obtain ⟨t, ht⟩ : ∃ t, t = n - (k + 1) := ⟨_, rfl⟩
    have htn : t < n := by omega
    have hge : t ≤ σ t := by
      by_contra h
      have h1 : σ (σ t) = σ t := hfix _ (by omega)
      have := hp.2 _ _ (by omega) htn h1
      omega
    obtain ⟨P, h1, h2, h3⟩ := ih (fun i => exch t (σ t) (σ i)) (by omega)
      ⟨fun i hin => exch_lt htn (hp.1 t htn) (hp.1 i hin), fun i j hin hjn e =>
        hp.2 i j hin hjn (by
          simp only at e
          rw [← exch_exch t (σ t) (σ i), e, exch_exch])⟩
      (fun i hit => by
        by_cases h : i = t
        · subst h
          unfold exch
          by_cases h : σ i = i
          · rw [if_pos h, h]
          · rw [if_neg h, if_pos rfl]
        · have e : σ i = i := hfix i (by omega)
          unfold exch
          rw [if_neg (by omega), if_neg, e]
          intro e2
          exact h (hp.2 i t (by omega) htn e2))
    refine ⟨fun i => if i = t then σ t else P i, fun i hin => ?_, fun i hi => ?_, fun i hin => ?_⟩
    · simp only
      split_ifs with h
      · rw [h]; exact ⟨hge, hp.1 t htn⟩
      · exact h1 i hin
    · simp only
      rw [if_neg (by omega)]
      exact h2 i (by omega)
    · obtain ⟨d, hd⟩ : ∃ d, n = t + 1 + d := ⟨n - (t + 1), by omega⟩
      have h4 := exchanged_cons (P := P) (P' := fun i => if i = t then σ t else P i) (t := t)
        (fun i hi => h2 i (by omega)) (fun i hi => if_neg hi) d i
      rw [← hd, h3 i hin] at h4
      rw [h4, if_pos rfl, exch_exch]

theorem exists_lapack {Q : Array Nat} {n : Nat} (hp : IsPerm Q.g n) :
    ∃ P : Array Nat, IsLapack P n ∧ ∀ i, i < n → exchanged P.g n id i = Q.g i := by
  obtain ⟨P, h1, -, h3⟩ := exists_lapack_from n n Q.g le_rfl hp (by omega)
  refine ⟨mkArr n P, ⟨size_mkArr .., fun i hi => by rw [g_mkArr _ _ _ hi]; exact h1 i hi⟩, fun i hi => ?_⟩
  rw [← h3 i hi]
  have : ∀ k, k ≤ n → ∀ i, exchanged (mkArr n P).g k id i = exchanged P k id i := by
    intro k
    induction k with
    | zero => intro _ _; rfl
    | succ k ih => intro hk i; rw [exchanged_succ, exchanged_succ, ih (by omega), g_mkArr _ _ _ (by omega)]
  exact this n le_rfl i

/-! ### A library that does what is documented -/

theorem DenseRref.lapack {q n m : Nat} {w w' : Nat → Nat → Int} {r : Nat} {Q : Array Nat}
    (h : DenseRref q n m w r w' Q) : ∃ Qt, LibRref q n m w r w' Qt := by
  obtain ⟨Qt, h1, h2⟩ := exists_lapack h.perm
  refine ⟨Qt, h.r_n, h.r_m, h1, h.bal, denseRrefRow q m r Q w', fun i c hi hc => ?_, fun i j hi hj => ?_, h.span⟩
  · unfold denseRrefRow onCols
    refine Finset.sum_eq_zero fun t ht => ?_
    have := h.perm.1 t (mem_range.mp ht)
    rw [if_neg (by omega)]
  · rw [exchanged_comp, h2 j hj]
    unfold denseRrefRow onCols
    rw [Finset.sum_eq_single j]
    · rw [if_pos rfl]
    · intro b hb hne
      rw [if_neg fun e => hne (h.perm.2 b j (mem_range.mp hb) hj e)]
    · intro h
      exact absurd (mem_range.mpr hj) h

theorem IsPluq.lapack {q n m : Nat} {w w' : Nat → Nat → Int} {r : Nat} {P Q : Array Nat}
    (h : IsPluq q n m w r w' P Q) : ∃ P0 Q0, LibPluq q n m w r w' P0 Q0 := by
  obtain ⟨P0, h1, h2⟩ := exists_lapack h.p_perm
  obtain ⟨Q0, h3, h4⟩ := exists_lapack h.q_perm
  refine ⟨P0, Q0, h.r_n, h.r_m, h1, h3, h.bal, h.diag, fun i j hi hj => ?_⟩
  rw [exchanged_comp Q0.g m (exchanged P0.g n w i), exchanged_comp P0.g n w, h2 i hi, h4 j hj]
  exact h.prod i j hi hj

/-- Cells that contain `w`. -/
def fillLd (n m ld : Nat) (S : Array ℚ) (w : Nat → Nat → Int) : Array ℚ :=
  mkArr S.size fun t => if t / ld < n ∧ t % ld < m then (w (t / ld) (t % ld) : ℚ) else S.g t

theorem cells_fillLd {n m ld : Nat} {S : Array ℚ} {w0 : Nat → Nat → Int} (hl : m ≤ ld) (hS : CellsLd n m ld S w0)
    (w : Nat → Nat → Int) : CellsLd n m ld (fillLd n m ld S w) w ∧ (fillLd n m ld S w).size = S.size := by
  have hs : (fillLd n m ld S w).size = S.size := size_mkArr ..
  refine ⟨fun i j hi hj => ?_, hs⟩
  have := (hS i j hi hj).1
  obtain ⟨e1, e2⟩ := cell_div (k := i) (show j < ld by omega)
  refine ⟨by omega, ?_⟩
  unfold fillLd
  rw [g_mkArr _ _ _ (by omega), e1, e2, if_pos ⟨hi, hj⟩]

theorem LibRref.congr {q n m : Nat} {w0 w1 w' : Nat → Nat → Int} {r : Nat} {Q : Array Nat}
    (h : LibRref q n m w0 r w' Q) (he : ∀ i j, i < n → j < m → w0 i j = w1 i j) : LibRref q n m w1 r w' Q := by
  obtain ⟨R, h1, h2, h3⟩ := h.form
  refine ⟨h.r_n, h.r_m, h.lapack, h.bal, R, h1, h2, h3.trans (spanOf_congr fun i hi => ?_)⟩
  ext c
  unfold denseRow
  split
  · rename_i hc; rw [he i c hi hc]
  · rfl

theorem LibPluq.congr {q n m : Nat} {w0 w1 w' : Nat → Nat → Int} {r : Nat} {P Q : Array Nat}
    (h : LibPluq q n m w0 r w' P Q) (he : ∀ i j, i < n → j < m → w0 i j = w1 i j) : LibPluq q n m w1 r w' P Q := by
  refine ⟨h.r_n, h.r_m, h.p_lapack, h.q_lapack, h.bal, h.diag, fun i j hi hj => ?_⟩
  have h1 := exchanged_lt (fun i hi => (h.p_lapack.2 i hi).2) n le_rfl hi
  have h2 := exchanged_lt (fun i hi => (h.q_lapack.2 i hi).2) m le_rfl hj
  rw [← h.prod i j hi hj, exchanged_comp Q.g m (exchanged P.g n w1 i), exchanged_comp P.g n w1,
    exchanged_comp Q.g m (exchanged P.g n w0 i), exchanged_comp P.g n w0, he _ _ h1 h2]

theorem FfLib.exists_documented (q : ℕ) [Fact q.Prime] : ∃ lib : FfLib, lib.Documented q := by
  have hcell : ∀ n m ld (S : Array ℚ) w, CellsLd n m ld S w → ∀ i j, i < n → j < m → (S.g (i * ld + j)).num = w i j := by
    intro n m ld S w h i j hi hj
    rw [(h i j hi hj).2, Rat.num_intCast]
  have h1 : ∀ n m w, ∃ r w' Qt, LibRref q n m w r w' Qt := fun n m w => by
    obtain ⟨r, w', Q, h, -⟩ := exists_dense_rref (q := q) n m w
    obtain ⟨Qt, h⟩ := h.lapack
    exact ⟨r, w', Qt, h⟩
  have h2 : ∀ n m w, ∃ r w' P Q, LibPluq q n m w r w' P Q := fun n m w => by
    obtain ⟨r, w', P, Q, h⟩ := exists_pluq (q := q) n m w
    obtain ⟨P0, Q0, h⟩ := h.lapack
    exact ⟨r, w', P0, Q0, h⟩
  choose r1 w1 Q1 h1 using h1
  choose r2 w2 P2 Q2 h2 using h2
  refine ⟨⟨fun _ _ n m S ld P _ =>
      let w := fun i j => (S.g (i * ld + j)).num
      (r1 n m w, fillLd n m ld S (w1 n m w), P, Q1 n m w),
    fun _ _ n m S ld _ _ =>
      let w := fun i j => (S.g (i * ld + j)).num
      (r2 n m w, fillLd n m ld S (w2 n m w), P2 n m w, Q2 n m w)⟩, ?_, ?_⟩
  · intro dt n m S ld w P Q _ hl _ _ hC _
    exact ⟨_, (cells_fillLd hl hC _).1, (h1 n m _).congr (hcell n m ld S w hC), (cells_fillLd hl hC _).2⟩
  · intro dt n m S ld w P Q _ hl _ _ hC _
    exact ⟨_, (cells_fillLd hl hC _).1, (h2 n m _).congr (hcell n m ld S w hC), (cells_fillLd hl hC _).2⟩

end Spasm
