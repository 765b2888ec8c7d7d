import Verif.Spec.Permutation
import Verif.Proofs.CsrRows

namespace Spasm

open Finset

theorem IsPerm.image {f : Nat → Nat} {n : Nat} (h : IsPerm f n) : (range n).image f = range n := by
  apply Finset.eq_of_subset_of_card_le
  · intro x hx
    obtain ⟨i, hi, rfl⟩ := Finset.mem_image.mp hx
    exact mem_range.mpr (h.1 i (mem_range.mp hi))
  · rw [Finset.card_image_of_injOn]
    intro a ha b hb hab
    exact h.2 a b (by simpa using ha) (by simpa using hb) hab

theorem IsPerm.surj {f : Nat → Nat} {n : Nat} (h : IsPerm f n) {k : Nat} (hk : k < n) :
    ∃ i, i < n ∧ f i = k := by
  have : k ∈ (range n).image f := by rw [h.image]; exact mem_range.mpr hk
  obtain ⟨i, hi, he⟩ := Finset.mem_image.mp this
  exact ⟨i, mem_range.mp hi, he⟩

theorem IsPerm.sum_comp {M : Type} [AddCommMonoid M] {f : Nat → Nat} {n : Nat} (h : IsPerm f n)
    (g : Nat → M) : ∑ i ∈ range n, g (f i) = ∑ i ∈ range n, g i := by
  conv_rhs => rw [← h.image]
  rw [Finset.sum_image]
  intro a ha b hb hab
  exact h.2 a b (by simpa using ha) (by simpa using hb) hab

theorem isPerm_id (n : Nat) : IsPerm (fun i => i) n := ⟨fun _ h => h, fun _ _ _ _ h => h⟩

theorem offs_eq_sum {α : Type} (R : Nat → List α) (n : Nat) :
    offs R n = ∑ i ∈ range n, (R i).length := by
  induction n with
  | zero => rfl
  | succ n ih => rw [Finset.sum_range_succ, ← ih]; rfl

theorem permAt_ok {p : Option (Array Nat)} {n i : Nat} (hp : PermSize p n) (hi : i < n)
    {Q : Nat → Prop} (hQ : Q (permFun p i)) : Ok (permAt p i) Q := by
  cases p with
  | none => exact hQ
  | some a =>
    have := hp a rfl
    unfold permAt
    rw [Ok_rd]
    exact ⟨by omega, hQ⟩

theorem pvec_spec {p : Option (Array Nat)} {b x : Array Int} {n N : Nat} (hp : PermSize p n)
    (hlt : ∀ i, i < n → permFun p i < N) (hb : N ≤ b.size) (hx : n ≤ x.size) :
    Ok (pvec p b x n) (fun y => y.size = x.size ∧ (∀ i, i < n → y.g i = b.g (permFun p i)) ∧
      ∀ i, n ≤ i → y.g i = x.g i) := by
  unfold pvec
  refine Ok_forRange_imp (I := fun i y => y.size = x.size ∧
    (∀ k, k < i → y.g k = b.g (permFun p k)) ∧ ∀ k, i ≤ k → y.g k = x.g k) (Nat.zero_le _)
    ⟨rfl, fun k hk => by omega, fun k _ => rfl⟩ ?_ (fun y h => h)
  rintro i y - hi ⟨h1, h2, h3⟩
  rw [Ok_bind]
  apply permAt_ok hp hi
  simp only [Ok_bind, Ok_rd, Ok_wr]
  have := hlt i hi
  have hiy : i < y.size := by omega
  refine ⟨by omega, hiy, by simpa using h1, ?_, ?_⟩
  · intro k hk
    by_cases he : k = i
    · subst he; rw [g_upd_eq _ _ _ hiy]
    · rw [g_upd_ne _ _ _ _ he]; exact h2 k (by omega)
  · intro k hk
    rw [g_upd_ne _ _ _ _ (by omega)]; exact h3 k (by omega)

theorem ipvec_spec {p : Option (Array Nat)} {b x : Array Int} {n N : Nat} (hp : PermSize p n)
    (hlt : ∀ i, i < n → permFun p i < N)
    (hinj : ∀ i k, i < n → k < n → permFun p i = permFun p k → i = k)
    (hb : n ≤ b.size) (hx : N ≤ x.size) :
    Ok (ipvec p b x n) (fun y => y.size = x.size ∧ (∀ i, i < n → y.g (permFun p i) = b.g i) ∧
      ∀ k, (∀ i, i < n → permFun p i ≠ k) → y.g k = x.g k) := by
  unfold ipvec
  refine Ok_forRange_imp (I := fun i y => y.size = x.size ∧
    (∀ k, k < i → y.g (permFun p k) = b.g k) ∧
    ∀ k, (∀ l, l < i → permFun p l ≠ k) → y.g k = x.g k) (Nat.zero_le _)
    ⟨rfl, fun k hk => by omega, fun k _ => rfl⟩ ?_ (fun y h => h)
  rintro i y - hi ⟨h1, h2, h3⟩
  rw [Ok_bind]
  apply permAt_ok hp hi
  simp only [Ok_bind, Ok_rd, Ok_wr]
  have := hlt i hi
  have hiy : permFun p i < y.size := by omega
  refine ⟨by omega, hiy, by simpa using h1, ?_, ?_⟩
  · intro k hk
    by_cases he : k = i
    · subst he; rw [g_upd_eq _ _ _ hiy]
    · rw [g_upd_ne _ _ _ _ (fun e => he (hinj k i (by omega) hi e))]; exact h2 k (by omega)
  · intro k hk
    rw [g_upd_ne _ _ _ _ (fun e => hk i (by omega) e.symm)]
    exact h3 k (fun l hl => hk l (by omega))

theorem pinv_spec {jk : Junk} {p : Option (Array Nat)} {n : Nat} (hp : PermSize p n)
    (hperm : IsPerm (permFun p) n) :
    Ok (pinv jk p n) (fun r => PermSize r n ∧ IsPerm (permFun r) n ∧
      (∀ i, i < n → permFun r (permFun p i) = i) ∧ (∀ i, i < n → permFun p (permFun r i) = i)) := by
  cases p with
  | none =>
    unfold pinv
    exact ⟨fun a h => by simp at h, isPerm_id n, fun i _ => rfl, fun i _ => rfl⟩
  | some a =>
    unfold pinv
    simp only [Ok_bind, Ok_ok]
    have hsz := hp a rfl
    refine Ok_forRange_imp (I := fun k r => r.size = n ∧ ∀ l, l < k → r.g (a.g l) = l)
      (Nat.zero_le _) ⟨by simp, fun l hl => by omega⟩ ?_ ?_
    · rintro k r - hk ⟨h1, h2⟩
      simp only [Ok_bind, Ok_rd, Ok_wr]
      have hlt : a.g k < n := hperm.1 k hk
      refine ⟨by omega, by omega, by simpa using h1, ?_⟩
      intro l hl
      by_cases he : l = k
      · subst he; rw [g_upd_eq _ _ _ (by omega)]
      · have hne : a.g l ≠ a.g k := fun e => he (hperm.2 l k (by omega) hk e)
        rw [g_upd_ne _ _ _ _ hne]
        exact h2 l (by omega)
    · rintro r ⟨h1, h2⟩
      have hpr : ∀ i, i < n → a.g (r.g i) = i ∧ r.g i < n := by
        intro i hi
        obtain ⟨l, hl, he⟩ := hperm.surj hi
        have he' : a.g l = i := he
        rw [← he', h2 l hl]
        exact ⟨rfl, hl⟩
      refine ⟨?_, ⟨fun i hi => (hpr i hi).2, ?_⟩, h2, fun i hi => (hpr i hi).1⟩
      · rintro b hb; cases hb; omega
      · intro i k hi hk hik
        have h3 := (hpr i hi).1
        have h4 := (hpr k hk).1
        have hik' : r.g i = r.g k := hik
        rw [hik'] at h3
        omega

theorem range_pvec_spec {x p : Array Nat} {a b : Nat} (hab : a ≤ b) (hx : b ≤ x.size)
    (hp : b - a ≤ p.size) (hlt : ∀ i, i < b - a → p.g i < b - a) :
    Ok (range_pvec x a b p) (fun r => r.1.size = x.size ∧
      (∀ i, i < b - a → r.1.g (a + i) = x.g (a + p.g i)) ∧
      (∀ k, k < a ∨ b ≤ k → r.1.g k = x.g k)) := by
  unfold range_pvec
  rw [Ok_bind]
  refine Ok_forRange_imp (I := fun i r => r.size = p.size ∧
    (∀ k, k < i → r.g k = x.g (a + p.g k)) ∧ ∀ k, i ≤ k → r.g k = p.g k) (Nat.zero_le _)
    ⟨rfl, fun k hk => by omega, fun k _ => rfl⟩ ?_ ?_
  · rintro i r - hi ⟨h1, h2, h3⟩
    simp only [Ok_bind, Ok_rd, Ok_wr]
    rw [h3 i (le_refl _)]
    have := hlt i hi
    have hir : i < r.size := by omega
    refine ⟨hir, by omega, hir, by simpa using h1, ?_, ?_⟩
    · intro k hk
      by_cases he : k = i
      · subst he; rw [g_upd_eq _ _ _ hir]
      · rw [g_upd_ne _ _ _ _ he]; exact h2 k (by omega)
    · intro k hk; rw [g_upd_ne _ _ _ _ (by omega)]; exact h3 k (by omega)
  · rintro r ⟨h1, h2, h3⟩
    rw [Ok_bind]
    refine Ok_forRange_imp (I := fun i y => y.size = x.size ∧
      (∀ k, k < i → y.g (a + k) = x.g (a + p.g k)) ∧ ∀ k, k < a ∨ a + i ≤ k → y.g k = x.g k)
      (Nat.zero_le _) ⟨rfl, fun k hk => by omega, fun k _ => rfl⟩ ?_ ?_
    · rintro i y - hi ⟨e1, e2, e3⟩
      simp only [Ok_bind, Ok_rd, Ok_wr]
      have hiy : a + i < y.size := by omega
      refine ⟨by omega, hiy, by simpa using e1, ?_, ?_⟩
      · intro k hk
        by_cases he : k = i
        · subst he; rw [g_upd_eq _ _ _ hiy]; exact h2 k hi
        · rw [g_upd_ne _ _ _ _ (by omega)]; exact e2 k (by omega)
      · intro k hk; rw [g_upd_ne _ _ _ _ (by omega)]; exact e3 k (by omega)
    · rintro y ⟨e1, e2, e3⟩
      exact ⟨e1, e2, fun k hk => e3 k (by omega)⟩

theorem random_permutation_spec (jk : Junk) (rand : Nat → Nat) (n : Nat) :
    Ok (random_permutation jk rand n) (fun p => p.size = n ∧ IsPerm (fun i => p.g i) n) := by
  unfold random_permutation
  rw [Ok_bind]
  refine Ok_forRange_imp (I := fun i p => p.size = n ∧ ∀ k, k < i → p.g k = k) (Nat.zero_le _)
    ⟨by simp, fun k hk => by omega⟩ ?_ ?_
  · rintro i p - hi ⟨h1, h2⟩
    rw [Ok_wr]
    refine ⟨by omega, by simpa using h1, ?_⟩
    intro k hk
    by_cases he : k = i
    · subst he; rw [g_upd_eq _ _ _ (by omega)]
    · rw [g_upd_ne _ _ _ _ he]; exact h2 k (by omega)
  · rintro p ⟨h1, h2⟩
    refine Ok_forRange_imp (I := fun _ p => p.size = n ∧ IsPerm (fun i => p.g i) n) (Nat.zero_le _)
      ⟨h1, fun i hi => by simp only [h2 i hi]; exact hi, fun i k hi hk h => by
        simpa only [h2 i hi, h2 k hk] using h⟩ ?_ (fun y h => h)
    rintro k p - hk ⟨e1, e2, e3⟩
    simp only [Ok_bind, Ok_rd, Ok_wr, size_upd]
    have hi : n - 1 - k < n := by omega
    have hj : rand (n - 1 - k) % (n - 1 - k) < n := by
      have := Nat.mod_lt (rand (n - 1 - k)) (show n - 1 - k > 0 by omega)
      omega
    generalize n - 1 - k = i at *
    generalize rand i % i = j at *
    refine ⟨by omega, by omega, by omega, by omega, e1, ?_⟩
    have hsw : ∀ l, ((p.upd i (p.g j)).upd j (p.g i)).g l
        = p.g (if l = j then i else if l = i then j else l) := by
      intro l
      by_cases hl : l = j
      · subst hl; rw [g_upd_eq _ _ _ (by simp; omega), if_pos rfl]
      · rw [g_upd_ne _ _ _ _ hl, if_neg hl]
        by_cases hl' : l = i
        · subst hl'; rw [g_upd_eq _ _ _ (by omega), if_pos rfl]
        · rw [g_upd_ne _ _ _ _ hl', if_neg hl']
    constructor
    · intro l hl
      simp only [hsw]
      apply e2
      split
      · exact hi
      · split
        · exact hj
        · exact hl
    · intro l l' hl hl' h
      simp only [hsw] at h
      have := e3 _ _ (by split; exact hi; split; exact hj; exact hl)
        (by split; exact hi; split; exact hj; exact hl') h
      split at this <;> split at this <;> (try split at this) <;> (try split at this) <;> omega

/-- `spasm_permute`: the rows of the result are the permuted rows. -/
theorem permute_spec {jk : Junk} {A : Csr} (hA : A.WF) {p qinv : Option (Array Nat)} (values : Bool)
    (hps : PermSize p A.n) (hp : IsPerm (permFun p) A.n)
    (hqs : PermSize qinv A.m) (hq : ∀ j, j < A.m → permFun qinv j < A.m) :
    Ok (permute jk A p qinv values) (fun B => B.WF ∧ B.n = A.n ∧ B.m = A.m ∧
      (∀ i, i < A.n → B.row i = (A.row (permFun p i)).map
        (fun e => (permFun qinv e.1, if values then e.2 else 1))) ∧
      B.x.isSome = (values && A.x.isSome) ∧ B.F.p = A.F.p ∧ (∀ q, A.F.Good q → B.F.Good q)) := by
  unfold permute
  rw [Ok_bind]
  refine (csr_alloc_spec jk A.n A.m A.nzmax (values && A.x.isSome) hA.field_ok).mono ?_
  rintro B0 ⟨hB, hgood⟩
  set f : Nat × Int → Nat × Int :=
    fun e => (permFun qinv e.1, if values && A.x.isSome then e.2 else 1) with hf
  set R : Nat → List (Nat × Int) := fun i => (A.row (permFun p i)).map f with hR
  have htot : offs R A.n = A.p.g A.n := by
    rw [hA.p_eq_offs (le_refl _), offs_eq_sum, offs_eq_sum,
      ← hp.sum_comp (fun i => (A.row i).length)]
    simp [hR]
  have hle : ∀ i, i < A.n → offs R i + (R i).length ≤ A.nzmax := by
    intro i hi
    have h1 : offs R (i + 1) ≤ offs R A.n := offs_mono R (by omega)
    have h2 := hA.p_nnz
    simp only [offs] at h1
    unfold Csr.nzmax
    omega
  rw [Ok_bind]
  refine Ok_forRange_imp (I := fun i (s : Csr × Nat) =>
      s.2 = offs R i ∧ s.1.seg 0 (offs R i) = flat R i ∧ (∀ k, k < i → s.1.p.g k = offs R k) ∧
      s.1.n = A.n ∧ s.1.m = A.m ∧ s.1.p.size = A.n + 1 ∧ s.1.j.size = A.nzmax ∧
      s.1.x.isSome = (values && A.x.isSome) ∧ (∀ k, k < A.nzmax → s.1.Room k) ∧
      s.1.F = B0.F) (Nat.zero_le _) ?_ ?_ ?_
  · refine ⟨rfl, ?_, fun k hk => by omega, hB.n_eq, hB.m_eq, hB.p_size, hB.j_size, hB.x_isSome,
      ?_, rfl⟩
    · simp [offs, flat, Csr.seg_self]
    · intro k hk a ha
      rw [hB.x_size a ha]; exact hk
  · rintro i ⟨B, nz⟩ - hi ⟨h1, h2, h3, h4, h5, h6, h7, h8, h9, h10⟩
    simp only at h1 h2 h3 h4 h5 h6 h7 h8 h9 h10
    subst h1
    simp only [Ok_bind, Ok_setP]
    refine ⟨by omega, ?_⟩
    apply permAt_ok hps hi
    have hpi := hp.1 i hi
    have hpsz := hA.p_size
    simp only [Ok_rd]
    refine ⟨by omega, by omega, ?_⟩
    have hrow := hA.row_le hpi
    refine Ok_forRange_imp (I := fun t (s : Csr × Nat) =>
      s.2 = offs R i + (t - A.p.g (permFun p i)) ∧
      s.1.seg 0 s.2 = flat R i ++ (A.seg (A.p.g (permFun p i)) t).map f ∧
      (∀ k, k < i + 1 → s.1.p.g k = offs R k) ∧
      s.1.n = A.n ∧ s.1.m = A.m ∧ s.1.p.size = A.n + 1 ∧ s.1.j.size = A.nzmax ∧
      s.1.x.isSome = (values && A.x.isSome) ∧ (∀ k, k < A.nzmax → s.1.Room k) ∧
      s.1.F = B0.F) hrow.1 ?_ ?_ ?_
    · refine ⟨by simp, ?_, ?_, h4, h5, by simpa using h6, h7, h8, h9, h10⟩
      · simp [Csr.seg_self, h2]
      · intro k hk
        rw [Csr.p_updP]
        by_cases he : k = i
        · subst he; rw [g_upd_eq _ _ _ (by omega)]
        · rw [g_upd_ne _ _ _ _ he]; exact h3 k (by omega)
    · rintro t ⟨C, z⟩ ht1 ht2 ⟨e1, e2, e3, e4, e5, e6, e7, e8, e9, e10⟩
      simp only at e1 e2 e3 e4 e5 e6 e7 e8 e9 e10
      have htn : t < A.p.g A.n := lt_of_lt_of_le ht2 hrow.2
      have hj := hA.j_lt t htn
      have hnz := hA.p_nnz
      simp only [Ok_bind, Ok_rd]
      refine ⟨by omega, ?_⟩
      apply permAt_ok hqs hj
      simp only [Ok_setJ]
      have hz : z < A.nzmax := by
        have := hle i hi
        have hlen : (R i).length = A.p.g (permFun p i + 1) - A.p.g (permFun p i) := by
          simp only [hR, List.length_map, Csr.length_row]
        omega
      refine ⟨by omega, ?_⟩
      apply Ok_copyX hA htn
      · intro hx; rw [Csr.x_updJ, e8] at hx; simp at hx; exact hx.2
      · simpa using e9 z hz
      · rw [Ok_ok]
        refine ⟨by simp only; omega, ?_, e3, e4, e5, e6, by simpa using e7, by simpa using e8, ?_, e10⟩
        · simp only
          rw [Csr.seg_upd_push _ (Nat.zero_le _) (by omega) (e9 z hz), e2, Csr.seg_succ _ ht1]
          simp only [List.map_append, List.append_assoc, List.map_cons, List.map_nil]
          rw [e8]; rfl
        · intro k hk; simpa using e9 k hk
    · rintro ⟨C, z⟩ ⟨e1, e2, e3, e4, e5, e6, e7, e8, e9, e10⟩
      simp only at e1 e2 e3 e4 e5 e6 e7 e8 e9 e10
      have hz : z = offs R (i + 1) := by
        rw [e1]; simp only [offs, hR, List.length_map, Csr.length_row]
      refine ⟨hz, ?_, e3, e4, e5, e6, e7, e8, e9, e10⟩
      rw [← hz, e2]; rfl
  · rintro ⟨B, nz⟩ ⟨h1, h2, h3, h4, h5, h6, h7, h8, h9, h10⟩
    simp only at h1 h2 h3 h4 h5 h6 h7 h8 h9 h10
    subst h1
    rw [Ok_setP]
    refine ⟨by omega, ?_⟩
    have hwf := Csr.of_flat (B := B.updP A.n (offs R A.n)) (R := R) (by simp; omega) (by
        intro i hi
        simp only [Csr.n_updP] at hi
        rw [Csr.p_updP]
        by_cases he : i = A.n
        · subst he; rw [g_upd_eq _ _ _ (by omega)]
        · rw [g_upd_ne _ _ _ _ he]; exact h3 i (by omega)) (by simpa [h4] using h2) (by
        simp only [Csr.n_updP, Csr.j_updP, h4, h7, htot]; exact hA.p_nnz) (by
        intro a ha
        simp only [Csr.n_updP, h4]
        by_contra hc
        have hh : 0 < offs R A.n := by omega
        have hl : offs R A.n - 1 < A.nzmax := by
          have := hA.p_nnz; unfold Csr.nzmax; omega
        have := h9 (offs R A.n - 1) hl a ha
        omega) (by
        intro i hi e he
        simp only [Csr.n_updP, h4, Csr.m_updP, h5, hR, List.mem_map] at hi he ⊢
        obtain ⟨e', he', rfl⟩ := he
        exact hq _ (hA.mem_row (hp.1 i hi) he')) (by
        simp only [Csr.F_updP, h10, hB.F_p]; exact hA.field_ok)
    refine ⟨hwf.1, h4, h5, ?_, h8, by simp [h10, hB.F_p], by simpa [h10] using hgood⟩
    intro i hi
    rw [hwf.2 i (by simpa [h4] using hi)]
    apply List.map_congr_left
    intro e he
    simp only [hf]
    by_cases hx : A.x.isSome = true
    · simp [hx]
    · have hn : A.x = none := by simpa using hx
      obtain ⟨k, -, -, rfl⟩ := Csr.mem_seg.mp he
      simp [hn, Csr.ent, Csr.val]

end Spasm
