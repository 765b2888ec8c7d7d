import Verif.Proofs.Rref

namespace Spasm

open Finset

/-- Numbering of the elements of a decidable set. -/
theorem exists_numbering (P : Nat → Prop) [DecidablePred P] (m : Nat) :
    ∃ col : Nat → Nat, (∀ t, t < m → P t → ((range t).filter P).card < ((range m).filter P).card ∧
      col ((range t).filter P).card = t) ∧
      ∀ k, k < ((range m).filter P).card → col k < m ∧ P (col k) ∧
        ((range (col k)).filter P).card = k := by
  induction m with
  | zero => exact ⟨id, fun t h => by omega, fun k h => by simp at h⟩
  | succ m ih =>
    obtain ⟨col, h1, h2⟩ := ih
    by_cases hm : P m
    · have hc : ((range (m + 1)).filter P).card = ((range m).filter P).card + 1 := by
        rw [Finset.range_add_one, Finset.filter_insert, if_pos hm, Finset.card_insert_of_notMem]
        simp
      rw [hc]
      refine ⟨Function.update col ((range m).filter P).card m, ?_, ?_⟩
      · intro t ht hP
        by_cases e : t = m
        · subst e; exact ⟨by omega, by simp⟩
        · have := h1 t (by omega) hP
          refine ⟨by omega, ?_⟩
          rw [Function.update_of_ne (by omega)]
          exact this.2
      · intro k hk
        by_cases e : k = ((range m).filter P).card
        · subst e
          rw [Function.update_self]
          exact ⟨by omega, hm, rfl⟩
        · rw [Function.update_of_ne e]
          have := h2 k (by omega)
          exact ⟨by omega, this.2⟩
    · have hc : ((range (m + 1)).filter P).card = ((range m).filter P).card := by
        rw [Finset.range_add_one, Finset.filter_insert, if_neg hm]
      rw [hc]
      refine ⟨col, ?_, ?_⟩
      · intro t ht hP
        by_cases e : t = m
        · exact absurd (e ▸ hP) hm
        · exact h1 t (by omega) hP
      · intro k hk
        have := h2 k hk
        exact ⟨by omega, this.2⟩

/-- The row of the kernel made for column `j`. -/
def kfrRow (R Rt : Csr) (j : Nat) : List (Nat × Int) :=
  (j, toI32 (R.F.p - 1)) :: (Rt.row j).map fun e => (R.pivot e.1, e.2)

/-- In a RREF, a pivotal column has one entry. -/
theorem rref_col_length {q : ℕ} {R : Csr} {qinv : Array Int} (h : Echelon q R qinv)
    (hnd : R.NoDup) (hred : ∀ i k, i < R.n → k < R.n → i ≠ k → ¬ R.InRow k (R.pivot i))
    {t : Nat} (ht : t < R.m) (hp : 0 ≤ qinv.g t) :
    ((List.range R.n).flatMap fun i => ((R.row i).filter (fun e => decide (e.1 = t))).map
      (fun e => (i, e.2))).length = 1 := by
  rw [← flat_eq_flatMap, length_flat, offs_eq_sum]
  have hlt := h.lt t ht
  have hloc := h.loc t ht hp
  have hcount : ∀ i, ((R.row i).filter (fun e => decide (e.1 = t))).length =
      ((R.row i).map Prod.fst).count t := by
    intro i
    rw [List.count, List.countP_map, List.countP_eq_length_filter]
    congr 1
  rw [Finset.sum_eq_single (qinv.g t).toNat]
  · rw [List.length_map, hcount]
    refine List.count_eq_one_of_mem (nodup_row_iff.mp hnd _ (by omega)) ?_
    have := h.inRow_pivot (i := (qinv.g t).toNat) (by omega)
    rw [hloc, Csr.inRow_iff] at this
    rw [List.mem_map]
    obtain ⟨e, h1, h2⟩ := this
    exact ⟨e, h1, h2⟩
  · intro i hi hne
    have hi := mem_range.mp hi
    rw [List.length_map, hcount, List.count_eq_zero]
    intro hm
    rw [List.mem_map] at hm
    obtain ⟨e, h1, h2⟩ := hm
    refine hred (qinv.g t).toNat i (by omega) hi (Ne.symm hne) ?_
    rw [hloc, Csr.inRow_iff]
    exact ⟨e, h1, h2⟩
  · intro hc
    exact absurd (mem_range.mpr (by omega)) hc

theorem kernel_from_rref_spec (jk : Junk) {q : ℕ} {R : Csr} {qinv : Array Int}
    (h : Echelon q R qinv) (hnd : R.NoDup)
    (hred : ∀ i k, i < R.n → k < R.n → i ≠ k → ¬ R.InRow k (R.pivot i)) (hx : R.x.isSome = true) :
    Ok (kernel_from_rref jk R qinv) (fun K => K.WF ∧ K.n + R.n = R.m ∧ K.m = R.m ∧ K.F.p = R.F.p ∧
      (((toI32 (R.F.p - 1) : Int) : ZMod q) = -1 → IsKernel q R K) ∧
      ∀ k, k < K.n → ∃ j tl, j < R.m ∧ qinv.g j < 0 ∧ K.row k = (j, toI32 (R.F.p - 1)) :: tl ∧
        ∀ e ∈ tl, 0 ≤ qinv.g e.1 ∧ Small q e.2) := by
  have hle := h.n_le
  have hwf := h.wfv.toWF
  have hps := hwf.p_size
  have hnz := hwf.p_nnz
  have hqs := h.size
  unfold kernel_from_rref
  simp only [Ok_bind, Ok_cassert, nnz]
  refine ⟨by simpa using hle, (transpose_spec jk hwf true).mono ?_⟩
  rintro Rt ⟨t1, t2, t3, t4, t5, t6, t7, t8, t9⟩
  simp only [if_true, Bool.true_and] at t4 t5
  rw [hx] at t5
  have hRtn : Rt.n < Rt.p.size := t1.p_size
  have hRtz := t1.p_nnz
  refine Ok_forRange_imp (I := fun i (a : Array Nat) => a.size = R.n ∧
      ∀ k, k < i → a.g k = R.pivot k) (Nat.zero_le _) ⟨by simp, fun k h => by omega⟩ ?_ ?_
  · rintro i a - hi ⟨h1, h2⟩
    have hlt := hwf.row_lt hi (h.ne i hi)
    simp only [Ok_bind, Ok_rd, Ok_wr]
    refine ⟨by omega, by omega, by omega, by simpa using h1, ?_⟩
    intro k hk
    by_cases e : k = i
    · rw [e, g_upd_eq _ _ _ (by omega)]; rfl
    · rw [g_upd_ne _ _ _ _ e]; exact h2 k (by omega)
  rintro p ⟨p1, p2⟩
  rw [Ok_rd]
  refine ⟨hps, (csr_alloc_spec jk _ _ _ _ hwf.field_ok).mono ?_⟩
  rintro K0 ⟨k1, k2⟩
  set G : Nat → List (Nat × Int) := fun j => if 0 ≤ qinv.g j then [] else kfrRow R Rt j with hG
  set np : Nat → Nat := fun j => ((range j).filter fun j => ¬ 0 ≤ qinv.g j).card with hnp
  have hnpm : np R.m + R.n = R.m := h.card_nonpiv
  have hnps : ∀ j, np (j + 1) = np j + if ¬ 0 ≤ qinv.g j then 1 else 0 :=
    fun j => card_filter_succ _ j
  have hnpmono : ∀ a b, a ≤ b → np a ≤ np b := fun a b hab =>
    Finset.card_le_card (Finset.filter_subset_filter _ (Finset.range_mono hab))
  have htot : offs G R.m + R.n = R.p.g R.n + np R.m := by
    have e1 : offs Rt.row R.m = R.p.g R.n := by
      rw [← t1.p_eq_offs (by omega), ← t2, t9]
    rw [← e1, offs_eq_sum, offs_eq_sum]
    have e2 : np R.m = ∑ j ∈ range R.m, if ¬ 0 ≤ qinv.g j then 1 else 0 := by
      simp only [hnp]; rw [Finset.card_filter]
    have e3 : R.n = ∑ j ∈ range R.m, if 0 ≤ qinv.g j then 1 else 0 := by
      rw [← Finset.card_filter]; exact h.card_piv.symm
    rw [e2]
    conv_lhs => rw [e3]
    rw [← Finset.sum_add_distrib, ← Finset.sum_add_distrib]
    refine Finset.sum_congr rfl fun j hj => ?_
    have hj := mem_range.mp hj
    simp only [hG]
    by_cases hp : 0 ≤ qinv.g j
    · rw [if_pos hp, if_pos hp, if_neg (not_not.mpr hp), t4 j hj, rref_col_length h hnd hred hj hp]
      rfl
    · rw [if_neg hp, if_neg hp, if_pos hp]
      simp [kfrRow]
  have hnn : R.n ≤ R.p.g R.n := by
    have : ∀ i, i ≤ R.n → i ≤ R.p.g i := by
      intro i
      induction i with
      | zero => intro _; omega
      | succ i ih =>
        intro hi
        have := ih (by omega)
        have := h.ne i (by omega)
        omega
    exact this R.n (le_refl _)
  have hsize : R.p.g R.n - R.n + R.m - R.n = offs G R.m := by omega
  rw [hsize] at k1
  refine Ok_forRange_imp (I := fun j (s : Csr × Nat) => s.2 = offs G j ∧
      s.1.seg 0 (offs G j) = flat G j ∧ s.1.n = np j ∧ (∀ t, t ≤ j → s.1.p.g (np t) = offs G t) ∧
      Shape { s.1 with n := R.m - R.n } (R.m - R.n) R.m (offs G R.m) true K0.F)
    (Nat.zero_le _) ?_ ?_ ?_
  · refine ⟨rfl, by simp [offs, flat, Csr.seg_self], rfl, ?_, ?_⟩
    · intro t ht
      obtain rfl : t = 0 := by omega
      exact k1.p_zero
    · have := k1.shape
      exact ⟨rfl, this.m_eq, this.p_size, this.j_size, this.x_isSome, this.room, this.F_eq⟩
  · rintro j ⟨K, cnt⟩ - hj ⟨i1, i2, i3, i4, i5⟩
    simp only at i1 i2 i3 i4 i5
    simp only [Ok_bind, Ok_rd]
    refine ⟨by omega, ?_⟩
    have hnj := hnps j
    have hsucc : offs G (j + 1) = offs G j + (G j).length := rfl
    by_cases hp : 0 ≤ qinv.g j
    · rw [if_pos hp, Ok_ok]
      have hGj : G j = [] := by simp only [hG]; rw [if_pos hp]
      rw [if_neg (not_not.mpr hp)] at hnj
      rw [hGj] at hsucc
      have e : offs G (j + 1) = offs G j := hsucc
      have e' : flat G (j + 1) = flat G j := by
        show flat G j ++ G j = flat G j
        rw [hGj, List.append_nil]
      refine ⟨by simp only; omega, by simp only; rw [e, e']; exact i2, by simp only; omega, ?_, i5⟩
      intro t ht
      by_cases ht' : t = j + 1
      · rw [ht', e, hnj]; exact i4 j (le_refl _)
      · exact i4 t (by omega)
    · rw [if_neg hp]
      rw [if_pos hp] at hnj
      have hGj : G j = kfrRow R Rt j := by simp only [hG]; rw [if_neg hp]
      have hmono : offs G (j + 1) ≤ offs G R.m := offs_mono G (by omega)
      have hGl : (G j).length = 1 + (Rt.p.g (j + 1) - Rt.p.g j) := by
        rw [hGj, kfrRow, List.length_cons, List.length_map, Rt.length_row]; omega
      have hjs : K.j.size = offs G R.m := i5.j_size
      have hroom : ∀ k, k < offs G R.m → K.Room k := i5.room
      have hKx : K.x.isSome = true := i5.x_isSome
      have hKp : K.p.size = R.m - R.n + 1 := i5.p_size
      simp only [Ok_bind, Ok_setJ]
      refine ⟨by omega, Ok_setX hKx (by simpa using hroom cnt (by omega)) ?_⟩
      simp only [Ok_rd]
      refine ⟨by omega, by omega, ?_⟩
      have hrow := t1.row_le (i := j) (by omega)
      set f : Nat × Int → Nat × Int := fun e => (R.pivot e.1, e.2) with hf
      refine Ok_forRange_imp (I := fun t (s : Csr × Nat) =>
          s.2 = offs G j + 1 + (t - Rt.p.g j) ∧
          s.1.seg 0 s.2 = flat G j ++ ((j, toI32 (R.F.p - 1)) :: (Rt.seg (Rt.p.g j) t).map f) ∧
          s.1.n = np j ∧ s.1.p = K.p ∧
          Shape { s.1 with n := R.m - R.n } (R.m - R.n) R.m (offs G R.m) true K0.F)
        hrow.1 ?_ ?_ ?_
      · refine ⟨by simp only; omega, ?_, i3, rfl, (i5.updJ _ _).updX _ _⟩
        simp only
        rw [Csr.seg_upd_push _ (Nat.zero_le _) (by omega) (hroom cnt (by omega)), i1, i2, hKx,
          Csr.seg_self]
        rfl
      · rintro t ⟨K', c'⟩ ht1 ht2 ⟨j1, j2, j3, j4, j5⟩
        simp only at j1 j2 j3 j4 j5
        have htn : t < Rt.p.g Rt.n := lt_of_lt_of_le ht2 hrow.2
        have hjl := t1.j_lt t htn
        have hjs' : K'.j.size = offs G R.m := j5.j_size
        have hrm : K'.Room c' := j5.room c' (by omega)
        simp only [Ok_bind, Ok_rd, Ok_setJ]
        refine ⟨by omega, by omega, by omega, rdX_wf t1 t5 htn ?_⟩
        refine Ok_setX (by simpa using j5.x_isSome) (by simpa using hrm) ?_
        rw [Ok_ok]
        refine ⟨by simp only; omega, ?_, j3, j4, (j5.updJ _ _).updX _ _⟩
        simp only
        have hx' : K'.x.isSome = true := j5.x_isSome
        rw [Csr.seg_upd_push _ (Nat.zero_le _) (by omega) hrm, j2, hx',
          Rt.seg_succ ht1, p2 _ (by omega)]
        simp [hf, Csr.ent]
      · rintro ⟨K', c'⟩ ⟨j1, j2, j3, j4, j5⟩
        simp only at j1 j2 j3 j4 j5
        have hnpj := hnpmono (j + 1) R.m (by omega)
        have hc' : c' = offs G (j + 1) := by rw [hsucc, hGl]; omega
        simp only [Ok_bind, Ok_setP, Ok_ok]
        refine ⟨by rw [j3, j4]; omega, hc', ?_, by simp only [Csr.n_updP]; omega, ?_, j5.updP _ _⟩
        · rw [Csr.seg_updP]
          show K'.seg 0 _ = _
          rw [← hc', j2]
          show _ = flat G j ++ G j
          rw [hGj]; rfl
        · intro t ht
          rw [Csr.p_updP, j3, j4]
          by_cases ht' : t = j + 1
          · rw [ht', hnj, g_upd_eq _ _ _ (by omega), hc']
          · have := hnpmono t j (by omega)
            rw [g_upd_ne _ _ _ _ (by omega)]
            exact i4 t (by omega)
  rintro ⟨K, cnt⟩ ⟨i1, i2, i3, i4, i5⟩
  simp only at i1 i2 i3 i4 i5
  rw [Ok_ok]
  refine ⟨by simp; omega, by simp; omega, ?_⟩
  obtain ⟨col, c1, c2⟩ := exists_numbering (fun j => ¬ 0 ≤ qinv.g j) R.m
  have hKn : K.n + R.n = R.m := by omega
  have hKm : K.m = R.m := i5.m_eq
  have hKF : K.F = K0.F := i5.F_eq
  have hoffs : ∀ j, j ≤ R.m → offs (G ∘ col) (np j) = offs G j ∧ flat (G ∘ col) (np j) = flat G j := by
    intro j
    induction j with
    | zero => intro _; exact ⟨rfl, rfl⟩
    | succ j ih =>
      intro hj
      obtain ⟨h1, h2⟩ := ih (by omega)
      have hnj := hnps j
      by_cases hp : 0 ≤ qinv.g j
      · rw [if_neg (not_not.mpr hp)] at hnj
        have hGj : G j = [] := by simp only [hG]; rw [if_pos hp]
        rw [hnj, Nat.add_zero, h1, h2]
        constructor
        · show _ = offs G j + (G j).length
          rw [hGj]; rfl
        · show _ = flat G j ++ G j
          rw [hGj, List.append_nil]
      · rw [if_pos hp] at hnj
        have : col (np j) = j := (c1 j (by omega) hp).2
        rw [hnj]
        constructor
        · show offs (G ∘ col) (np j) + ((G ∘ col) (np j)).length = offs G j + (G j).length
          rw [h1, Function.comp, this]
        · show flat (G ∘ col) (np j) ++ (G ∘ col) (np j) = flat G j ++ G j
          rw [h2, Function.comp, this]
  have hGcol : ∀ k, k < K.n → col k < R.m ∧ ¬ 0 ≤ qinv.g (col k) ∧ np (col k) = k ∧
      (G ∘ col) k = kfrRow R Rt (col k) := by
    intro k hk
    obtain ⟨h1, h2, h3⟩ := c2 k (by show k < np R.m; omega)
    refine ⟨h1, h2, h3, ?_⟩
    simp only [hG, Function.comp]; rw [if_neg h2]
  have hRtrow : ∀ j, j < R.m → ∀ e ∈ Rt.row j, e.1 < R.n ∧ Small q e.2 := by
    intro j hj e he
    refine ⟨by rw [← t3]; exact t1.mem_row (by omega) he, ?_⟩
    rw [t4 j hj, List.mem_flatMap] at he
    obtain ⟨i, hi, he⟩ := he
    rw [List.mem_map] at he
    obtain ⟨e', he', rfl⟩ := he
    have := h.wfv.mem_row_small (List.mem_range.mp hi) (List.mem_filter.mp he').1
    exact this
  have hfl := hoffs R.m (le_refl _)
  have hKnp : K.n = np R.m := i3
  obtain ⟨w1, w2⟩ := Csr.of_flat (B := K) (R := G ∘ col) (by have : K.p.size = _ := i5.p_size; omega)
    (by
      intro k hk
      have : ∃ t, t ≤ R.m ∧ np t = k := by
        by_cases hk' : k = K.n
        · exact ⟨R.m, le_refl _, by omega⟩
        · obtain ⟨h1, -, h3, -⟩ := hGcol k (by omega)
          exact ⟨_, h1.le, h3⟩
      obtain ⟨t, ht, rfl⟩ := this
      rw [(hoffs t ht).1, i4 t ht])
    (by rw [hKnp, hfl.1, hfl.2, i2])
    (by rw [hKnp, hfl.1]; exact (show K.j.size = _ from i5.j_size).ge)
    (by rw [hKnp, hfl.1]; exact i5.x_le (le_refl _))
    (by
      intro k hk e he
      obtain ⟨h1, h2, h3, h4⟩ := hGcol k hk
      rw [h4, kfrRow] at he
      rw [hKm]
      rcases List.mem_cons.mp he with rfl | he
      · exact h1
      · rw [List.mem_map] at he
        obtain ⟨e', he', rfl⟩ := he
        exact h.pivot_lt (hRtrow _ h1 e' he').1)
    (by rw [hKF, k1.F_p]; exact hwf.field_ok)
  refine ⟨w1, hKn, hKm, by rw [hKF, k1.F_p], ?_, ?_⟩
  · intro hneg
    have hent : ∀ k, k < K.n → ∀ c, K.entry q k c =
        (if c = col k then -1 else 0) +
          lsum q ((Rt.row (col k)).map fun e => (R.pivot e.1, e.2)) c := by
      intro k hk c
      rw [K.entry_eq_lsum, w2 k hk, (hGcol k hk).2.2.2, kfrRow, lsum_cons]
      congr 1
      simp only [hneg, eq_comm]
    have hz : ∀ k, k < K.n → ∀ c, qinv.g c < 0 →
        lsum q ((Rt.row (col k)).map fun e => (R.pivot e.1, e.2)) c = 0 := by
      intro k hk c hc
      refine List.sum_eq_zero ?_
      intro z hz
      rw [List.mem_map] at hz
      obtain ⟨e, he, rfl⟩ := hz
      rw [List.mem_map] at he
      obtain ⟨e', he', rfl⟩ := he
      rw [if_neg]
      rintro rfl
      have := h.piv _ (hRtrow _ (hGcol k hk).1 e' he').1
      simp only at hc
      omega
    refine isKernel_of_rows h hKn hKm col ?_ ?_ ?_ ?_ ?_ ?_
    · intro k hk
      exact ⟨(hGcol k hk).1, by have := (hGcol k hk).2.1; omega⟩
    · intro k l hk hl he
      rw [← (hGcol k hk).2.2.1, ← (hGcol l hl).2.2.1, he]
    · intro j hj hjn
      have := c1 j hj (by omega)
      exact ⟨_, by rw [hKnp]; exact this.1, this.2⟩
    · intro k hk
      rw [hent k hk, if_pos rfl, hz k hk _ (by have := (hGcol k hk).2.1; omega), add_zero]
    · intro k c hk hc hcn hne
      rw [hent k hk, if_neg hne, hz k hk c hcn, add_zero]
    · intro k i hk hi
      obtain ⟨h1, h2, -, -⟩ := hGcol k hk
      have hne : R.pivot i ≠ col k := by
        intro he
        rw [← he, h.piv i hi] at h2
        omega
      have hpl := h.pivot_lt hi
      simp only [hent k hk]
      simp only [mul_add]
      rw [Finset.sum_add_distrib]
      have e1 : ∑ c ∈ range R.m, R.entry q i c * (if c = col k then (-1 : ZMod q) else 0) =
          - R.entry q i (col k) := by
        rw [Finset.sum_eq_single (col k)]
        · rw [if_pos rfl]; ring
        · intro c _ hc; rw [if_neg hc, mul_zero]
        · intro hc; exact absurd (mem_range.mpr h1) hc
      have e2 : ∑ c ∈ range R.m, R.entry q i c *
          lsum q ((Rt.row (col k)).map fun e => (R.pivot e.1, e.2)) c =
          lsum q ((Rt.row (col k)).map fun e => (R.pivot e.1, e.2)) (R.pivot i) := by
        rw [Finset.sum_eq_single (R.pivot i)]
        · rw [h.entry_pivot hi, one_mul]
        · intro c hc hne
          have hc := mem_range.mp hc
          by_cases hp : 0 ≤ qinv.g c
          · have hlt := h.lt c hc
            have hloc := h.loc c hc hp
            rw [Csr.entry_eq_zero_of_not_inRow, zero_mul]
            rw [← hloc]
            refine hred _ i (by omega) hi ?_
            intro he
            rw [he] at hloc
            exact hne hloc.symm
          · rw [hz k hk c (by omega), mul_zero]
        · intro hc; exact absurd (mem_range.mpr hpl) hc
      rw [e1, e2, lsum_map_inj (fun i => R.pivot i)]
      · rw [t4 _ h1, ← flat_eq_flatMap, lsum_flat]
        simp only [lsum_map_const]
        rw [Finset.sum_ite_eq' (range R.n) i, if_pos (mem_range.mpr hi), R.entry_eq_lsum]
        ring
      · intro e he hpe
        exact h.pivot_inj (hRtrow _ h1 e he).1 hi hpe
  · intro k hk
    obtain ⟨h1, h2, h3, h4⟩ := hGcol k hk
    refine ⟨col k, _, h1, by omega, by rw [w2 k hk, h4, kfrRow], ?_⟩
    intro e he
    rw [List.mem_map] at he
    obtain ⟨e', he', rfl⟩ := he
    obtain ⟨b1, b2⟩ := hRtrow _ h1 e' he'
    refine ⟨?_, b2⟩
    rw [h.piv _ b1]; omega

end Spasm
