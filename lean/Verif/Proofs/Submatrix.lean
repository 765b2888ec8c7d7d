import Verif.Proofs.Transpose

namespace Spasm

open Finset

theorem val_realloc {A B : Csr} {k : Nat} {junk : Nat → Int} {t : Nat}
    (hB : B.x = A.x.map (fun a => reallocArr a k junk)) (ht : t < k)
    (hr : A.Room t) : B.val t = A.val t := by
  unfold Csr.val
  rw [hB]
  cases hx : A.x with
  | none => rfl
  | some a => simp [g_reallocArr _ _ _ _ ht (hr a hx)]

theorem Csr.WF.room {A : Csr} (h : A.WF) {k : Nat} (hk : k < A.p.g A.n) : A.Room k :=
  fun a ha => lt_of_lt_of_le hk (h.x_size a ha)

/-- `spasm_csr_realloc` to a sufficient size. -/
theorem csr_realloc_spec (jk : Junk) {A : Csr} (hA : A.WF) {nzmax : Int}
    (h : nzmax < 0 ∨ (A.p.g A.n : Int) ≤ nzmax) :
    Ok (csr_realloc jk A nzmax) (fun B => B.WF ∧ B.n = A.n ∧ B.m = A.m ∧ B.p = A.p ∧ B.F = A.F ∧
      (∀ i, i < A.n → B.row i = A.row i) ∧
      (0 < A.p.g A.n ∨ 0 < nzmax → B.x.isSome = A.x.isSome) ∧
      (B.x.isSome = true → A.x.isSome = true) ∧
      B.j.size = (if nzmax < 0 then A.p.g A.n else nzmax.toNat) ∧
      (∀ a, B.x = some a → a.size = B.j.size) ∧
      (∀ k, k < A.p.g A.n → B.ent k = A.ent k)) := by
  unfold csr_realloc nnz
  have hps := hA.p_size
  have hnz := hA.p_nnz
  have key : ∀ k : Nat, A.p.g A.n ≤ k → k = (if nzmax < 0 then A.p.g A.n else nzmax.toNat) →
      Ok (.ok { A with j := reallocArr A.j k jk.nat,
                       x := if k = 0 ∧ jk.null0 then none
                            else A.x.map (fun a => reallocArr a k jk.int) } : C Csr)
      (fun B => B.WF ∧ B.n = A.n ∧ B.m = A.m ∧ B.p = A.p ∧ B.F = A.F ∧
      (∀ i, i < A.n → B.row i = A.row i) ∧
      (0 < A.p.g A.n ∨ 0 < nzmax → B.x.isSome = A.x.isSome) ∧
      (B.x.isSome = true → A.x.isSome = true) ∧
      B.j.size = (if nzmax < 0 then A.p.g A.n else nzmax.toNat) ∧
      (∀ a, B.x = some a → a.size = B.j.size) ∧
      (∀ k, k < A.p.g A.n → B.ent k = A.ent k)) := by
    intro k hk hkd
    rw [Ok_ok]
    have hent : ∀ t, t < A.p.g A.n →
        ({ A with j := reallocArr A.j k jk.nat,
                  x := if k = 0 ∧ jk.null0 then none
                       else A.x.map (fun a => reallocArr a k jk.int) } : Csr).ent t = A.ent t := by
      intro t ht
      unfold Csr.ent
      rw [val_realloc (A := A) (k := k) (junk := jk.int) (by
        rw [if_neg]; rintro ⟨h1, -⟩; omega) (by omega) (hA.room ht)]
      simp only
      rw [g_reallocArr _ _ _ _ (by omega) (by omega)]
    refine ⟨⟨hps, hA.p_zero, hA.p_mono, by simpa using hk, ?_, ?_, hA.field_ok⟩, rfl, rfl, rfl, rfl,
      ?_, ?_, ?_, by simpa using hkd, ?_, hent⟩
    · intro t ht
      simp only at ht ⊢
      rw [g_reallocArr _ _ _ _ (by omega) (by omega)]
      exact hA.j_lt t ht
    · intro a ha
      simp only at ha
      split at ha
      · simp at ha
      · simp only [Option.map_eq_some_iff] at ha
        obtain ⟨b, -, rfl⟩ := ha
        simpa using hk
    · intro i hi
      unfold Csr.row
      apply Csr.seg_congr
      intro t _ ht
      exact hent t (hA.row_lt hi ht)
    · intro hpos
      simp only
      rw [if_neg]
      · simp
      · rintro ⟨h1, -⟩
        subst h1
        split at hkd <;> omega
    · intro hs
      simp only at hs
      split at hs
      · simp at hs
      · simpa using hs
    · intro a ha
      simp only at ha
      split at ha
      · simp at ha
      · simp only [Option.map_eq_some_iff] at ha
        obtain ⟨b, -, rfl⟩ := ha
        simp
  by_cases hneg : nzmax < 0
  · rw [if_pos hneg]
    simp only [Ok_bind, Ok_rd]
    exact ⟨hps, key _ (le_refl _) (by rw [if_pos hneg])⟩
  · rw [if_neg hneg]
    simp only [Ok_bind]
    rw [Ok_ok]
    exact key _ (by omega) (by rw [if_neg hneg])

/-- `spasm_csr_resize` to larger (or equal) dimensions. -/
theorem csr_resize_spec (jk : Junk) {A : Csr} (hA : A.WF) {n m : Nat} (hn : A.n ≤ n)
    (hm : A.m ≤ m) :
    Ok (csr_resize jk A n m) (fun B => B.WF ∧ B.n = n ∧ B.m = m ∧ B.j = A.j ∧ B.x = A.x ∧
      B.F = A.F ∧ (∀ i, i < A.n → B.row i = A.row i) ∧
      (∀ i, A.n ≤ i → i < n → B.row i = []) ∧ B.p.size = n + 1 ∧
      (∀ i, i ≤ A.n → B.p.g i = A.p.g i) ∧ (∀ i, A.n ≤ i → i ≤ n → B.p.g i = A.p.g A.n)) := by
  unfold csr_resize
  have hps := hA.p_size
  have key : ∀ p : Array Nat, p.size = n + 1 → (∀ i, i ≤ A.n → p.g i = A.p.g i) →
      (∀ i, A.n ≤ i → i ≤ n → p.g i = A.p.g A.n) →
      (fun B : Csr => B.WF ∧ B.n = n ∧ B.m = m ∧ B.j = A.j ∧ B.x = A.x ∧
      B.F = A.F ∧ (∀ i, i < A.n → B.row i = A.row i) ∧
      (∀ i, A.n ≤ i → i < n → B.row i = []) ∧ B.p.size = n + 1 ∧
      (∀ i, i ≤ A.n → B.p.g i = A.p.g i) ∧ (∀ i, A.n ≤ i → i ≤ n → B.p.g i = A.p.g A.n))
      { A with m := m, p := p, n := n } := by
    intro p h1 h2 h3
    refine ⟨⟨by simp only; omega, ?_, ?_, ?_, ?_, ?_, hA.field_ok⟩, rfl, rfl, rfl, rfl, rfl, ?_, ?_, h1, h2, h3⟩
    · simp only; rw [h2 0 (Nat.zero_le _)]; exact hA.p_zero
    · intro i hi
      simp only at hi ⊢
      by_cases hc : i < A.n
      · rw [h2 i (by omega), h2 (i + 1) (by omega)]; exact hA.p_mono i hc
      · rw [h3 i (by omega) (by omega), h3 (i + 1) (by omega) (by omega)]
    · simp only; rw [h3 n hn (le_refl _)]; exact hA.p_nnz
    · intro k hk
      simp only at hk ⊢
      rw [h3 n hn (le_refl _)] at hk
      exact lt_of_lt_of_le (hA.j_lt k hk) hm
    · intro a ha
      simp only; rw [h3 n hn (le_refl _)]; exact hA.x_size a ha
    · intro i hi
      unfold Csr.row
      simp only
      rw [h2 i (by omega), h2 (i + 1) (by omega)]
      rfl
    · intro i h4 h5
      unfold Csr.row
      simp only
      rw [h3 i h4 (by omega), h3 (i + 1) (by omega) (by omega), Csr.seg_self]
  by_cases hlt : A.n < n
  · rw [if_pos hlt]
    simp only [Ok_bind]
    have hg : ∀ i, i ≤ A.n → (reallocArr A.p (n + 1) jk.nat).g i = A.p.g i := by
      intro i hi
      rw [g_reallocArr _ _ _ _ (by omega) (by omega)]
    refine Ok_forRange_imp (I := fun i p => p.size = n + 1 ∧ (∀ k, k ≤ A.n → p.g k = A.p.g k) ∧
      (∀ k, A.n ≤ k → k < i → p.g k = A.p.g A.n)) (by omega) ⟨by simp, hg, fun k _ _ => by omega⟩ ?_ ?_
    · rintro i p h1 h2 ⟨e1, e2, e3⟩
      simp only [Ok_bind, Ok_rd, Ok_wr]
      rw [e2 _ (le_refl _)]
      refine ⟨by omega, by omega, by simpa using e1, ?_, ?_⟩
      · intro k hk
        by_cases he : k = i
        · subst he; rw [g_upd_eq _ _ _ (by omega)]
          rw [show k = A.n by omega]
        · rw [g_upd_ne _ _ _ _ he]; exact e2 k hk
      · intro k hk1 hk2
        by_cases he : k = i
        · subst he; rw [g_upd_eq _ _ _ (by omega)]
        · rw [g_upd_ne _ _ _ _ he]; exact e3 k hk1 (by omega)
    · rintro p ⟨e1, e2, e3⟩
      rw [Ok_ok]
      exact key p e1 e2 (fun i h1 h2 => e3 i h1 (by omega))
  · rw [if_neg hlt]
    simp only [Ok_bind]
    rw [Ok_ok, Ok_ok]
    apply key
    · simp
    · intro i hi; rw [g_reallocArr _ _ _ _ (by omega) (by omega)]
    · intro i h1 h2
      rw [show i = A.n by omega, g_reallocArr _ _ _ _ (by omega) (by omega)]

/-- The entry kept by `spasm_submatrix` for an entry of `A`. -/
def subEnt (c0 c1 : Int) (wv : Bool) (e : Nat × Int) : Option (Nat × Int) :=
  if c0 ≤ (e.1 : Int) ∧ (e.1 : Int) < c1 then
    some ((e.1 - c0).toNat, if wv then e.2 else 1)
  else none

theorem submatrix_spec (jk : Junk) {A : Csr} (hA : A.WF) {r0 r1 c0 c1 : Int} (wv : Bool)
    (hr0 : 0 ≤ r0) (hr : r0 ≤ r1) (hr1 : r1 ≤ A.n) :
    Ok (submatrix jk A r0 r1 c0 c1 wv) (fun B => B.WF ∧ (B.n : Int) = r1 - r0 ∧
      (B.m : Int) = max 0 (c1 - c0) ∧
      (∀ d, d < B.n → B.row d = (A.row (r0.toNat + d)).filterMap (subEnt c0 c1 wv)) ∧
      (0 < B.p.g B.n → B.x.isSome = (A.x.isSome && wv)) ∧
      (B.x.isSome = true → A.x.isSome = true ∧ wv = true) ∧
      B.F.p = A.F.p ∧ (∀ q, A.F.Good q → B.F.Good q)) := by
  unfold submatrix
  have hps := hA.p_size
  have hnz := hA.p_nnz
  simp only [Ok_bind, Ok_rdI]
  refine ⟨by omega, by omega, by omega, by omega, ?_⟩
  refine (csr_alloc_spec jk _ _ _ (A.x.isSome && wv) hA.field_ok).mono ?_
  rintro B0 ⟨hB, hgood⟩
  obtain ⟨r, rfl⟩ : ∃ r : Nat, r0 = r := ⟨r0.toNat, by omega⟩
  obtain ⟨s, rfl⟩ : ∃ s : Nat, r1 = r + s := ⟨(r1 - r).toNat, by omega⟩
  have e1 : ((r : Int) + s - r).toNat = s := by omega
  have e2 : (max 0 ((r : Int) + s - r)).toNat = s := by omega
  have e3 : ((r : Int) + s).toNat = r + s := by omega
  have e4 : (r : Int).toNat = r := by omega
  rw [e2, e3, e4] at hB
  rw [e1]
  set f := subEnt c0 c1 (A.x.isSome && wv) with hf
  set R : Nat → List (Nat × Int) := fun d => (A.row (r + d)).filterMap f with hR
  have hle : ∀ d, d ≤ s → offs R d ≤ A.p.g (r + d) - A.p.g r := by
    intro d
    induction d with
    | zero => intro _; simp [offs]
    | succ d ih =>
      intro hd
      have h1 := ih (by omega)
      have h2 : (R d).length ≤ (A.row (r + d)).length := List.length_filterMap_le _ _
      rw [A.length_row] at h2
      have h3 := hA.p_mono (r + d) (by omega)
      have h4 := hA.mono_le (i := r) (k := r + d) (by omega) (by omega)
      simp only [offs]
      rw [← Nat.add_assoc]
      omega
  have hmono := hA.mono_le (i := r) (k := r + s) (by omega) (by omega)
  refine Ok_forRange_imp (I := fun d (s' : Csr × Nat) =>
      s'.2 = offs R d ∧ s'.1.seg 0 (offs R d) = flat R d ∧ (∀ k, k < d → s'.1.p.g k = offs R k) ∧
      Shape s'.1 s (max 0 (c1 - c0)).toNat (A.p.g (r + s) - A.p.g r) (A.x.isSome && wv) B0.F)
      (Nat.zero_le _) ?_ ?_ ?_
  · exact ⟨rfl, by simp [offs, flat, Csr.seg_self], fun k hk => by omega, hB.shape⟩
  · rintro d ⟨B, z⟩ - hd ⟨h1, h2, h3, h4⟩
    simp only at h1 h2 h3 h4
    subst h1
    have hp := h4.p_size
    simp only [Ok_bind, Ok_setP, Ok_idx, Ok_rd]
    have e5 : ((r : Int) + d).toNat = r + d := by omega
    rw [e5]
    refine ⟨by omega, by omega, by omega, by omega, ?_⟩
    have hi : r + d < A.n := by omega
    have hrow := hA.row_le hi
    refine Ok_forRange_imp (I := fun t (s' : Csr × Nat) =>
      s'.2 = offs R d + ((A.seg (A.p.g (r + d)) t).filterMap f).length ∧
      s'.1.seg 0 s'.2 = flat R d ++ (A.seg (A.p.g (r + d)) t).filterMap f ∧
      (∀ k, k < d + 1 → s'.1.p.g k = offs R k) ∧
      Shape s'.1 s (max 0 (c1 - c0)).toNat (A.p.g (r + s) - A.p.g r) (A.x.isSome && wv) B0.F)
      hrow.1 ?_ ?_ ?_
    · refine ⟨by simp [Csr.seg_self], by simp [Csr.seg_self, h2], ?_, h4.updP _ _⟩
      intro k hk
      rw [Csr.p_updP]
      by_cases he : k = d
      · subst he; rw [g_upd_eq _ _ _ (by omega)]
      · rw [g_upd_ne _ _ _ _ he]; exact h3 k (by omega)
    · rintro t ⟨B, z⟩ ht1 ht2 ⟨d1, d2, d3, d4⟩
      simp only at d1 d2 d3 d4
      have htn : t < A.p.g A.n := lt_of_lt_of_le ht2 hrow.2
      have hj := hA.j_lt t htn
      simp only [Ok_bind, Ok_rd]
      refine ⟨by omega, ?_⟩
      have hsucc : (A.seg (A.p.g (r + d)) (t + 1)).filterMap f
          = (A.seg (A.p.g (r + d)) t).filterMap f ++ [A.ent t].filterMap f := by
        rw [A.seg_succ ht1, List.filterMap_append]
      by_cases hc : c0 ≤ (A.j.g t : Int) ∧ (A.j.g t : Int) < c1
      · rw [if_pos hc]
        have hfe : [A.ent t].filterMap f = [(((A.j.g t : Int) - c0).toNat,
            if (A.x.isSome && wv) then A.val t else 1)] := by
          simp [hf, subEnt, Csr.ent, hc]
        rw [hfe] at hsucc
        have hlen : z < A.p.g (r + s) - A.p.g r := by
          have h6 := hle d (by omega)
          have h7 : ((A.seg (A.p.g (r + d)) t).filterMap f).length ≤ t - A.p.g (r + d) := by
            refine (List.length_filterMap_le _ _).trans ?_
            rw [A.length_seg]
          have h8 := hA.mono_le (i := r + d + 1) (k := r + s) (by omega) (by omega)
          have h9 := hA.mono_le (i := r) (k := r + d) (by omega) (by omega)
          omega
        have hjs := d4.j_size
        simp only [Ok_bind, Ok_setJ]
        refine ⟨by omega, ?_⟩
        apply Ok_copyX hA htn
        · intro hx; rw [Csr.x_updJ, d4.x_isSome] at hx; simp at hx; exact hx.1
        · simpa using d4.room z hlen
        · rw [Ok_ok]
          refine ⟨?_, ?_, d3, (d4.updJ _ _).updX _ _⟩
          · simp only [hsucc, List.length_append, List.length_singleton]; omega
          · simp only
            rw [Csr.seg_upd_push _ (Nat.zero_le _) (by omega) (d4.room z hlen), d2, hsucc,
              List.append_assoc, d4.x_isSome]
      · rw [if_neg hc, Ok_ok]
        have hfe : [A.ent t].filterMap f = [] := by
          have hn : f (A.ent t) = none := by
            simp only [hf, subEnt]
            exact if_neg hc
          simp [hn]
        rw [hfe, List.append_nil] at hsucc
        rw [hsucc]
        exact ⟨d1, d2, d3, d4⟩
    · rintro ⟨B, z⟩ ⟨d1, d2, d3, d4⟩
      simp only at d1 d2 d3 d4
      have hz : z = offs R (d + 1) := d1
      refine ⟨hz, ?_, d3, d4⟩
      simp only
      rw [← hz, d2]; rfl
  · rintro ⟨B, z⟩ ⟨h1, h2, h3, h4⟩
    simp only at h1 h2 h3 h4
    subst h1
    have hp := h4.p_size
    simp only [Ok_idx, Ok_setP]
    rw [e1]
    refine ⟨by omega, by omega, ?_⟩
    have hS := h4.updP s (offs R s)
    have hls := hle s (le_refl _)
    have hwf := Csr.of_flat (B := B.updP s (offs R s)) (R := R)
      (by rw [hS.n_eq, hS.p_size]; omega)
      (by
        intro i hi
        rw [hS.n_eq] at hi
        rw [Csr.p_updP]
        by_cases he : i = s
        · subst he; rw [g_upd_eq _ _ _ (by omega)]
        · rw [g_upd_ne _ _ _ _ he]; exact h3 i (by omega))
      (by rw [hS.n_eq]; simpa using h2)
      (by rw [hS.n_eq, hS.j_size]; exact hls)
      (by rw [hS.n_eq]; exact hS.x_le hls)
      (by
        intro i hi e he
        rw [hS.m_eq]
        simp only [hR, List.mem_filterMap] at he
        obtain ⟨a, ha, hfa⟩ := he
        simp only [hf, subEnt] at hfa
        split at hfa
        · simp only [Option.some.injEq] at hfa
          rw [← hfa]
          simp only
          omega
        · simp at hfa)
      (by rw [hS.F_eq, hB.F_p]; exact hA.field_ok)
    rw [hS.n_eq] at hwf
    refine (csr_realloc_spec jk hwf.1 (Or.inl (by norm_num))).mono ?_
    rintro D ⟨g1, g2, g3, g4, g5, g6, g7, g8, -, -, -⟩
    rw [hS.n_eq] at g2 g6 g7
    rw [hS.m_eq] at g3
    refine ⟨g1, by rw [g2]; omega, by rw [g3]; omega, ?_, ?_, ?_, ?_, ?_⟩
    · intro d hd
      rw [g2] at hd
      rw [g6 d hd, hwf.2 d hd]
      simp only [hR]
      apply List.filterMap_congr
      intro e he
      simp only [hf, subEnt]
      by_cases hx : A.x.isSome = true
      · simp [hx]
      · have hn : A.x = none := by simpa using hx
        obtain ⟨k, -, -, rfl⟩ := Csr.mem_seg.mp he
        simp [hn, Csr.ent, Csr.val]
    · intro hpos
      rw [g4, g2] at hpos
      rw [g7 (Or.inl hpos), hS.x_isSome]
    · intro hx
      have := g8 hx
      rw [hS.x_isSome] at this
      simpa using this
    · rw [g5, hS.F_eq, hB.F_p]
    · rw [g5, hS.F_eq]; exact hgood

end Spasm
