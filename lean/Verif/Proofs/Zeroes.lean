import Verif.Proofs.Compress

namespace Spasm

open Finset

/-- Rows other than the last contain no explicit zero. -/
def ZeroFreeButLast (A : Csr) : Prop := ∀ i, i + 1 < A.n → ∀ e ∈ A.row i, e.2 ≠ 0

theorem remove_explicit_zeroes_spec (jk : Junk) {A : Csr} (hA : A.WF) :
    Ok (remove_explicit_zeroes jk A) (fun B => B.WF ∧ B.n = A.n ∧ B.m = A.m ∧ B.F = A.F ∧
      (∀ i, i < A.n → ∀ e ∈ B.row i,
        (A.x.isSome = true → e.2 ≠ 0) ∧ ∃ k, k < A.p.g A.n ∧ e = A.ent k) ∧
      (0 < B.p.g B.n → B.x.isSome = A.x.isSome) ∧ (B.x.isSome = true → A.x.isSome = true) ∧
      (ZeroFreeButLast A → ∀ i, i < A.n →
        B.row i = (A.row i).filter (fun e => decide (e.2 ≠ 0)))) := by
  unfold remove_explicit_zeroes
  by_cases hx : A.x.isNone = true
  · rw [if_pos hx, Ok_ok]
    have hn : A.x = none := by simpa using hx
    refine ⟨hA, rfl, rfl, rfl, ?_, fun _ => rfl, fun h => h, ?_⟩
    · intro i hi e he
      obtain ⟨k, h1, h2, rfl⟩ := Csr.mem_seg.mp he
      exact ⟨fun h => by simp [hn] at h, k, hA.row_lt hi h2, rfl⟩
    · intro _ i hi
      rw [List.filter_eq_self.mpr]
      intro e he
      obtain ⟨k, h1, h2, rfl⟩ := Csr.mem_seg.mp he
      simp [Csr.ent, Csr.val, hn]
  · rw [if_neg hx]
    have hxs : A.x.isSome = true := by
      cases h : A.x
      · simp [h] at hx
      · rfl
    have hps := hA.p_size
    have hnz := hA.p_nnz
    rw [Ok_bind]
    set P : Nat × Int → Bool := fun e => decide (e.2 ≠ 0) with hP
    refine Ok_forRange_imp (I := fun i (s : Csr × Nat) => ∃ R : Nat → List (Nat × Int),
      s.2 = offs R i ∧ s.1.seg 0 s.2 = flat R i ∧ (∀ k, k ≤ i → s.1.p.g k = offs R k) ∧
      (∀ k, i < k → s.1.p.g k = A.p.g k) ∧ s.2 ≤ A.p.g i ∧
      (∀ k, k < A.p.g A.n → ∃ l, l < A.p.g A.n ∧ s.1.ent k = A.ent l) ∧
      (∀ k, k < i → ∀ e ∈ R k, e.2 ≠ 0 ∧ ∃ l, l < A.p.g A.n ∧ e = A.ent l) ∧
      s.1.n = A.n ∧ s.1.m = A.m ∧ s.1.F = A.F ∧ s.1.x.isSome = true ∧ s.1.p.size = A.p.size ∧
      s.1.j.size = A.j.size ∧ (∀ k, k < A.p.g A.n → s.1.Room k) ∧
      (ZeroFreeButLast A → (i < A.n → s.2 = A.p.g i ∧ ∀ k, s.1.ent k = A.ent k) ∧
        ∀ k, k < i → R k = (A.row k).filter P)) (Nat.zero_le _) ?_ ?_ ?_
    · refine ⟨fun _ => [], rfl, by simp [flat, Csr.seg_self], ?_, fun k _ => rfl, by simp, ?_,
        fun k hk => by omega, rfl, rfl, rfl, hxs, rfl, rfl, fun k hk => hA.room hk, ?_⟩
      · intro k hk
        have : k = 0 := by omega
        subst this; exact hA.p_zero
      · intro k hk; exact ⟨k, hk, rfl⟩
      · intro _
        exact ⟨fun _ => ⟨hA.p_zero.symm, fun k => rfl⟩, fun k hk => by omega⟩
    · rintro i ⟨B, z0⟩ - hi ⟨R, h1, h2, h3, h4, h5, h6, h7, h8, h9, h10, h11, h12, h13, h14, h15⟩
      simp only at h1 h2 h3 h4 h5 h6 h7 h8 h9 h10 h11 h12 h13 h14 h15
      simp only [Ok_bind, Ok_rd]
      rw [h3 i (le_refl _), h4 (i + 1) (by omega), ← h1]
      refine ⟨by omega, by omega, ?_⟩
      have hrow := hA.row_le hi
      refine Ok_forRange_imp (I := fun it (s : Csr × Nat) =>
        z0 ≤ s.2 ∧ s.2 ≤ it ∧ s.1.seg 0 z0 = flat R i ∧
        (∀ e ∈ s.1.seg z0 s.2, e.2 ≠ 0 ∧ ∃ l, l < A.p.g A.n ∧ e = A.ent l) ∧
        (∀ k, k < A.p.g A.n → ∃ l, l < A.p.g A.n ∧ s.1.ent k = A.ent l) ∧
        s.1.p = B.p ∧ s.1.n = A.n ∧ s.1.m = A.m ∧ s.1.F = A.F ∧ s.1.x.isSome = true ∧
        s.1.j.size = A.j.size ∧ (∀ k, k < A.p.g A.n → s.1.Room k) ∧
        (ZeroFreeButLast A → (∀ k, it ≤ k → s.1.ent k = A.ent k) ∧
          s.1.seg z0 s.2 = (A.seg z0 it).filter P ∧
          ((∀ e ∈ A.row i, e.2 ≠ 0) → s.2 = it ∧ ∀ k, s.1.ent k = A.ent k)))
        (by omega) ?_ ?_ ?_
      · refine ⟨le_refl _, le_refl _, h2, by simp [Csr.seg_self], h6, rfl, h8, h9, h10, h11, h13,
          h14, ?_⟩
        intro hz
        obtain ⟨e1, e2⟩ := (h15 hz).1 hi
        exact ⟨fun k _ => e2 k, by simp [Csr.seg_self], fun _ => ⟨rfl, e2⟩⟩
      · rintro it ⟨D, nz⟩ ht1 ht2 ⟨c1, c2, c3, c4, c5, c6, c7, c8, c9, c10, c11, c12, c13⟩
        simp only at c1 c2 c3 c4 c5 c6 c7 c8 c9 c10 c11 c12 c13
        have hit : it < A.p.g A.n := lt_of_lt_of_le ht2 hrow.2
        simp only [Ok_bind, Ok_rd]
        refine ⟨by omega, ?_⟩
        apply rdX_room c10 (c12 it hit)
        have hseg := A.seg_succ ht1
        by_cases h0 : D.val it = 0
        · rw [if_pos h0, Ok_ok]
          refine ⟨c1, by simp only; omega, c3, c4, c5, c6, c7, c8, c9, c10, c11, c12, ?_⟩
          intro hz
          obtain ⟨d1, d2, d3⟩ := c13 hz
          have hent := d1 it (le_refl _)
          have hv : A.val it = 0 := by
            rw [← h0]; exact (congrArg Prod.snd hent).symm
          refine ⟨fun k hk => d1 k (by omega), ?_, ?_⟩
          · rw [hseg, List.filter_append, ← d2]
            simp [hP, Csr.ent, hv]
          · intro hnz
            exfalso
            have hlo : A.p.g i ≤ it := by
              rw [← ((h15 hz).1 hi).1]; exact ht1
            exact hnz (A.ent it) (Csr.mem_seg.mpr ⟨it, hlo, ht2, rfl⟩) hv
        · rw [if_neg h0]
          simp only [Ok_bind, Ok_setJ]
          refine ⟨by omega, ?_⟩
          have hroom : D.Room nz := c12 nz (by omega)
          refine Ok_setX (A := D.updJ nz (D.j.g it)) c10 (by simpa using hroom) ?_
          rw [Ok_ok]
          have hpush : ((D.updJ nz (D.j.g it)).updX nz (D.val it)).seg z0 (nz + 1)
              = D.seg z0 nz ++ [D.ent it] := by
            rw [Csr.seg_upd_push _ c1 (by omega) hroom, if_pos c10]; rfl
          have hentnz : ((D.updJ nz (D.j.g it)).updX nz (D.val it)).ent nz = D.ent it := by
            rw [Csr.ent_upd_eq _ _ _ _ (by omega) hroom, if_pos c10]; rfl
          refine ⟨by simp only; omega, by simp only; omega, ?_, ?_, ?_, c6, c7, c8, c9, by simpa using c10,
            by simpa using c11, fun k hk => by simpa using c12 k hk, ?_⟩
          · simp only
            rw [Csr.seg_upd_ge _ _ _ _ _ _ c1]; exact c3
          · intro e he
            simp only at he
            rw [hpush, List.mem_append, List.mem_singleton] at he
            rcases he with he | he
            · exact c4 e he
            · subst he; exact ⟨h0, c5 it hit⟩
          · intro k hk
            simp only
            by_cases he : k = nz
            · subst he; rw [hentnz]; exact c5 it hit
            · rw [Csr.ent_upd_ne _ _ _ _ _ he]; exact c5 k hk
          · intro hz
            simp only
            obtain ⟨d1, d2, d3⟩ := c13 hz
            have hent := d1 it (le_refl _)
            refine ⟨?_, ?_, ?_⟩
            · intro k hk
              rw [Csr.ent_upd_ne _ _ _ _ _ (by omega)]; exact d1 k (by omega)
            · rw [hpush, hseg, List.filter_append, ← d2, hent]
              have : P (A.ent it) = true := by
                simp only [hP, decide_eq_true_eq]
                rw [← hent]; exact h0
              simp [this]
            · intro hnz
              obtain ⟨f1, f2⟩ := d3 hnz
              refine ⟨by omega, ?_⟩
              intro k
              by_cases he : k = nz
              · subst he; rw [hentnz, f2, f1]
              · rw [Csr.ent_upd_ne _ _ _ _ _ he]; exact f2 k
      · rintro ⟨D, nz⟩ ⟨c1, c2, c3, c4, c5, c6, c7, c8, c9, c10, c11, c12, c13⟩
        simp only at c1 c2 c3 c4 c5 c6 c7 c8 c9 c10 c11 c12 c13
        simp only [Ok_setP, Ok_ok]
        rw [c6]
        refine ⟨by omega, ?_⟩
        set R' : Nat → List (Nat × Int) := fun k => if k = i then D.seg z0 nz else R k with hR'
        have hlt : ∀ k, k < i → R' k = R k := fun k hk => by
          simp only [hR']; rw [if_neg (by omega)]
        have hRi : R' i = D.seg z0 nz := by simp [hR']
        have hoff : ∀ k, k ≤ i → offs R' k = offs R k := by
          intro k hk; exact offs_congr (fun l hl => hlt l (by omega))
        have hoff' : offs R' (i + 1) = nz := by
          simp only [offs]
          rw [hoff i (le_refl _), hRi, D.length_seg]; omega
        refine ⟨R', hoff'.symm, ?_, ?_, ?_, c2, c5, ?_, c7, c8, c9, c10, ?_, c11, c12, ?_⟩
        · simp only [flat, Csr.seg_updP]
          rw [flat_congr hlt, hRi, ← c3]
          exact (D.seg_append (Nat.zero_le _) c1).symm
        · intro k hk
          simp only [Csr.p_updP, c6]
          by_cases he : k = i + 1
          · subst he; rw [g_upd_eq _ _ _ (by omega), hoff']
          · rw [g_upd_ne _ _ _ _ he, hoff k (by omega)]; exact h3 k (by omega)
        · intro k hk
          simp only [Csr.p_updP, c6]
          rw [g_upd_ne _ _ _ _ (by omega)]; exact h4 k (by omega)
        · intro k hk e he
          by_cases hc : k = i
          · subst hc; rw [hRi] at he; exact c4 e he
          · rw [hlt k (by omega)] at he; exact h7 k (by omega) e he
        · simp only [Csr.p_updP, size_upd, c6]; exact h12
        · intro hz
          obtain ⟨d1, d2, d3⟩ := c13 hz
          obtain ⟨g1, g2⟩ := h15 hz
          have hz0 := (g1 hi).1
          refine ⟨?_, ?_⟩
          · intro hi1
            obtain ⟨f1, f2⟩ := d3 (hz i hi1)
            exact ⟨f1, f2⟩
          · intro k hk
            by_cases hc : k = i
            · subst hc; rw [hRi, d2, hz0]; rfl
            · rw [hlt k (by omega)]; exact g2 k (by omega)
    · rintro ⟨B, nz⟩ ⟨R, h1, h2, h3, h4, h5, h6, h7, h8, h9, h10, h11, h12, h13, h14, h15⟩
      simp only at h1 h2 h3 h4 h5 h6 h7 h8 h9 h10 h11 h12 h13 h14 h15
      have hwf := Csr.of_flat (B := B) (R := R)
        (by rw [h8]; omega)
        (by intro i hi; exact h3 i (by omega))
        (by rw [h8, ← h1]; exact h2)
        (by rw [h8, h13]; omega)
        (by
          intro a ha
          rw [h8]
          by_contra hc
          have := h14 (offs R A.n - 1) (by omega) a ha
          omega)
        (by
          intro i hi e he
          rw [h9]
          rw [h8] at hi
          obtain ⟨l, hl, rfl⟩ := (h7 i hi e he).2
          exact hA.j_lt l hl)
        (by rw [h10]; exact hA.field_ok)
      refine (csr_realloc_spec jk hwf.1 (Or.inl (by norm_num))).mono ?_
      rintro D ⟨g1, g2, g3, g4, g5, g6, g7, g8, -, -, -⟩
      rw [h8] at g2 g6 hwf
      have hrows : ∀ i, i < A.n → D.row i = R i := fun i hi => by rw [g6 i hi, hwf.2 i hi]
      refine ⟨g1, g2, by rw [g3, h9], by rw [g5, h10], ?_, ?_, ?_, ?_⟩
      · intro i hi e he
        rw [hrows i hi] at he
        exact ⟨fun _ => (h7 i hi e he).1, (h7 i hi e he).2⟩
      · intro hpos
        rw [g4, g2] at hpos
        rw [hxs, g7 (Or.inl (by rw [h8]; exact hpos)), h11]
      · intro _; exact hxs
      · intro hz i hi
        rw [hrows i hi]
        exact (h15 hz).2 i hi

end Spasm
