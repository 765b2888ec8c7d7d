import Verif.Proofs.Zeroes
import Verif.Spec.Stale

namespace Spasm

open Finset

theorem seg_drop (A : Csr) {lo mid hi : Nat} (h1 : lo ≤ mid) (h2 : mid ≤ hi) :
    (A.seg lo hi).drop (mid - lo) = A.seg mid hi := by
  rw [← A.seg_append h1 h2]
  have : (A.seg lo mid).length = mid - lo := A.length_seg _ _
  rw [← this, List.drop_left]

theorem remove_explicit_zeroes_exact (jk : Junk) {A : Csr} (hA : A.WF) (hxs : A.x.isSome = true) :
    Ok (remove_explicit_zeroes jk A) (fun B => ∀ i, i < A.n → B.row i = nonzeroes (stale A.row i ++ A.row i)) := by
  unfold remove_explicit_zeroes
  have hx : ¬ A.x.isNone = true := by
    cases h : A.x
    · rw [h] at hxs; cases hxs
    · simp
  rw [if_neg hx]
  have hps := hA.p_size
  have hnz := hA.p_nnz
  rw [Ok_bind]
  refine Ok_forRange_imp (I := fun i (s : Csr × Nat) => ∃ R : Nat → List (Nat × Int),
    s.2 = offs R i ∧ s.1.seg 0 s.2 = flat R i ∧ (∀ k, k ≤ i → s.1.p.g k = offs R k) ∧
    (∀ k, i < k → s.1.p.g k = A.p.g k) ∧ s.2 ≤ A.p.g i ∧
    (∀ k, k < A.p.g A.n → ∃ l, l < A.p.g A.n ∧ s.1.ent k = A.ent l) ∧
    (∀ k, k < i → ∀ e ∈ R k, e.2 ≠ 0 ∧ ∃ l, l < A.p.g A.n ∧ e = A.ent l) ∧
    s.1.n = A.n ∧ s.1.m = A.m ∧ s.1.F = A.F ∧ s.1.x.isSome = true ∧ s.1.p.size = A.p.size ∧
    s.1.j.size = A.j.size ∧ (∀ k, k < A.p.g A.n → s.1.Room k) ∧
    s.1.seg s.2 (A.p.g i) = stale A.row i ∧ (∀ k, A.p.g i ≤ k → s.1.ent k = A.ent k) ∧
    ∀ k, k < i → R k = nonzeroes (stale A.row k ++ A.row k)) (Nat.zero_le _) ?_ ?_ ?_
  · refine ⟨fun _ => [], rfl, by simp [flat, Csr.seg_self], ?_, fun k _ => rfl, by simp, ?_,
      fun k hk => by omega, rfl, rfl, rfl, hxs, rfl, rfl, fun k hk => hA.room hk, ?_, fun k _ => rfl,
      fun k hk => by omega⟩
    · intro k hk
      have : k = 0 := by omega
      subst this; exact hA.p_zero
    · intro k hk; exact ⟨k, hk, rfl⟩
    · simp only
      rw [hA.p_zero, Csr.seg_self]
      rfl
  · rintro i ⟨B, z0⟩ - hi ⟨R, h1, h2, h3, h4, h5, h6, h7, h8, h9, h10, h11, h12, h13, h14, h15, h16, h17⟩
    simp only at h1 h2 h3 h4 h5 h6 h7 h8 h9 h10 h11 h12 h13 h14 h15 h16 h17
    simp only [Ok_bind, Ok_rd]
    rw [h3 i (le_refl _), h4 (i + 1) (by omega), ← h1]
    refine ⟨by omega, by omega, ?_⟩
    have hrow := hA.row_le hi
    refine Ok_forRange_imp (I := fun it (s : Csr × Nat) =>
      z0 ≤ s.2 ∧ s.2 ≤ it ∧ s.1.seg 0 z0 = flat R i ∧
      (∀ e ∈ s.1.seg z0 s.2, e.2 ≠ 0 ∧ ∃ l, l < A.p.g A.n ∧ e = A.ent l) ∧
      (∀ k, k < A.p.g A.n → ∃ l, l < A.p.g A.n ∧ s.1.ent k = A.ent l) ∧
      s.1.p = B.p ∧ s.1.n = A.n ∧ s.1.m = A.m ∧ s.1.F = A.F ∧ s.1.x.isSome = true ∧
      s.1.j.size = A.j.size ∧ (∀ k, k < A.p.g A.n → s.1.Room k) ∧
      (∀ k, s.2 ≤ k → s.1.ent k = B.ent k) ∧ s.1.seg z0 s.2 = nonzeroes (B.seg z0 it))
      (by omega) ?_ ?_ ?_
    · exact ⟨le_refl _, le_refl _, h2, by simp [Csr.seg_self], h6, rfl, h8, h9, h10, h11, h13,
        h14, fun k _ => rfl, by simp [Csr.seg_self, nonzeroes]⟩
    · rintro it ⟨D, nz⟩ ht1 ht2 ⟨c1, c2, c3, c4, c5, c6, c7, c8, c9, c10, c11, c12, c13, c14⟩
      simp only at c1 c2 c3 c4 c5 c6 c7 c8 c9 c10 c11 c12 c13 c14
      have hit : it < A.p.g A.n := lt_of_lt_of_le ht2 hrow.2
      simp only [Ok_bind, Ok_rd]
      refine ⟨by omega, ?_⟩
      apply rdX_room c10 (c12 it hit)
      have hseg := B.seg_succ ht1
      have hent := c13 it c2
      by_cases h0 : D.val it = 0
      · rw [if_pos h0, Ok_ok]
        refine ⟨c1, by simp only; omega, c3, c4, c5, c6, c7, c8, c9, c10, c11, c12, c13, ?_⟩
        simp only
        have hv : B.val it = 0 := by
          rw [← h0]; exact (congrArg Prod.snd hent).symm
        rw [hseg, c14]
        simp [nonzeroes, Csr.ent, hv]
      · rw [if_neg h0]
        simp only [Ok_bind, Ok_setJ]
        refine ⟨by omega, ?_⟩
        have hroom : D.Room nz := c12 nz (by omega)
        refine Ok_setX (A := D.updJ nz (D.j.g it)) c10 (by simpa using hroom) ?_
        rw [Ok_ok]
        have hpush : ((D.updJ nz (D.j.g it)).updX nz (D.val it)).seg z0 (nz + 1)
            = D.seg z0 nz ++ [D.ent it] := by
          rw [Csr.seg_upd_push _ c1 (by omega) hroom, if_pos c10]; rfl
        have hentnz : ((D.updJ nz (D.j.g it)).updX nz (D.val it)).ent nz = D.ent it := by
          rw [Csr.ent_upd_eq _ _ _ _ (by omega) hroom, if_pos c10]; rfl
        refine ⟨by simp only; omega, by simp only; omega, ?_, ?_, ?_, c6, c7, c8, c9, by simpa using c10,
          by simpa using c11, fun k hk => by simpa using c12 k hk, ?_, ?_⟩
        · simp only
          rw [Csr.seg_upd_ge _ _ _ _ _ _ c1]; exact c3
        · intro e he
          simp only at he
          rw [hpush, List.mem_append, List.mem_singleton] at he
          rcases he with he | he
          · exact c4 e he
          · subst he; exact ⟨h0, c5 it hit⟩
        · intro k hk
          simp only
          by_cases he : k = nz
          · subst he; rw [hentnz]; exact c5 it hit
          · rw [Csr.ent_upd_ne _ _ _ _ _ he]; exact c5 k hk
        · intro k hk
          simp only at hk ⊢
          rw [Csr.ent_upd_ne _ _ _ _ _ (by omega)]
          exact c13 k (by omega)
        · simp only
          have hv : (B.ent it).2 ≠ 0 := by rw [← hent]; exact h0
          rw [hpush, hseg, c14, hent]
          simp [nonzeroes, hv]
    · rintro ⟨D, nz⟩ ⟨c1, c2, c3, c4, c5, c6, c7, c8, c9, c10, c11, c12, c13, c14⟩
      simp only at c1 c2 c3 c4 c5 c6 c7 c8 c9 c10 c11 c12 c13 c14
      simp only [Ok_setP, Ok_ok]
      rw [c6]
      refine ⟨by omega, ?_⟩
      set R' : Nat → List (Nat × Int) := fun k => if k = i then D.seg z0 nz else R k with hR'
      have hlt : ∀ k, k < i → R' k = R k := fun k hk => by
        simp only [hR']; rw [if_neg (by omega)]
      have hRi : R' i = D.seg z0 nz := by simp [hR']
      have hoff : ∀ k, k ≤ i → offs R' k = offs R k := by
        intro k hk; exact offs_congr (fun l hl => hlt l (by omega))
      have hoff' : offs R' (i + 1) = nz := by
        simp only [offs]
        rw [hoff i (le_refl _), hRi, D.length_seg]; omega
      have hw : B.seg z0 (A.p.g (i + 1)) = stale A.row i ++ A.row i := by
        rw [← B.seg_append h5 hrow.1, h15]
        congr 1
        exact Csr.seg_congr fun k hk _ => h16 k hk
      rw [hw] at c14
      refine ⟨R', hoff'.symm, ?_, ?_, ?_, c2, c5, ?_, c7, c8, c9, c10, ?_, c11, c12, ?_, ?_, ?_⟩
      · simp only [flat, Csr.seg_updP]
        rw [flat_congr hlt, hRi, ← c3]
        exact (D.seg_append (Nat.zero_le _) c1).symm
      · intro k hk
        simp only [Csr.p_updP, c6]
        by_cases he : k = i + 1
        · subst he; rw [g_upd_eq _ _ _ (by omega), hoff']
        · rw [g_upd_ne _ _ _ _ he, hoff k (by omega)]; exact h3 k (by omega)
      · intro k hk
        simp only [Csr.p_updP, c6]
        rw [g_upd_ne _ _ _ _ (by omega)]; exact h4 k (by omega)
      · intro k hk e he
        by_cases hc : k = i
        · subst hc; rw [hRi] at he; exact c4 e he
        · rw [hlt k (by omega)] at he; exact h7 k (by omega) e he
      · simp only [Csr.p_updP, size_upd, c6]; exact h12
      · simp only [Csr.seg_updP]
        have hlen : (nonzeroes (stale A.row i ++ A.row i)).length = nz - z0 := by
          rw [← c14, D.length_seg]
        unfold stale
        rw [hlen, ← hw, seg_drop B c1 c2]
        exact Csr.seg_congr fun k hk _ => c13 k hk
      · intro k hk
        have : D.ent k = A.ent k := by
          rw [c13 k (by omega)]
          exact h16 k (by omega)
        exact this
      · intro k hk
        by_cases hc : k = i
        · subst hc; rw [hRi, c14]
        · rw [hlt k (by omega)]; exact h17 k (by omega)
  · rintro ⟨B, nz⟩ ⟨R, h1, h2, h3, h4, h5, h6, h7, h8, h9, h10, h11, h12, h13, h14, -, -, h17⟩
    simp only at h1 h2 h3 h4 h5 h6 h7 h8 h9 h10 h11 h12 h13 h14 h17
    have hwf := Csr.of_flat (B := B) (R := R)
      (by rw [h8]; omega)
      (by intro i hi; exact h3 i (by omega))
      (by rw [h8, ← h1]; exact h2)
      (by rw [h8, h13]; omega)
      (by
        intro a ha
        rw [h8]
        by_contra hc
        have := h14 (offs R A.n - 1) (by omega) a ha
        omega)
      (by
        intro i hi e he
        rw [h9]
        rw [h8] at hi
        obtain ⟨l, hl, rfl⟩ := (h7 i hi e he).2
        exact hA.j_lt l hl)
      (by rw [h10]; exact hA.field_ok)
    refine (csr_realloc_spec jk hwf.1 (Or.inl (by norm_num))).mono ?_
    rintro D ⟨g1, g2, g3, g4, g5, g6, g7, g8, -, -, -⟩
    rw [h8] at g2 g6 hwf
    intro i hi
    rw [g6 i hi, hwf.2 i hi]
    exact h17 i hi

end Spasm
