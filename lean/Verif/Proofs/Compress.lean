import Verif.Proofs.Triplet
import Verif.Spec.Stale

namespace Spasm

open Finset

theorem rdX_room {A : Csr} (hx : A.x.isSome = true) {k : Nat} (hr : A.Room k)
    {Q : Int → Prop} (hQ : Q (A.val k)) : Ok (rdX A k) Q := by
  obtain ⟨a, ha⟩ := Option.isSome_iff_exists.mp hx
  unfold rdX
  rw [ha]
  simp only [Ok_bind, Ok_deref_some, Ok_rd]
  refine ⟨hr a ha, ?_⟩
  have : A.val k = a.g k := by unfold Csr.val; rw [ha]
  rwa [this] at hQ

theorem Csr.updX_none {A : Csr} (h : ¬ A.x.isSome = true) (k : Nat) (v : Int) : A.updX k v = A := by
  have hn : A.x = none := by simpa using h
  unfold Csr.updX; rw [hn]; cases A; simp_all

/-- `if (Ax) Ax[k] = v; ...` when `v` is available. -/
theorem Ok_setX_if {β : Type} {B : Csr} {k : Nat} {Q : β → Prop} (cont : Csr → C β)
    (getv : C Int) (v : Int)
    (hg : B.x.isSome = true → ∀ P : Int → Prop, P v → Ok getv P) (hr : B.Room k)
    (hQ : Ok (cont (B.updX k v)) Q) :
    Ok (if B.x.isSome then (do let x ← getv; let B' ← B.setX k x; cont B')
      else (do let B' ← .ok B; cont B')) Q := by
  by_cases hb : B.x.isSome = true
  · rw [if_pos hb, Ok_bind]
    apply hg hb
    rw [Ok_bind]
    exact Ok_setX hb hr hQ
  · rw [if_neg hb, Ok_bind, Ok_ok]
    rwa [Csr.updX_none hb] at hQ

/-! ### Bucket sort -/

/-- The first `t` triplets: key = row, payload = (column, value). -/
def Triplet.items (T : Triplet) (t : Nat) : List (Nat × (Nat × Int)) :=
  (List.range t).map fun k => (T.i.g k, (T.j.g k, T.val k))

theorem Triplet.items_succ (T : Triplet) (t : Nat) :
    T.items (t + 1) = T.items t ++ [(T.i.g t, (T.j.g t, T.val t))] := by
  simp [Triplet.items, List.range_succ]

theorem Triplet.items_prefix (T : Triplet) {t u : Nat} (h : t ≤ u) : T.items t <+: T.items u := by
  induction u with
  | zero => have : t = 0 := by omega
            subst this; exact List.prefix_refl _
  | succ u ih =>
    by_cases he : t = u + 1
    · subst he; exact List.prefix_refl _
    · rw [T.items_succ]; exact (ih (by omega)).trans (List.prefix_append _ _)

theorem Triplet.mem_items {T : Triplet} {t : Nat} {e : Nat × (Nat × Int)} :
    e ∈ T.items t ↔ ∃ k, k < t ∧ e = (T.i.g k, (T.j.g k, T.val k)) := by
  simp [Triplet.items, eq_comm]

theorem compress_sort_spec (jk : Junk) {T : Triplet} (hT : T.WF) :
    Ok (compress_sort jk T) (fun A => A.WF ∧ A.n = T.n ∧ A.m = T.m ∧
      (∀ i, i < T.n → A.row i = sel (T.items T.nz) i) ∧
      A.x.isSome = T.x.isSome ∧ A.F.p = T.F.p ∧ (∀ q, T.F.Good q → A.F.Good q)) := by
  unfold compress_sort
  rw [Ok_bind]
  refine (csr_alloc_spec jk T.n T.m T.nz T.x.isSome hT.field_ok).mono ?_
  rintro A0 ⟨hA, hgood⟩
  have his := hT.i_size
  have hjs := hT.j_size
  set L := T.items T.nz with hL
  have hkeys : ∀ e ∈ L, e.1 < T.n := by
    intro e he
    obtain ⟨k, hk, rfl⟩ := Triplet.mem_items.mp he
    exact hT.i_lt k hk
  have htot : offs (sel L) T.n = T.nz := by
    rw [offs_sel L T.n hkeys]; simp [hL, Triplet.items]
  rw [Ok_bind]
  refine Ok_forRange_imp (I := fun t w => w.size = T.n ∧
      ∀ i, i < T.n → w.g i = (sel (T.items t) i).length) (Nat.zero_le _) ?_ ?_ ?_
  · refine ⟨by simp, fun j hj => ?_⟩
    rw [g_mkArr _ _ _ hj]; rfl
  · rintro t w - ht ⟨h1, h2⟩
    have hi := hT.i_lt t ht
    simp only [Ok_bind, Ok_rd, Ok_cassert, Ok_wr]
    refine ⟨by omega, by simpa using hi, by omega, by omega, by simpa using h1, ?_⟩
    intro i hin
    rw [T.items_succ, sel_append, List.length_append]
    by_cases he : i = T.i.g t
    · subst he; rw [g_upd_eq _ _ _ (by omega), sel_single_eq, h2 _ hin]; rfl
    · rw [g_upd_ne _ _ _ _ he, sel_single_ne _ he, h2 _ hin]; rfl
  · rintro w ⟨h1, h2⟩
    rw [← hL] at h2
    rw [Ok_bind]
    refine Ok_forRange_imp (I := fun j (s : Csr × Array Nat × Nat) =>
      Shape s.1 T.n T.m T.nz T.x.isSome A0.F ∧ s.2.2 = offs (sel L) j ∧
      s.2.1.size = T.n ∧
      (∀ k, k < j → s.1.p.g k = offs (sel L) k ∧ s.2.1.g k = offs (sel L) k) ∧
      (∀ k, j ≤ k → k < T.n → s.2.1.g k = (sel L k).length)) (Nat.zero_le _) ?_ ?_ ?_
    · exact ⟨hA.shape, rfl, h1, fun k hk => by omega, fun k _ hk => h2 k hk⟩
    · rintro j ⟨A, w, sum⟩ - hj ⟨e1, e2, e3, e4, e5⟩
      simp only at e1 e2 e3 e4 e5
      subst e2
      have hTp := e1.p_size
      simp only [Ok_bind, Ok_setP, Ok_rd, Ok_wr, Ok_ok, Csr.p_updP, size_upd]
      refine ⟨by omega, by omega, by omega, by omega, e1.updP _ _, ?_, by simpa using e3, ?_, ?_⟩
      · simp only [offs]; rw [e5 j (le_refl _) hj]
      · intro k hk
        by_cases he : k = j
        · subst he
          rw [g_upd_eq _ _ _ (by omega), g_upd_eq _ _ _ (by omega)]
          exact ⟨rfl, rfl⟩
        · rw [g_upd_ne _ _ _ _ he, g_upd_ne _ _ _ _ he]
          exact e4 k (by omega)
      · intro k hk hk'
        rw [g_upd_ne _ _ _ _ (by omega)]
        exact e5 k (by omega) hk'
    · rintro ⟨A, w, sum⟩ ⟨e1, e2, e3, e4, -⟩
      simp only at e1 e2 e3 e4
      subst e2
      have hTp := e1.p_size
      simp only [Ok_bind, Ok_setP]
      refine ⟨by omega, ?_⟩
      refine Ok_forRange_imp (I := fun t (s : Csr × Array Nat) =>
        Shape s.1 T.n T.m T.nz T.x.isSome A0.F ∧
        (∀ k, k ≤ T.n → s.1.p.g k = offs (sel L) k) ∧
        CSInv (fun e => (e.1, if T.x.isSome then e.2 else 1)) T.n L (T.items t) s.1 s.2)
        (Nat.zero_le _) ?_ ?_ ?_
      · refine ⟨e1.updP _ _, ?_, by simp only; omega, ?_, ?_⟩
        · intro k hk
          rw [Csr.p_updP]
          by_cases he : k = T.n
          · subst he; rw [g_upd_eq _ _ _ (by omega)]
          · rw [g_upd_ne _ _ _ _ he]; exact (e4 k (by omega)).1
        · intro j hj
          rw [(e4 j hj).2]; simp [Triplet.items]
        · intro j hj
          simp [Triplet.items, Csr.seg_self]
      · rintro t ⟨A, w⟩ - ht ⟨d1, d2, d3⟩
        simp only at d1 d2 d3
        have hi := hT.i_lt t ht
        have hpre : T.items t ++ [(T.i.g t, (T.j.g t, T.val t))] <+: L := by
          rw [← T.items_succ]; exact T.items_prefix (by omega)
        have hpos := d3.pos hi hpre
        have hw := d3.w_size
        have hAj := d1.j_size
        simp only [Ok_bind, Ok_rd, Ok_wr, Ok_setJ]
        refine ⟨by omega, by omega, by omega, by omega, by omega, ?_⟩
        have hroom : A.Room (w.g (T.i.g t)) := d1.room _ (by omega)
        have := @Ok_setX_if _ (A.updJ (w.g (T.i.g t)) (T.j.g t)) (w.g (T.i.g t))
            (fun s => Shape s.1 T.n T.m T.nz T.x.isSome A0.F ∧
              (∀ k, k ≤ T.n → s.1.p.g k = offs (sel L) k) ∧
              CSInv (fun e => (e.1, if T.x.isSome then e.2 else 1)) T.n L (T.items (t + 1)) s.1 s.2)
          (fun B => (.ok (B, w.upd (T.i.g t) (w.g (T.i.g t) + 1)) : C (Csr × Array Nat)))
          (do let tx ← deref T.x; rd tx t) (T.val t) ?_ (by simpa using hroom) ?_
        · rw [bind_assoc] at this
          exact this
        · intro hx P hP
          rw [Csr.x_updJ, d1.x_isSome] at hx
          obtain ⟨a, ha⟩ := Option.isSome_iff_exists.mp hx
          rw [ha]
          simp only [Ok_bind, Ok_deref_some, Ok_rd]
          refine ⟨by rw [hT.x_size a ha]; omega, ?_⟩
          have : T.val t = a.g t := by unfold Triplet.val; rw [ha]
          rwa [this] at hP
        · rw [Ok_ok]
          refine ⟨(d1.updJ _ _).updX _ _, d2, ?_⟩
          rw [T.items_succ]
          apply d3.step hi hpre (by omega) hroom
          rw [d1.x_isSome]
      · rintro ⟨A, w⟩ ⟨d1, d2, d3⟩
        simp only at d1 d2 d3
        rw [Ok_ok]
        have hfin := d3.final d1 d2 (by omega) (by
          intro e he
          obtain ⟨k, hk, rfl⟩ := Triplet.mem_items.mp he
          exact hT.j_lt k hk) (by rw [hA.F_p]; exact hT.field_ok)
        refine ⟨hfin.1, d1.n_eq, d1.m_eq, ?_, d1.x_isSome, by rw [d1.F_eq, hA.F_p],
          by rw [d1.F_eq]; exact hgood⟩
        intro i hi
        rw [hfin.2 i hi]
        conv_rhs => rw [← List.map_id (sel L i)]
        apply List.map_congr_left
        intro e he
        unfold sel at he
        rw [List.mem_map] at he
        obtain ⟨b, hb, rfl⟩ := he
        obtain ⟨k, hk, rfl⟩ := Triplet.mem_items.mp (List.mem_filter.mp hb).1
        by_cases hx : T.x.isSome = true
        · simp [hx]
        · have hn : T.x = none := by simpa using hx
          simp [hn, Triplet.val]

/-! ### Duplicate removal -/

theorem firsts_append (l : List Nat) (c : Nat) :
    firsts (l ++ [c]) = if c ∈ firsts l then firsts l else firsts l ++ [c] := by
  unfold firsts
  rw [List.foldl_append]
  rfl

/-- `r` is `l` with the entries of equal column added up. -/
structure Ded (q : ℕ) (wv : Bool) (l r : List (Nat × Int)) : Prop where
  nodup : (r.map Prod.fst).Nodup
  cols : ∀ c, c ∈ r.map Prod.fst ↔ c ∈ l.map Prod.fst
  sum : wv = true → ∀ j, lsum q r j = lsum q l j
  small : wv = true → ∀ e ∈ r, Small q e.2
  len : r.length ≤ l.length
  order : r.map Prod.fst = firsts (l.map Prod.fst)

theorem lsum_map_fst_not_mem {q : ℕ} {l : List (Nat × Int)} {j : Nat}
    (h : j ∉ l.map Prod.fst) : lsum q l j = 0 := by
  induction l with
  | nil => rfl
  | cons e l ih =>
    simp only [List.map_cons, List.mem_cons, not_or] at h
    rw [lsum_cons, if_neg (fun e => h.1 e.symm), ih h.2]; simp

theorem deduplicate_spec (jk : Junk) {A : Csr} (hA : A.WF) (q : ℕ)
    (hV : A.x.isSome = true → A.WFV q) :
    Ok (deduplicate jk A) (fun B => B.WF ∧ B.n = A.n ∧ B.m = A.m ∧ B.F = A.F ∧
      (∀ i, i < A.n → Ded q A.x.isSome (A.row i) (B.row i)) ∧
      (0 < B.p.g B.n → B.x.isSome = A.x.isSome) ∧ (B.x.isSome = true → A.x.isSome = true)) := by
  unfold deduplicate
  rw [Ok_bind]
  have hps := hA.p_size
  have hnz := hA.p_nnz
  refine Ok_forRange_imp (I := fun i (s : Csr × Array Int × Nat) =>
    ∃ R : Nat → List (Nat × Int),
      s.2.2 = offs R i ∧ s.1.seg 0 s.2.2 = flat R i ∧ (∀ k, k < i → s.1.p.g k = offs R k) ∧
      (∀ k, i ≤ k → s.1.p.g k = A.p.g k) ∧ (∀ k, A.p.g i ≤ k → s.1.ent k = A.ent k) ∧
      s.2.2 ≤ A.p.g i ∧ (∀ k, k < i → Ded q A.x.isSome (A.row k) (R k)) ∧
      s.1.n = A.n ∧ s.1.m = A.m ∧ s.1.F = A.F ∧ s.1.x.isSome = A.x.isSome ∧
      s.1.p.size = A.p.size ∧ s.1.j.size = A.j.size ∧
      (∀ k, k < A.p.g A.n → s.1.Room k) ∧
      s.2.1.size = A.m ∧ (∀ j, j < A.m → s.2.1.g j < s.2.2)) (Nat.zero_le _) ?_ ?_ ?_
  · refine ⟨fun _ => [], rfl, by simp [flat, Csr.seg_self], fun k hk => by omega, fun k _ => rfl,
      fun k _ => rfl, by simp, fun k hk => by omega, rfl, rfl, rfl, rfl, rfl, rfl,
      fun k hk => hA.room hk, by simp, ?_⟩
    intro j hj
    simp only
    rw [g_mkArr _ _ _ hj]; norm_num
  · rintro i ⟨B, v, p⟩ - hi ⟨R, h1, h2, h3, h4, h5, h6, h7, h8, h9, h10, h11, h12, h13, h14, h15, h16⟩
    simp only at h1 h2 h3 h4 h5 h6 h7 h8 h9 h10 h11 h12 h13 h14 h15 h16
    simp only [Ok_bind, Ok_rd]
    rw [h4 i (le_refl _), h4 (i + 1) (by omega)]
    refine ⟨by omega, by omega, ?_⟩
    have hrow := hA.row_le hi
    refine Ok_forRange_imp (I := fun it (s : Csr × Array Int × Nat) =>
      p ≤ s.2.2 ∧ s.2.2 ≤ it ∧ s.1.seg 0 p = flat R i ∧
      Ded q A.x.isSome (A.seg (A.p.g i) it) (s.1.seg p s.2.2) ∧
      s.1.p = B.p ∧ (∀ k, it ≤ k → s.1.ent k = A.ent k) ∧
      s.1.n = A.n ∧ s.1.m = A.m ∧ s.1.F = A.F ∧ s.1.x.isSome = A.x.isSome ∧
      s.1.j.size = A.j.size ∧ (∀ k, k < A.p.g A.n → s.1.Room k) ∧
      s.2.1.size = A.m ∧ (∀ j, j < A.m → s.2.1.g j < s.2.2) ∧
      (∀ j, j < A.m → (p : Int) ≤ s.2.1.g j → s.1.j.g (s.2.1.g j).toNat = j) ∧
      (∀ j, j < A.m → s.2.1.g j < p → j ∉ (s.1.seg p s.2.2).map Prod.fst)) hrow.1 ?_ ?_ ?_
    · refine ⟨le_refl _, h6, h2, ?_, rfl, h5, h8, h9, h10, h11, h13, h14, h15, h16, ?_, ?_⟩
      · simp only [Csr.seg_self]
        exact ⟨by simp, fun c => Iff.rfl, fun _ j => rfl, fun _ e he => by simp at he, by simp, rfl⟩
      · intro j hj hp
        have := h16 j hj
        simp only at hp
        omega
      · intro j hj _; simp [Csr.seg_self]
    · rintro it ⟨D, w, nz⟩ ht1 ht2 ⟨c1, c2, c3, c4, c5, c6, c7, c8, c9, c10, c11, c12, c13, c14, c15, c16⟩
      simp only at c1 c2 c3 c4 c5 c6 c7 c8 c9 c10 c11 c12 c13 c14 c15 c16
      have hit : it < A.p.g A.n := lt_of_lt_of_le ht2 hrow.2
      have hent := c6 it (le_refl _)
      have hj : D.j.g it = A.j.g it := congrArg Prod.fst hent
      have hv : D.val it = A.val it := congrArg Prod.snd hent
      have hjm := hA.j_lt it hit
      have hseg := A.seg_succ ht1
      simp only [Ok_bind, Ok_rd, Ok_cassert]
      rw [hj, c8]
      refine ⟨by omega, by simpa using hjm, by omega, ?_⟩
      by_cases hlt : w.g (A.j.g it) < (p : Int)
      · rw [if_pos hlt]
        simp only [Ok_bind, Ok_wr, Ok_setJ]
        refine ⟨by omega, by omega, ?_⟩
        have hroom : D.Room nz := c12 nz (by omega)
        refine Ok_setX_if (B := D.updJ nz (A.j.g it))
          (fun B => .ok (B, w.upd (A.j.g it) (nz : Int), nz + 1)) (rdX (D.updJ nz (A.j.g it)) it) (A.val it)
          ?_ (by simpa using hroom) ?_
        · intro hx P hP
          exact rdX_room hx (by simpa using c12 it hit) (by rw [Csr.val_updJ, hv]; exact hP)
        · rw [Ok_ok]
          have hval : (if D.x.isSome then A.val it else 1) = A.val it := by
            by_cases hx : A.x.isSome = true
            · rw [c10, if_pos hx]
            · have hn : A.x = none := by simpa using hx
              simp [c10, hn, Csr.val]
          have hpush : ((D.updJ nz (A.j.g it)).updX nz (A.val it)).seg p (nz + 1)
              = D.seg p nz ++ [A.ent it] := by
            rw [Csr.seg_upd_push _ c1 (by omega) hroom, hval]; rfl
          have hnot := c16 _ hjm hlt
          refine ⟨by simp only; omega, by simp only; omega, ?_, ?_, c5, ?_, c7, c8, c9, ?_, ?_, ?_, ?_,
            ?_, ?_, ?_⟩
          · simp only
            rw [Csr.seg_upd_ge _ _ _ _ _ _ c1]; exact c3
          · simp only
            rw [hpush, hseg]
            refine ⟨?_, ?_, ?_, ?_, ?_, ?_⟩
            · rw [List.map_append, List.nodup_append]
              refine ⟨c4.nodup, by simp, ?_⟩
              intro a ha b hb hab
              simp only [List.map_cons, List.map_nil, List.mem_singleton] at hb
              subst hab; subst hb
              exact hnot ha
            · intro c
              rw [List.map_append, List.map_append, List.mem_append, List.mem_append, c4.cols c]
            · intro hx j
              rw [lsum_append, lsum_append, c4.sum hx j]
            · intro hx e he
              rw [List.mem_append] at he
              rcases he with he | he
              · exact c4.small hx e he
              · rw [List.mem_singleton] at he; subst he
                exact (hV hx).small it hit
            · have := c4.len
              rw [List.length_append, List.length_append]; simpa using this
            · rw [List.map_append, List.map_append, List.map_singleton, firsts_append, ← c4.order, if_neg]
              exact hnot
          · intro k hk
            simp only
            rw [Csr.ent_upd_ne _ _ _ _ _ (by omega)]
            exact c6 k (by omega)
          · simpa using c10
          · simpa using c11
          · intro k hk; simpa using c12 k hk
          · simpa using c13
          · intro j hj
            simp only
            by_cases he : j = A.j.g it
            · subst he; rw [g_upd_eq _ _ _ (by omega)]; push_cast; omega
            · rw [g_upd_ne _ _ _ _ he]; have := c14 j hj; push_cast; omega
          · intro j hj hpj
            simp only at hpj ⊢
            rw [Csr.j_updX, Csr.j_updJ]
            by_cases he : j = A.j.g it
            · subst he
              rw [g_upd_eq _ _ _ (by omega), show ((nz : Int)).toNat = nz by omega,
                g_upd_eq _ _ _ (by omega)]
            · rw [g_upd_ne _ _ _ _ he] at hpj ⊢
              have := c14 j hj
              rw [g_upd_ne _ _ _ _ (by omega)]
              exact c15 j hj hpj
          · intro j hj hpj
            simp only at hpj ⊢
            rw [hpush, List.map_append, List.mem_append, not_or]
            by_cases he : j = A.j.g it
            · subst he; rw [g_upd_eq _ _ _ (by omega)] at hpj; omega
            · rw [g_upd_ne _ _ _ _ he] at hpj
              exact ⟨c16 j hj hpj, by simpa [Csr.ent] using he⟩
      · rw [if_neg hlt]
        have hvlt := c14 _ hjm
        have hcol := c15 _ hjm (by omega)
        obtain ⟨px, hpx⟩ : ∃ px : Nat, w.g (A.j.g it) = px := ⟨(w.g (A.j.g it)).toNat, by omega⟩
        rw [hpx] at hvlt hcol hlt ⊢
        have hpx1 : p ≤ px := by omega
        have hpx2 : px < nz := by omega
        have e1 : ((px : Int)).toNat = px := by omega
        rw [e1] at hcol
        have hsplit : D.seg p nz = D.seg p px ++ D.ent px :: D.seg (px + 1) nz := by
          rw [← D.seg_append hpx1 hpx2.le, ← D.seg_append (show px ≤ px + 1 by omega)
            (show px + 1 ≤ nz by omega), D.seg_succ (le_refl px), D.seg_self]
          simp
        by_cases hx : D.x.isSome = true
        · rw [if_pos hx]
          have hxA : A.x.isSome = true := by rw [← c10]; exact hx
          have hAV := hV hxA
          simp only [Ok_bind, Ok_idx, e1]
          refine ⟨by omega, ?_⟩
          apply rdX_room hx (c12 px (by omega))
          apply rdX_room hx (c12 it hit)
          rw [c9, hv]
          have hsm : Small q (D.val px) := by
            apply c4.small hxA (D.ent px)
            rw [hsplit]; simp
          apply add_zmod hAV.good hsm (hAV.small it hit)
          intro r hr hrv
          apply Ok_setX hx (c12 px (by omega))
          rw [Ok_ok]
          have hent' : ∀ l, l ≠ px → (D.updX px r).ent l = D.ent l := by
            intro l hl
            unfold Csr.ent
            rw [Csr.val_updX_ne _ _ _ _ hl, Csr.j_updX]
          have hentpx : (D.updX px r).ent px = (A.j.g it, r) := by
            unfold Csr.ent
            rw [Csr.val_updX_eq _ _ _ (c12 px (by omega)), Csr.j_updX, hcol, if_pos hx]
          have hsplit' : (D.updX px r).seg p nz
              = D.seg p px ++ (A.j.g it, r) :: D.seg (px + 1) nz := by
            rw [← (D.updX px r).seg_append hpx1 hpx2.le,
              ← (D.updX px r).seg_append (show px ≤ px + 1 by omega)
              (show px + 1 ≤ nz by omega), (D.updX px r).seg_succ (le_refl px), Csr.seg_self, hentpx]
            rw [Csr.seg_congr (A := D.updX px r) (B := D) (fun k _ h => hent' k (by omega)),
              Csr.seg_congr (A := D.updX px r) (B := D) (fun k h _ => hent' k (by omega))]
            simp
          have hfst : ((D.updX px r).seg p nz).map Prod.fst = (D.seg p nz).map Prod.fst := by
            rw [hsplit', hsplit]
            simp only [List.map_append, List.map_cons]
            rw [show (D.ent px).1 = A.j.g it from hcol]
          refine ⟨c1, by simp only; omega, ?_, ?_, c5, ?_, c7, c8, by simpa using c9,
            by simpa using c10, c11, ?_, c13, c14, c15, ?_⟩
          · simp only
            rw [Csr.seg_congr (A := D.updX px r) (B := D) (fun k _ h => hent' k (by omega))]
            exact c3
          · simp only
            refine ⟨by rw [hfst]; exact c4.nodup, ?_, ?_, ?_, ?_, ?_⟩
            · intro c
              rw [hfst, c4.cols c, hseg, List.map_append, List.mem_append]
              constructor
              · exact Or.inl
              · rintro (h | h)
                · exact h
                · simp only [List.map_cons, List.map_nil, List.mem_singleton] at h
                  rw [h, ← c4.cols, hsplit]
                  simp [Csr.ent, hcol]
            · intro _ j
              have hs := c4.sum hxA j
              rw [hsplit', hseg, lsum_append, lsum_append, ← hs, hsplit, lsum_append, lsum_cons,
                lsum_cons, lsum_cons, lsum_nil]
              simp only [Csr.ent, hcol]
              by_cases he : A.j.g it = j
              · simp only [he, if_true]; rw [hrv]; ring
              · simp only [he, if_false]; ring
            · intro _ e he
              rw [hsplit', List.mem_append, List.mem_cons] at he
              rcases he with he | he | he
              · exact c4.small hxA e (by rw [hsplit, List.mem_append]; exact Or.inl he)
              · subst he; exact hr.small
              · exact c4.small hxA e (by rw [hsplit, List.mem_append, List.mem_cons]; exact Or.inr (Or.inr he))
            · have := c4.len
              rw [Csr.length_seg] at this ⊢
              rw [hseg, List.length_append]; omega
            · rw [hfst, hseg, List.map_append, List.map_singleton, firsts_append, ← c4.order, if_pos]
              rw [hsplit]
              simp [Csr.ent, hcol]
          · intro k hk
            simp only
            rw [hent' k (by omega)]; exact c6 k (by omega)
          · intro k hk; simpa using c12 k hk
          · intro j hj hpj; simp only at hpj ⊢; rw [hfst]; exact c16 j hj hpj
        · rw [if_neg hx, Ok_ok]
          have hxA : ¬ A.x.isSome = true := by rw [← c10]; exact hx
          refine ⟨c1, by simp only; omega, c3, ?_, c5, fun k hk => c6 k (by omega), c7, c8, c9, c10, c11,
            c12, c13, c14, c15, c16⟩
          simp only
          refine ⟨c4.nodup, ?_, fun h => absurd h hxA, fun h => absurd h hxA, ?_, ?_⟩
          · intro c
            rw [c4.cols c, hseg, List.map_append, List.mem_append]
            constructor
            · exact Or.inl
            · rintro (h | h)
              · exact h
              · simp only [List.map_cons, List.map_nil, List.mem_singleton] at h
                rw [h, ← c4.cols, hsplit]
                simp [Csr.ent, hcol]
          · have := c4.len
            rw [hseg, List.length_append]; omega
          · rw [hseg, List.map_append, List.map_singleton, firsts_append, ← c4.order, if_pos]
            rw [hsplit]
            simp [Csr.ent, hcol]
    · rintro ⟨D, w, nz⟩ ⟨c1, c2, c3, c4, c5, c6, c7, c8, c9, c10, c11, c12, c13, c14, -, -⟩
      simp only at c1 c2 c3 c4 c5 c6 c7 c8 c9 c10 c11 c12 c13 c14
      simp only [Ok_setP, Ok_ok]
      rw [c5]
      refine ⟨by omega, ?_⟩
      set R' : Nat → List (Nat × Int) := fun k => if k = i then D.seg p nz else R k with hR'
      have hlt : ∀ k, k < i → R' k = R k := fun k hk => by
        simp only [hR']; rw [if_neg (by omega)]
      have hRi : R' i = D.seg p nz := by simp [hR']
      have hoff : ∀ k, k ≤ i → offs R' k = offs R k := by
        intro k hk; exact offs_congr (fun l hl => hlt l (by omega))
      refine ⟨R', ?_, ?_, ?_, ?_, ?_, ?_, ?_, c7, c8, c9, c10, ?_, c11, c12, c13, c14⟩
      · simp only [offs]
        rw [hoff i (le_refl _), hRi, D.length_seg]; omega
      · simp only [flat, Csr.seg_updP]
        rw [flat_congr hlt, hRi, ← c3]
        exact (D.seg_append (Nat.zero_le _) c1).symm
      · intro k hk
        simp only [Csr.p_updP, c5]
        by_cases he : k = i
        · subst he; rw [g_upd_eq _ _ _ (by omega), hoff k (le_refl _), h1]
        · rw [g_upd_ne _ _ _ _ he, hoff k (by omega)]; exact h3 k (by omega)
      · intro k hk
        simp only [Csr.p_updP, c5]
        rw [g_upd_ne _ _ _ _ (by omega)]; exact h4 k (by omega)
      · intro k hk
        simp only [Csr.ent_updP]
        exact c6 k hk
      · exact c2
      · intro k hk
        by_cases he : k = i
        · subst he; rw [hRi]; exact c4
        · rw [hlt k (by omega)]; exact h7 k (by omega)
      · simp only [Csr.p_updP, size_upd, c5]; exact h12
  · rintro ⟨B, v, nz⟩ ⟨R, h1, h2, h3, h4, h5, h6, h7, h8, h9, h10, h11, h12, h13, h14, h15, h16⟩
    simp only at h1 h2 h3 h4 h5 h6 h7 h8 h9 h10 h11 h12 h13 h14 h15 h16
    rw [Ok_bind]
    simp only [Ok_setP]
    refine ⟨by omega, ?_⟩
    have hwf := Csr.of_flat (B := B.updP A.n nz) (R := R)
      (by simp only [Csr.n_updP, Csr.p_updP, size_upd]; omega)
      (by
        intro i hi
        simp only [Csr.n_updP] at hi
        rw [Csr.p_updP]
        by_cases he : i = A.n
        · subst he; rw [g_upd_eq _ _ _ (by omega), h1]
        · rw [g_upd_ne _ _ _ _ he]; exact h3 i (by omega))
      (by simp only [Csr.n_updP, Csr.seg_updP, h8]; rw [← h1]; exact h2)
      (by simp only [Csr.n_updP, Csr.j_updP, h8, h13]; omega)
      (by
        intro a ha
        simp only [Csr.n_updP, h8]
        by_contra hc
        have := h14 (offs R A.n - 1) (by omega) a ha
        omega)
      (by
        intro i hi e he
        simp only [Csr.n_updP, h8, Csr.m_updP, h9] at hi ⊢
        have hc : e.1 ∈ (R i).map Prod.fst := List.mem_map_of_mem he
        rw [(h7 i hi).cols] at hc
        obtain ⟨e', he', hee⟩ := List.mem_map.mp hc
        rw [← hee]; exact hA.mem_row hi he')
      (by simp only [Csr.F_updP, h10]; exact hA.field_ok)
    refine (csr_realloc_spec jk hwf.1 (Or.inl (by norm_num))).mono ?_
    rintro D ⟨g1, g2, g3, g4, g5, g6, g7, g8, -, -, -⟩
    simp only [Csr.n_updP, h8, Csr.m_updP, h9, Csr.F_updP, h10, Csr.x_updP, h11] at g2 g3 g5 g6 g7 g8
    refine ⟨g1, g2, g3, g5, ?_, ?_, g8⟩
    · intro i hi
      rw [g6 i hi, hwf.2 i (by simp only [Csr.n_updP, h8]; exact hi)]
      exact h7 i hi
    · intro hpos
      rw [g4, g2] at hpos
      exact g7 (Or.inl hpos)

end Spasm
