import Verif.Proofs.Kernel

namespace Spasm

open Finset Commit

theorem bal_one {q : ℕ} (h : 2 ≤ q) : Bal q 1 := by unfold Bal; omega

/-- Sums over the pivotal columns are sums over the rows. -/
theorem Echelon.sum_piv {q : ℕ} {U : Csr} {qinv : Array Int} (h : Echelon q U qinv)
    (f : Nat → Nat → ZMod q) :
    (∑ j ∈ range U.m, if 0 ≤ qinv.g j then f (qinv.g j).toNat j else 0) =
      ∑ k ∈ range U.n, f k (U.pivot k) := by
  rw [← Finset.sum_filter, ← h.image_pivot, Finset.sum_image]
  · refine Finset.sum_congr rfl fun k hk => ?_
    rw [h.piv k (mem_range.mp hk)]; simp
  · intro a ha b hb hab
    exact h.pivot_inj (mem_range.mp ha) (mem_range.mp hb) hab

theorem rref_front_spec {m pivot : Nat} {w : Dfs} (hxs : m ≤ w.xj.size)
    (h2 : ∀ t u, w.top ≤ t → t < m → w.top ≤ u → u < m → w.xj.g t = w.xj.g u → t = u)
    (h3 : w.Pat m pivot) :
    Ok (rref_front m pivot w) (fun w' => w'.top = w.top ∧ w'.xj.size = w.xj.size ∧
      w'.pstack = w.pstack ∧ w'.marks = w.marks ∧ w'.xj.g w.top = pivot ∧
      (∀ t u, w.top ≤ t → t < m → w.top ≤ u → u < m → w'.xj.g t = w'.xj.g u → t = u) ∧
      ∀ j, w'.Pat m j ↔ w.Pat m j) := by
  obtain ⟨tp, p1, p2, p3⟩ := h3
  unfold rref_front
  rw [Ok_bind]
  refine (Ok_forBrk (I := fun px (xj : Array Nat) => xj = w.xj ∧
      ∀ t, w.top < t → t < px → w.xj.g t ≠ pivot)
    (B := fun px xj => w.xj.g px = pivot ∧ xj = (w.xj.upd px (w.xj.g w.top)).upd w.top pivot)
    (by omega) ⟨rfl, fun t h1 h2 => by omega⟩ ?_).mono ?_
  · rintro px xj h4 h5 ⟨rfl, h6⟩
    simp only [Ok_bind, Ok_rd]
    refine ⟨by omega, ?_⟩
    by_cases he : w.xj.g px = pivot
    · rw [if_pos he]
      simp only [Ok_bind, Ok_rd, Ok_wr, Ok_ok]
      exact ⟨by omega, by omega, by rw [size_upd]; omega, he, trivial⟩
    · rw [if_neg he, Ok_ok]
      refine ⟨rfl, fun t h7 h8 => ?_⟩
      by_cases ht : t = px
      · rw [ht]; exact he
      · exact h6 t h7 (by omega)
  · rintro ⟨px, xj⟩ hr
    simp only at hr
    simp only [Ok_bind, Ok_rd, Ok_cassert, Ok_ok]
    rcases hr with ⟨h4, h5, h6, rfl⟩ | ⟨-, rfl, h6⟩
    · have hpx : px = tp := h2 px tp (by omega) h5 p1 p2 (by rw [h6, p3])
      subst hpx
      have hg : ∀ t, ((w.xj.upd px (w.xj.g w.top)).upd w.top pivot).g t =
          if t = w.top then pivot else if t = px then w.xj.g w.top else w.xj.g t := by
        intro t
        by_cases e1 : t = w.top
        · rw [if_pos e1, e1, g_upd_eq _ _ _ (by rw [size_upd]; omega)]
        · rw [if_neg e1, g_upd_ne _ _ _ _ e1]
          by_cases e2 : t = px
          · rw [if_pos e2, e2, g_upd_eq _ _ _ (by omega)]
          · rw [if_neg e2, g_upd_ne _ _ _ _ e2]
      refine ⟨by rw [size_upd, size_upd]; omega, ?_, trivial, by rw [size_upd, size_upd], trivial, trivial, ?_, ?_, ?_⟩
      · rw [hg, if_pos rfl]; simp
      · rw [hg, if_pos rfl]
      · intro t u t1 t2 u1 u2 he
        rw [hg, hg] at he
        have e1 : ∀ a, w.top ≤ a → a < m → w.xj.g a = pivot → a = px :=
          fun a a1 a2 a3 => h2 a px a1 a2 (by omega) h5 (by rw [a3, h6])
        have e2 : ∀ a, w.top ≤ a → a < m → w.xj.g a = w.xj.g w.top → a = w.top :=
          fun a a1 a2 a3 => h2 a w.top a1 a2 (le_refl _) (by omega) a3
        split_ifs at he with i1 i2 i3 i4 i5 i6
        · omega
        · have := e1 _ (le_refl _) (by omega) he.symm; omega
        · have := e1 u u1 u2 he.symm; omega
        · have := e1 _ (le_refl _) (by omega) he; omega
        · omega
        · have := e2 u u1 u2 he.symm; omega
        · have := e1 t t1 t2 he; omega
        · have := e2 t t1 t2 he; omega
        · exact h2 t u t1 t2 u1 u2 he
      · intro j
        unfold Dfs.Pat
        simp only
        constructor
        · rintro ⟨t, t1, t2, rfl⟩
          rw [hg]
          split_ifs with i1 i2
          · exact ⟨px, by omega, h5, h6⟩
          · exact ⟨w.top, le_refl _, by omega, rfl⟩
          · exact ⟨t, t1, t2, rfl⟩
        · rintro ⟨t, t1, t2, rfl⟩
          by_cases i1 : t = w.top
          · exact ⟨px, by omega, h5, by rw [hg, if_neg (by omega), if_pos rfl, i1]⟩
          · by_cases i2 : t = px
            · exact ⟨w.top, le_refl _, by omega, by rw [hg, if_pos rfl, i2, h6]⟩
            · exact ⟨t, t1, t2, by rw [hg, if_neg i1, if_neg i2]⟩
    · have htp : tp = w.top := by
        by_contra hc
        exact h6 tp (by omega) p2 p3
      rw [htp] at p3 p2
      exact ⟨by omega, by simp [p3], trivial, rfl, trivial, trivial, p3, h2, fun j => Iff.rfl⟩

/-- A row of the RREF. -/
structure RrefRow (q : ℕ) (U : Csr) (qinv : Array Int) (i : Nat) (es : List (Nat × Int)) :
    Prop where
  i_lt : i < U.n
  head : ∃ tl, es = (U.pivot i, 1) :: tl
  ok : ∀ e ∈ es, e.1 < U.m ∧ (qinv.g e.1 < 0 ∨ e.1 = U.pivot i) ∧ Bal q e.2 ∧ e.2 ≠ 0
  nodup : (es.map Prod.fst).Nodup
  eq : ∃ y : Nat → ZMod q, (∀ k, k ≤ i → y k = 0) ∧ ∀ c, c < U.m →
    U.entry q i c = lsum q es c + ∑ k ∈ range U.n, y k * U.entry q k c

theorem rref_row_spec {q : ℕ} {U : Csr} {qinv : Array Int} (h : Echelon q U qinv) {i : Nat}
    (hi : i < U.n) {w : Dfs} (hw : w.Ready U.m) {x ql : Array Int} (hx : U.m ≤ x.size)
    (hqs : U.m ≤ ql.size) (hql : ∀ j, j < U.m → ql.g j = qinv.g j) :
    Ok (rref_row U i w x ql) (fun o => o.1.Ready U.m ∧ U.m ≤ o.2.1.size ∧ U.m ≤ o.2.2.1.size ∧
      (∀ j, j < U.m → o.2.2.1.g j = qinv.g j) ∧
      ∃ es, RrefRow q U qinv i es ∧ RowJob (rrefCfg U.m) o.2.2.2 es) := by
  have h2 := h.wfv.good.two_le
  have hpl := h.pivot_lt hi
  have hne := h.ne i hi
  have hle := h.wfv.toWF.row_lt hi (k := U.p.g i) hne
  have hpn := h.wfv.toWF.p_nnz
  have hps := h.wfv.toWF.p_size
  unfold rref_row
  simp only [Ok_bind, Ok_rd, Ok_cassert, Ok_wr]
  have epiv : U.j.g (U.p.g i) = U.pivot i := rfl
  rw [epiv]
  refine ⟨by omega, by omega, by omega, by rw [hql _ hpl, h.piv i hi]; simp, by omega, ?_⟩
  set ql' := ql.upd (U.pivot i) (-1) with hql'
  have hg : ∀ j, j < U.m → ql'.g j = if j = U.pivot i then -1 else qinv.g j := by
    intro j hj
    by_cases e : j = U.pivot i
    · rw [if_pos e, e, hql', g_upd_eq _ _ _ (by omega)]
    · rw [if_neg e, hql', g_upd_ne _ _ _ _ e, hql j hj]
  have hgs : ql'.size = ql.size := by rw [hql', size_upd]
  have hg0 : ∀ j, j < U.m → 0 ≤ ql'.g j → ql'.g j = qinv.g j ∧ j ≠ U.pivot i := by
    intro j hj h0
    have := hg j hj
    by_cases e : j = U.pivot i
    · rw [if_pos e] at this; omega
    · rw [if_neg e] at this; exact ⟨this, e⟩
  have hqi : QinvOk U ql' := by
    refine ⟨by omega, fun j hj => ?_⟩
    rw [hg j hj]
    have := h.lt j hj
    split <;> omega
  have hedge : ∀ a b, a < U.m → PEdge U ql' a b → PEdge U qinv a b := by
    rintro a b ha ⟨h3, h4⟩
    obtain ⟨h5, -⟩ := hg0 a ha h3
    rw [h5] at h3 h4
    exact ⟨h3, h4⟩
  have hlt' : ∀ a b, a < U.m → PEdge U ql' a b → b < U.m := by
    intro a b ha hE
    have := hqi.lt a ha
    exact h.wfv.toWF.inRow_lt (by have := hE.1; omega) hE.2
  have hac : PAcyclic U ql' := by
    intro j hj hT
    refine h.acyclic j hj ?_
    have key : ∀ a b, Relation.TransGen (fun a b => PEdge U ql' a b ∧ b ≠ a) a b → a < U.m →
        b < U.m ∧ Relation.TransGen (fun a b => PEdge U qinv a b ∧ b ≠ a) a b := by
      intro a b hab ha
      induction hab with
      | single hE => exact ⟨hlt' _ _ ha hE.1, .single ⟨hedge _ _ ha hE.1, hE.2⟩⟩
      | tail _ hE ih => exact ⟨hlt' _ _ ih.1 hE.1, ih.2.tail ⟨hedge _ _ ih.1 hE.1, hE.2⟩⟩
    exact (key j j hT hj).2
  have hunit : ∀ j, j < U.m → 0 ≤ ql'.g j → U.entry q (ql'.g j).toNat j = 1 := by
    intro j hj h0
    obtain ⟨h5, -⟩ := hg0 j hj h0
    rw [h5] at h0 ⊢
    exact h.unit j hj h0
  refine (sparse_triangular_solve_spec h.wfv h.wfv (le_refl _) hqi hac hunit hi hw (by omega)).mono ?_
  rintro ⟨w', x'⟩ ⟨a1, a2, a3, a4, a5, a6, a7, -, v, a9, a10, a11⟩
  simp only at a1 a2 a3 a4 a5 a6 a7 a9 a10 a11
  -- reachable pivotal columns belong to lower rows
  have hreach : ∀ j, w'.Pat U.m j → 0 ≤ ql'.g j → (i : Int) < ql'.g j := by
    intro j hj
    obtain ⟨j0, b1, b2⟩ := (a6 j).mp hj
    have hj0 : j0 < U.m := h.wfv.toWF.inRow_lt hi b1
    have key : ∀ b, Relation.ReflTransGen (PEdge U ql') j0 b → b < U.m ∧
        (0 ≤ ql'.g b → (i : Int) < ql'.g b) := by
      intro b hb
      induction hb with
      | refl =>
        refine ⟨hj0, fun h0 => ?_⟩
        obtain ⟨h5, h6⟩ := hg0 j0 hj0 h0
        rw [h5] at h0 ⊢
        have hlt := h.lt j0 hj0
        have hloc := h.loc j0 hj0 h0
        by_contra hc
        rcases Nat.lt_or_ge (qinv.g j0).toNat i with hh | hh
        · exact h.tri _ i hh hi (by rw [hloc]; exact b1)
        · have : (qinv.g j0).toNat = i := by omega
          rw [this] at hloc
          exact h6 hloc.symm
      | tail _ hE ih =>
        rename_i b c _
        have hc := hlt' _ _ ih.1 hE
        refine ⟨hc, fun h0 => ?_⟩
        obtain ⟨h5, h6⟩ := hg0 c hc h0
        have hb := ih.2 hE.1
        obtain ⟨h7, -⟩ := hg0 b ih.1 hE.1
        by_cases hbc : c = b
        · rw [hbc]; exact hb
        · have := h.edge_rank ih.1 (hedge _ _ ih.1 hE) hbc (by rw [← h5]; exact h0)
          omega
    exact (key j b2).2
  have hppat : w'.Pat U.m (U.pivot i) := (a6 _).mpr ⟨_, h.inRow_pivot hi, .refl⟩
  -- coefficients
  set y : Nat → ZMod q := fun k => if k ≤ i then 0 else v (U.pivot k) with hy
  have hsum : ∀ c, c < U.m → U.entry q i c = (if ql'.g c < 0 then v c else 0) +
      ∑ k ∈ range U.n, y k * U.entry q k c := by
    intro c hc
    rw [a11 c hc]
    congr 1
    rw [← h.sum_piv (fun k j => (if k ≤ i then 0 else v j) * U.entry q k c)]
    refine Finset.sum_congr rfl fun j hj => ?_
    have hj := mem_range.mp hj
    have hlt := h.lt j hj
    by_cases h0 : 0 ≤ ql'.g j
    · obtain ⟨h5, h6⟩ := hg0 j hj h0
      rw [if_pos h0, if_pos (by rw [← h5]; exact h0), h5]
      by_cases hp : w'.Pat U.m j
      · have := hreach j hp h0
        rw [if_neg (by omega)]
      · rw [a10 j hp]; simp
    · rw [if_neg h0]
      by_cases h1 : 0 ≤ qinv.g j
      · rw [if_pos h1]
        have := hg j hj
        by_cases e : j = U.pivot i
        · rw [e, h.piv i hi]; simp
        · rw [if_neg e] at this; omega
      · rw [if_neg h1]
  have hvp : v (U.pivot i) = 1 := by
    have := hsum (U.pivot i) hpl
    rw [h.entry_pivot hi, hg _ hpl, if_pos rfl, if_pos (by omega), Finset.sum_eq_zero, add_zero] at this
    · exact this.symm
    · intro k hk
      have hk := mem_range.mp hk
      simp only [hy]
      by_cases hki : k ≤ i
      · rw [if_pos hki, zero_mul]
      · rw [Csr.entry_eq_zero_of_not_inRow (h.tri i k (by omega) hk), mul_zero]
  have hxp : x'.g (U.pivot i) = 1 := by
    refine bal_unique (q := q) (a7 _ hppat) (bal_one h2) ?_
    have := a9 _ hppat
    rw [hvp] at this
    rw [← this]; norm_num
  -- pivot to the front
  refine (rref_front_spec a1.xs a5 hppat).mono ?_
  rintro w2 ⟨f1, f2, f3, f4, f5, f6, f7⟩
  have a1' : w2.Ready U.m := ⟨by rw [f2]; exact a1.xs, by rw [f3]; exact a1.ps,
    by rw [f4]; exact a1.ms, by rw [f4]; exact a1.zero⟩
  have a4' : ∀ t, w2.top ≤ t → t < U.m → w2.xj.g t < U.m := by
    intro t t1 t2
    obtain ⟨u, u1, u2, u3⟩ := (f7 _).mp ⟨t, t1, t2, rfl⟩
    rw [← u3]; exact a4 u u1 u2
  have hxs := a1'.xs
  have htop : w2.top ≤ U.m := by omega
  refine Ok_forRange_cols w2 htop (fun l s =>
      s = (l.filter fun j => decide (ql'.g j < 0 ∧ x'.g j ≠ 0)).length) rfl ?_ ?_
  · rintro px l s h1 h2 rfl
    have := a4' px h1 h2
    simp only [Ok_bind, Ok_rd]
    refine ⟨by omega, by omega, by omega, ?_⟩
    rw [List.filter_append]
    by_cases h3 : ql'.g (w2.xj.g px) < 0 ∧ x'.g (w2.xj.g px) ≠ 0
    · rw [if_pos h3, Ok_ok, List.filter_cons_of_pos (by simpa using h3)]; simp
    · rw [if_neg h3, Ok_ok, List.filter_cons_of_neg (by simpa using h3)]; simp
  rintro s rfl
  refine Ok_forRange_cols w2 htop (fun l s =>
      s = (enc (fun _ => 0) (rowIts ((l.filter fun j => decide (ql'.g j < 0 ∧ x'.g j ≠ 0)).map
        fun j => (j, x'.g j))),
        (l.filter fun j => decide (ql'.g j < 0 ∧ x'.g j ≠ 0)).length)) rfl ?_ ?_
  · rintro px l s h1 h2 rfl
    have := a4' px h1 h2
    simp only [Ok_bind, Ok_rd]
    refine ⟨by omega, by omega, by omega, ?_⟩
    rw [List.filter_append, List.map_append]
    by_cases h3 : ql'.g (w2.xj.g px) < 0 ∧ x'.g (w2.xj.g px) ≠ 0
    · rw [if_pos h3, Ok_ok, List.filter_cons_of_pos (by simpa using h3), List.filter_nil,
        List.map_singleton, enc_rowIts_append]
      simp
    · rw [if_neg h3, Ok_ok, List.filter_cons_of_neg (by simpa using h3)]; simp
  rintro s rfl
  refine ⟨by omega, ?_⟩
  refine ⟨a1', by show U.m ≤ x'.size; omega, by show U.m ≤ (ql'.upd _ _).size; rw [size_upd]; omega, ?_, ?_⟩
  · intro j hj
    show (ql'.upd _ _).g j = _
    by_cases e : j = U.pivot i
    · rw [e, g_upd_eq _ _ _ (by omega), h.piv i hi]
    · rw [g_upd_ne _ _ _ _ e, hg j hj, if_neg e]
  set l := w2.list U.m with hl
  have hnd : l.Nodup := Dfs.list_nodup (by rw [f1]; exact f6)
  have hlen : l.length ≤ U.m := by rw [hl, Dfs.length_list]; omega
  have hlm : ∀ j ∈ l, j < U.m ∧ w'.Pat U.m j := by
    intro j hj
    rw [hl, Dfs.mem_list] at hj
    refine ⟨?_, (f7 j).mp hj⟩
    obtain ⟨t, h1, h2, rfl⟩ := hj
    exact a4' t h1 h2
  refine ⟨(l.filter fun j => decide (ql'.g j < 0 ∧ x'.g j ≠ 0)).map fun j => (j, x'.g j),
    ⟨hi, ?_, ?_, ?_, y, ?_, ?_⟩, rfl, ?_, ?_, ?_⟩
  · have htl : w2.top < U.m := by
      obtain ⟨t, t1, t2, -⟩ := hppat
      omega
    have e1 : U.m - w2.top = (U.m - w2.top - 1) + 1 := by omega
    rw [hl, Dfs.list, e1, List.range'_succ, List.map_cons, f1, f5]
    rw [List.filter_cons_of_pos]
    · rw [List.map_cons, hxp]; exact ⟨_, rfl⟩
    · rw [hg _ hpl, if_pos rfl, hxp]; decide
  · intro e he
    rw [List.mem_map] at he
    obtain ⟨j, hj, rfl⟩ := he
    rw [List.mem_filter] at hj
    have h3 := of_decide_eq_true hj.2
    obtain ⟨h4, h5⟩ := hlm j hj.1
    refine ⟨h4, ?_, a7 j h5, h3.2⟩
    have := hg j h4
    by_cases e : j = U.pivot i
    · exact .inr e
    · rw [if_neg e] at this; left; simp only; omega
  · rw [List.map_map]
    have : (Prod.fst ∘ fun j => (j, x'.g j)) = id := rfl
    rw [this, List.map_id]
    exact hnd.filter _
  · intro k hk; simp only [hy]; rw [if_pos hk]
  · intro c hc
    rw [hsum c hc, lsum_map_self _ _ _ (hnd.filter _)]
    congr 1
    by_cases h1 : ql'.g c < 0
    · rw [if_pos h1]
      by_cases h2 : w'.Pat U.m c
      · by_cases h3 : x'.g c = 0
        · rw [a9 c h2, h3]; simp
        · rw [a9 c h2, if_pos]
          rw [List.mem_filter]
          exact ⟨Dfs.mem_list.mpr ((f7 c).mpr h2), by simp [h1, h3]⟩
      · rw [a10 c h2, if_neg]
        rw [List.mem_filter]
        exact fun h => h2 (hlm c h.1).2
    · rw [if_neg h1, if_neg]
      rw [List.mem_filter]
      intro h
      exact h1 (of_decide_eq_true h.2).1
  · show _ = _
    rw [List.length_map]
  · rw [List.length_map]
    exact (List.length_filter_le _ _).trans hlen
  · intro k
    have := (List.length_filter_le (fun j => decide (ql'.g j < 0 ∧ x'.g j ≠ 0)) l).trans hlen
    rw [List.length_map]
    show _ ≤ 2 * k + U.m
    omega

theorem rref_rows_spec {q : ℕ} {U : Csr} {qinv : Array Int} (h : Echelon q U qinv) :
    ∀ is : List Nat, (∀ i ∈ is, i < U.n) → ∀ (w : Dfs) (x ql : Array Int), w.Ready U.m →
    U.m ≤ x.size → U.m ≤ ql.size → (∀ j, j < U.m → ql.g j = qinv.g j) →
    Ok (rref_rows U is w x ql) (fun jobs => List.Forall₂ (fun i job =>
      ∃ es, RrefRow q U qinv i es ∧ RowJob (rrefCfg U.m) job es) is jobs) := by
  intro is
  induction is with
  | nil => intro _ w x ql _ _ _ _; simp [rref_rows]
  | cons i is ih =>
    intro his w x ql hw hx hqs hql
    simp only [rref_rows, Ok_bind]
    refine (rref_row_spec h (his i (by simp)) hw hx hqs hql).mono ?_
    rintro ⟨w', x', ql', job⟩ ⟨h1, h2, h3, h4, h5⟩
    refine (ih (fun k hk => his k (by simp [hk])) w' x' ql' h1 h2 h3 h4).mono ?_
    intro jobs hj
    exact .cons h5 hj

theorem rref_thread_spec (jk : Junk) {q : ℕ} {U : Csr} {qinv : Array Int} (h : Echelon q U qinv)
    (is : List Nat) (his : ∀ i ∈ is, i < U.n) :
    Ok (rref_thread jk U qinv is) (fun jobs => List.Forall₂ (fun i job =>
      ∃ es, RrefRow q U qinv i es ∧ RowJob (rrefCfg U.m) job es) is jobs) := by
  unfold rref_thread
  have hs := h.size
  simp only [Ok_bind]
  refine Ok_forRange_imp (I := fun j (a : Array Int) => a.size = U.m ∧
      ∀ k, k < j → a.g k = qinv.g k) (Nat.zero_le _) ⟨by simp, fun k h => by omega⟩ ?_ ?_
  · rintro j a - hj ⟨h1, h2⟩
    simp only [Ok_bind, Ok_rd, Ok_wr]
    refine ⟨by omega, by omega, by simpa using h1, ?_⟩
    intro k hk
    by_cases e : k = j
    · rw [e, g_upd_eq _ _ _ (by omega)]
    · rw [g_upd_ne _ _ _ _ e]; exact h2 k (by omega)
  · rintro a ⟨h1, h2⟩
    exact rref_rows_spec h is his _ _ _
      ⟨by simp, by simp, by simp, fun j hj => by rw [g_mkArr _ _ _ hj]⟩ (by simp) (by omega) h2

theorem Csr.row_head {R : Csr} {k : Nat} {e : Nat × Int} {tl : List (Nat × Int)}
    (h : R.row k = e :: tl) : R.p.g k < R.p.g (k + 1) ∧ R.ent (R.p.g k) = e := by
  have hl : 0 < R.p.g (k + 1) - R.p.g k := by
    have : (R.row k).length = R.p.g (k + 1) - R.p.g k := by simp [Csr.row, Csr.seg]
    rw [h, List.length_cons] at this
    omega
  refine ⟨by omega, ?_⟩
  unfold Csr.row Csr.seg at h
  obtain ⟨d, hd⟩ : ∃ d, R.p.g (k + 1) - R.p.g k = d + 1 := ⟨_, (Nat.succ_pred_eq_of_pos hl).symm⟩
  rw [hd, List.range'_succ, List.map_cons] at h
  exact (List.cons.inj h).1

theorem rref_qinv_spec {R : Csr} {rq : Array Int} (hR : R.WF)
    (hne : ∀ i, i < R.n → R.p.g i < R.p.g (i + 1))
    (hinj : ∀ i k, i < R.n → k < R.n → R.pivot i = R.pivot k → i = k) (hs : R.m ≤ rq.size) :
    Ok (rref_qinv R rq) (fun a => a.size = rq.size ∧
      (∀ i, i < R.n → a.g (R.pivot i) = (i : Int)) ∧
      ∀ j, j < R.m → a.g j = -1 ∨ ∃ i, i < R.n ∧ R.pivot i = j ∧ a.g j = (i : Int)) := by
  unfold rref_qinv
  rw [Ok_bind]
  refine Ok_forRange_imp (I := fun j (a : Array Int) => a.size = rq.size ∧
      ∀ k, k < j → a.g k = -1) (Nat.zero_le _) ⟨rfl, fun k h => by omega⟩ ?_ ?_
  · rintro j a - hj ⟨h1, h2⟩
    simp only [Ok_wr]
    refine ⟨by omega, by simpa using h1, ?_⟩
    intro k hk
    by_cases e : k = j
    · rw [e, g_upd_eq _ _ _ (by omega)]
    · rw [g_upd_ne _ _ _ _ e]; exact h2 k (by omega)
  rintro a ⟨h1, h2⟩
  refine Ok_forRange_imp (I := fun i (a : Array Int) => a.size = rq.size ∧
      (∀ k, k < i → a.g (R.pivot k) = (k : Int)) ∧
      ∀ j, j < R.m → a.g j = -1 ∨ ∃ k, k < i ∧ R.pivot k = j ∧ a.g j = (k : Int)) (Nat.zero_le _)
    ⟨h1, fun k h => by omega, fun j hj => .inl (h2 j hj)⟩ ?_ (fun s h => h)
  rintro i a - hi ⟨b1, b2, b3⟩
  have hps := hR.p_size
  have hlt := hR.row_lt hi (hne i hi)
  have hnz := hR.p_nnz
  have hpm : R.pivot i < R.m := hR.j_lt _ hlt
  have epiv : R.j.g (R.p.g i) = R.pivot i := rfl
  simp only [Ok_bind, Ok_rd, Ok_wr]
  rw [epiv]
  refine ⟨by omega, by omega, by omega, by simpa using b1, ?_, ?_⟩
  · intro k hk
    by_cases e : k = i
    · rw [e, g_upd_eq _ _ _ (by omega)]
    · rw [g_upd_ne _ _ _ _ (fun e' => e (hinj k i (by omega) hi e'))]
      exact b2 k (by omega)
  · intro j hj
    by_cases e : j = R.pivot i
    · right
      exact ⟨i, by omega, e.symm, by rw [e, g_upd_eq _ _ _ (by omega)]⟩
    · rw [g_upd_ne _ _ _ _ e]
      rcases b3 j hj with h | ⟨k, k1, k2, k3⟩
      · exact .inl h
      · exact .inr ⟨k, by omega, k2, k3⟩

/-- The result of the parallel construction. -/
theorem rref_final (jk : Junk) {q : ℕ} {U : Csr} {qinv rq : Array Int} (h : Echelon q U qinv)
    (hrq : U.m ≤ rq.size)
    {T : Nat} {rows : Fin T → List Nat} (hc : ∑ t, (rows t : Multiset Nat) = Multiset.range U.n)
    {jobs : Fin T → List Job} (hjobs : ∀ t, List.Forall₂ (fun i job =>
      ∃ es, RrefRow q U qinv i es ∧ RowJob (rrefCfg U.m) job es) (rows t) (jobs t))
    {R0 : Csr} {size : Nat} (hR0 : Fresh R0 U.n U.m size U.F.p true) (hF : R0.F.Good q)
    {s : St T} (hr : Reach (rrefCfg U.m) jk.int (rows_init R0 U.n jobs) s) (hf : s.Finished) :
    Ok (rref_qinv (s.toCsr R0.n R0.m R0.F) rq) (fun a => a.size = rq.size ∧
      IsRref q U (s.toCsr R0.n R0.m R0.F) a ∧ ∀ j, j < U.m → (0 ≤ a.g j ↔ 0 ≤ qinv.g j)) := by
  have hcard : Multiset.card (∑ t, (rows t : Multiset Nat)) = U.n := by
    rw [hc, Multiset.card_range]
  obtain ⟨σ, E, hσ, hσl, hP, hwf, hrow⟩ := rows_final (cfg := rrefCfg U.m) rfl rfl hjobs hcard
    (le_refl _) hR0 h.wfv.field_ok (fun i es hk e he => (hk.ok e he).1) hr hf
  set R := s.toCsr R0.n R0.m R0.F with hR
  have hRn : R.n = U.n := hR0.n_eq
  have hRm : R.m = U.m := hR0.m_eq
  rw [hc] at hσ
  have hnd : σ.Nodup := by
    have : (σ : Multiset Nat).Nodup := by rw [hσ]; exact Multiset.nodup_range _
    exact this
  set f : Nat → Nat := fun k => σ.getD k 0 with hf'
  have hfl : ∀ k, k < U.n → f k < U.n := fun k hk => (hP k hk).i_lt
  have hfi : ∀ k l, k < U.n → l < U.n → f k = f l → k = l := by
    intro k l hk hl he
    simp only [hf'] at he
    rw [getD_lt _ _ (by omega), getD_lt _ _ (by omega)] at he
    exact (List.Nodup.getElem_inj_iff hnd).mp he
  have hent : ∀ k, k < U.n → ∀ c, R.entry q k c = lsum q (E k) c := by
    intro k hk c
    rw [R.entry_eq_lsum, hrow k (by omega)]
  have hhead : ∀ k, k < U.n → R.p.g k < R.p.g (k + 1) ∧ R.pivot k = U.pivot (f k) ∧
      R.val (R.p.g k) = 1 := by
    intro k hk
    obtain ⟨tl, htl⟩ := (hP k hk).head
    rw [← hrow k hk] at htl
    obtain ⟨h1, h2⟩ := Csr.row_head htl
    exact ⟨h1, congrArg Prod.fst h2, congrArg Prod.snd h2⟩
  have hRnd : R.NoDup := by
    rw [nodup_row_iff]
    intro k hk
    rw [hrow k (by omega)]
    exact (hP k (by omega)).nodup
  have hred : ∀ i k, i < R.n → k < R.n → i ≠ k → ¬ R.InRow k (R.pivot i) := by
    intro i k hi hk hne hin
    rw [hRn] at hi hk
    rw [Csr.inRow_iff, hrow k hk, (hhead i hi).2.1] at hin
    obtain ⟨e, he, he'⟩ := hin
    rcases ((hP k hk).ok e he).2.1 with h1 | h1
    · rw [he', h.piv _ (hfl i hi)] at h1; omega
    · rw [he'] at h1
      exact hne (hfi i k hi hk (h.pivot_inj (hfl i hi) (hfl k hk) h1))
  have hne : ∀ i, i < R.n → R.p.g i < R.p.g (i + 1) := fun i hi => (hhead i (by omega)).1
  refine (rref_qinv_spec hwf hne ?_ (by omega)).mono ?_
  · intro i k hi hk he
    rw [hRn] at hi hk
    rw [(hhead i hi).2.1, (hhead k hk).2.1] at he
    exact hfi i k hi hk (h.pivot_inj (hfl i hi) (hfl k hk) he)
  rintro a ⟨a1, a2, a3⟩
  have hsurj : ∀ i, i < U.n → ∃ k, k < U.n ∧ f k = i := by
    intro i hi
    have hmem : i ∈ (σ : Multiset Nat) := by rw [hσ]; exact Multiset.mem_range.mpr hi
    obtain ⟨k, hk, hki⟩ := List.getElem_of_mem (Multiset.mem_coe.mp hmem)
    exact ⟨k, by omega, by simp only [hf']; rw [getD_lt _ _ hk, hki]⟩
  refine ⟨a1, ⟨⟨?_, by omega, ?_, ?_, hne, a2, ?_, ?_, ?_, ?_⟩, hRn, hRm, hRnd, ?_, hred, ?_, ?_⟩, ?_⟩
  · refine hwf.toWFV hF (fun _ => rfl) ?_
    intro k hk e he
    rw [hrow k (by omega)] at he
    exact ((hP k (by omega)).ok e he).2.2.1.small
  · intro j hj
    rcases a3 j hj with h1 | ⟨k, -, -, h1⟩ <;> omega
  · intro j hj
    rcases a3 j hj with h1 | ⟨k, h2, -, h1⟩ <;> omega
  · intro j hj h0
    rcases a3 j hj with h1 | ⟨k, -, h2, h1⟩
    · omega
    · rw [h1]; exact h2
  · intro i hi; exact (hhead i (by omega)).2.2
  · intro i hi k h1 h2 he
    have := hRnd i hi k (R.p.g i) (by omega) h2 (le_refl _) (hne i hi) he
    omega
  · intro i k hik hk
    exact hred i k (by omega) hk (by omega)
  · rw [noZero_iff hwf]
    intro k hk e he
    rw [hrow k (by omega)] at he
    exact ((hP k (by omega)).ok e he).2.2.2
  · intro k hk
    rw [hRn] at hk
    obtain ⟨y, -, hy⟩ := (hP k hk).eq
    have e1 : InSpan q U (fun c => U.entry q (f k) c - ∑ t ∈ range U.n, y t * U.entry q t c) := by
      refine (InSpan.row (hfl k hk)).sub (InSpan.sum _ _ fun t ht => ?_)
      exact (InSpan.row (mem_range.mp ht)).smul (y t)
    refine e1.congr ?_
    intro c hc
    rw [hent k hk c, hy c hc]; ring
  · -- descending induction
    have key : ∀ d i, i < U.n → i + d + 1 = U.n → InSpan q R (U.entry q i) := by
      intro d
      induction d using Nat.strong_induction_on with
      | _ d ih =>
        intro i hi hd
        obtain ⟨k, hk', hfk⟩ := hsurj i hi
        obtain ⟨y, hy0, hy⟩ := (hP k hk').eq
        have e0 : σ.getD k 0 = i := hfk
        rw [e0] at hy hy0
        have e1 : InSpan q R (fun c => R.entry q k c + ∑ t ∈ range U.n, y t * U.entry q t c) := by
          refine (InSpan.row (by omega)).add (InSpan.sum _ _ fun t ht => ?_)
          have ht := mem_range.mp ht
          by_cases hti : t ≤ i
          · rw [hy0 t hti]
            refine InSpan.zero.congr ?_
            intro c _; simp
          · exact (ih (U.n - t - 1) (by omega) t ht (by omega)).smul (y t)
        refine e1.congr ?_
        intro c hc
        rw [hent k hk' c, hy c (by omega)]
    intro i hi
    exact key (U.n - i - 1) i hi (by omega)
  · intro j hj
    constructor
    · intro h0
      rcases a3 j (by omega) with h1 | ⟨k, h2, h3, -⟩
      · omega
      · rw [← h3, (hhead k (by omega)).2.1, h.piv _ (hfl k (by omega))]; omega
    · intro h0
      have hlt := h.lt j hj
      obtain ⟨k, hk, hki⟩ := hsurj (qinv.g j).toNat (by omega)
      have h1 := a2 k (by omega)
      rw [(hhead k hk).2.1, hki, h.loc j hj h0] at h1
      omega

end Spasm
