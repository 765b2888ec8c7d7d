import Verif.Spec.Ffpack
import Verif.Proofs.DenseRand
import Verif.Proofs.Steps

/-
Rows of a dense echelon form are added to `U`.
-/

namespace Spasm

open Finset

/-- `i` rows have been added to `U`, with pivots on the columns `cols 0, ..., cols (i - 1)`; the vectors
are `row 0, ..., row (i - 1)`. -/
structure DenseGrow (q : ℕ) (U : Csr) (qinv : Array Int) (cols : Nat → Nat) (row : Nat → Nat → ZMod q)
    (i : Nat) (V : Csr) (unz : Nat) (qi : Array Int) : Prop where
  ech : Echelon q V qi
  grow : Grow V V unz []
  n_eq : V.n = U.n + i
  m_eq : V.m = U.m
  F_eq : V.F = U.F
  psize : V.p.size = U.p.size
  old : ∀ t, t < U.n → V.entry q t = U.entry q t
  pold : ∀ t, t < U.n → V.pivot t = U.pivot t
  new : ∀ t, t < i → V.entry q (U.n + t) = row t
  pnew : ∀ t, t < i → V.pivot (U.n + t) = cols t
  qsize : qi.size = qinv.size
  qnew : ∀ t, t < i → qi.g (cols t) = ((U.n + t : Nat) : Int)
  qold : ∀ c, (∀ t, t < i → cols t ≠ c) → qi.g c = qinv.g c
  nodup : U.NoDup → V.NoDup

/-- The columns that can receive pivots. -/
structure ColsOk (U : Csr) (qinv : Array Int) (cols : Nat → Nat) (Sm : Nat) : Prop where
  lt : ∀ t, t < Sm → cols t < U.m
  neg : ∀ t, t < Sm → qinv.g (cols t) < 0
  inj : ∀ s t, s < Sm → t < Sm → cols s = cols t → s = t

theorem IsQ.cols {U : Csr} {qinv : Array Int} {Sm : Nat} {qa Q : Array Nat}
    (h : IsQ qinv U.m Sm qa) (hQ : IsPerm Q.g Sm) : ColsOk U qinv (fun t => qa.g (Q.g t)) Sm where
  lt := fun _ ht => h.lt _ (hQ.1 _ ht)
  neg := fun _ ht => h.neg _ (hQ.1 _ ht)
  inj := fun _ _ hs ht e => hQ.2 _ _ hs ht (h.inj (hQ.1 _ hs) (hQ.1 _ ht) e)

/-- One more row is complete. -/
theorem DenseGrow.step {q : ℕ} {U : Csr} {qinv : Array Int} {cols : Nat → Nat}
    {row : Nat → Nat → ZMod q} {i Sm : Nat} {V : Csr} {unz : Nat} {qi : Array Int}
    (h : DenseGrow q U qinv cols row i V unz qi) (hc : ColsOk U qinv cols Sm) (hi : i < Sm)
    (hps : U.n + i + 1 < U.p.size) {W : Csr} {unz' : Nat} {l : List (Nat × Int)}
    (hW : Grow V W unz' ((cols i, 1) :: l))
    (hl : ∀ e ∈ l, Small q e.2 ∧ ∃ k, i < k ∧ k < Sm ∧ e.1 = cols k)
    (hcl : (l.map Prod.fst).Nodup)
    (hrow : ∀ c, row i c = (if cols i = c then 1 else 0) + lsum q l c)
    {W' : Csr} (hW' : W' = ({ W with n := W.n + 1 }.updP (W.n + 1) unz')) :
    DenseGrow q U qinv cols row (i + 1) W' unz' (qi.upd (cols i) (V.n : Int)) := by
  have hn := h.n_eq
  have hm := h.m_eq
  have hqs := h.ech.size
  have hps' : V.n + 1 < V.p.size := by rw [h.psize]; omega
  have hci := hc.lt i hi
  have hfree : ∀ k, i ≤ k → k < Sm → qi.g (cols k) < 0 := by
    intro k hk hkS
    rw [h.qold (cols k) (fun t ht e => by have := hc.inj t k (by omega) hkS e; omega)]
    exact hc.neg k hkS
  obtain ⟨hE, hG⟩ := h.ech.grow hW hps' (by omega) (hfree i (le_refl _) hi) (by
    intro e he
    obtain ⟨h1, k, h2, h3, h4⟩ := hl e he
    rw [h4]
    refine ⟨by rw [hm]; exact hc.lt k h3, h1, hfree k (by omega) h3, ?_⟩
    intro e; have := hc.inj k i h3 hi e; omega) hW'
  obtain ⟨a1, a2, a3, a4, a5, a6, a7, a8, a9, a10, a11⟩ := hW.ents h.ech.wfv.toWF hW' hps'
  obtain ⟨b1, b2⟩ := hW.entries h.ech.wfv.toWF hW' hps' q
  have hpv : ∀ t, t < V.n → W'.pivot t = V.pivot t := by
    intro t ht
    have h1 := (h.ech.wfv.toWF.row_le ht).2
    have h2 := h.ech.ne t ht
    unfold Csr.pivot
    rw [a7 t (by omega)]
    exact congrArg Prod.fst (a9 _ (by omega))
  refine ⟨hE, hG, by omega, by omega, by rw [a3, h.F_eq], by rw [a4, h.psize], ?_, ?_, ?_, ?_, ?_, ?_, ?_, ?_⟩
  · intro t ht; rw [b1 t (by omega), h.old t ht]
  · intro t ht; rw [hpv t (by omega), h.pold t ht]
  · intro t ht
    by_cases e : t = i
    · subst e
      ext c
      rw [← hn, b2 c, lsum_cons, hrow c]
      simp
    · rw [b1 _ (by omega), h.new t (by omega)]
  · intro t ht
    by_cases e : t = i
    · subst e
      have := hE.loc (cols t) (by omega) (by rw [g_upd_eq _ _ _ (by omega)]; omega)
      rw [g_upd_eq _ _ _ (by omega), Int.toNat_natCast] at this
      rw [← hn]; exact this
    · rw [hpv _ (by omega), h.pnew t (by omega)]
  · rw [size_upd, h.qsize]
  · intro t ht
    by_cases e : t = i
    · subst e
      rw [g_upd_eq _ _ _ (by omega), hn]
    · rw [g_upd_ne _ _ _ _ (fun e' => e (hc.inj t i (by omega) hi e')), h.qnew t (by omega)]
  · intro c hcc
    rw [g_upd_ne _ _ _ _ (fun e => hcc i (by omega) e.symm)]
    exact h.qold c fun t ht => hcc t (by omega)
  · intro hU
    refine (h.nodup hU).grow hW h.ech.wfv.toWF hW' hps' ?_
    rw [List.map_cons, List.nodup_cons]
    refine ⟨fun hmem => ?_, hcl⟩
    obtain ⟨e, he, e'⟩ := List.mem_map.mp hmem
    obtain ⟨-, k, h2, h3, h4⟩ := hl e he
    simp only at e'
    rw [h4] at e'
    have := hc.inj k i h3 hi e'
    omega

theorem DenseGrow.refl {q : ℕ} {U : Csr} {qinv : Array Int} (hE : Echelon q U qinv)
    {cols : Nat → Nat} {row : Nat → Nat → ZMod q} {V : Csr} {unz : Nat} (h : Grow U V unz []) :
    DenseGrow q U qinv cols row 0 V unz qinv where
  ech := hE.of_grow h
  grow := by
    have hu : unz = U.p.g U.n := by simpa using h.unz_eq
    have h2 := Grow.refl (hE.of_grow h).wfv.toWF h.x_some h.x_size
    rw [h.n_eq, h.p_eq _ (le_refl _), ← hu] at h2
    exact h2
  n_eq := h.n_eq
  m_eq := h.m_eq
  F_eq := h.F_eq
  psize := h.psize
  old := fun t ht => h.entry_eq hE.wfv.toWF q ht
  pold := fun t ht => h.pivot_eq hE ht
  new := fun t ht => by omega
  pnew := fun t ht => by omega
  qsize := rfl
  qnew := fun t ht => by omega
  qold := fun _ _ => rfl
  nodup := fun hU => hU.of_grow h hE.wfv.toWF

/-- Reading a cell. -/
theorem Ok_datatype_read {q : ℕ} (h2 : q ≤ 0xfffffffb) {S : Array ℚ} {k : Nat} (hk : k < S.size)
    (dt : Datatype) {v : Int} (hv : Bal q v) (he : S.g k = (v : ℚ)) {Q : Int → Prop} (hQ : Q v) :
    Ok (datatype_read S k dt) Q := by
  have hb : -2 ^ 31 ≤ v ∧ v < 2 ^ 31 := by
    have := hv.small.1; have := hv.small.2; omega
  unfold datatype_read
  rw [Ok_bind, Ok_rd]
  refine ⟨hk, ?_⟩
  rw [he]
  cases dt with
  | double =>
    change Ok (i32 (truncQ (v : ℚ))) Q
    rw [truncQ_int, i32, if_pos hb]; exact (Ok_ok _ _).2 hQ
  | float =>
    change Ok (i32 (truncQ (v : ℚ))) Q
    rw [truncQ_int, i32, if_pos hb]; exact (Ok_ok _ _).2 hQ
  | i64 =>
    change Ok (Except.ok (toI32 (v : ℚ).num)) Q
    rw [Rat.num_intCast, toI32, Int.bmod_eq_of_le (by omega) (by omega)]; exact (Ok_ok _ _).2 hQ

/-- Vectors on a subset of the columns. -/
theorem lsum_cells {q : ℕ} (cols : Nat → Nat) (w : Nat → Int) (lo : Nat) (c : Nat) (l : List (Nat × Int))
    (K : Nat) (h : lo ≤ K)
    (hl : lsum q l c = ∑ k ∈ Ico lo K, if cols k = c then (w k : ZMod q) else 0) :
    lsum q (l ++ [(cols K, w K)]) c = ∑ k ∈ Ico lo (K + 1), if cols k = c then (w k : ZMod q) else 0 := by
  rw [lsum_append, hl, Finset.sum_Ico_succ_top h, lsum_cons, lsum_nil, add_zero]

/-- The entries of a row other than its pivot. -/
theorem dense_rref_rest_spec {q : ℕ} (hq : q ≤ 0xfffffffb) {rr Sm : Nat} {S : Array ℚ} (dt : Datatype)
    {Q qa : Array Nat} {i : Nat} {w : Nat → Int} (hrr : rr ≤ Sm) (hQs : Sm ≤ Q.size)
    (hQ : ∀ k, k < Sm → Q.g k < qa.size)
    (hinj : ∀ s t, s < Sm → t < Sm → qa.g (Q.g s) = qa.g (Q.g t) → s = t)
    (hS : ∀ k, rr ≤ k → k < Sm → i * Sm + k < S.size ∧ S.g (i * Sm + k) = (w k : ℚ) ∧ Bal q (w k))
    {V U : Csr} {unz : Nat} {e0 : Nat × Int} (hG : Grow V U unz [e0]) (hsz : unz + (Sm - rr) ≤ U.j.size) :
    Ok (dense_rref_rest rr Sm S dt Q qa i U unz) (fun s => ∃ l, Grow V s.1 s.2 (e0 :: l) ∧
      s.1.j.size = U.j.size ∧ s.2 ≤ unz + (Sm - rr) ∧
      (∀ e ∈ l, Small q e.2 ∧ ∃ k, rr ≤ k ∧ k < Sm ∧ e.1 = qa.g (Q.g k)) ∧
      (∀ c, lsum q l c = ∑ k ∈ Ico rr Sm, if qa.g (Q.g k) = c then (w k : ZMod q) else 0) ∧
      (l.map Prod.fst).Nodup ∧ ∀ e ∈ l, e.2 ≠ 0) := by
  unfold dense_rref_rest
  refine Ok_forRange_imp (I := fun K (s : Csr × Nat) => ∃ l, Grow V s.1 s.2 (e0 :: l) ∧
      s.1.j.size = U.j.size ∧ s.2 ≤ unz + (K - rr) ∧
      (∀ e ∈ l, Small q e.2 ∧ ∃ k, rr ≤ k ∧ k < K ∧ e.1 = qa.g (Q.g k)) ∧
      (∀ c, lsum q l c = ∑ k ∈ Ico rr K, if qa.g (Q.g k) = c then (w k : ZMod q) else 0) ∧
      (l.map Prod.fst).Nodup ∧ ∀ e ∈ l, e.2 ≠ 0) hrr ?_ ?_ ?_
  · exact ⟨[], hG, rfl, by simp, by simp, by simp [lsum_nil], by simp, by simp⟩
  · rintro K ⟨W, u⟩ hK1 hK2 ⟨l, h1, h2, h3, h4, h5, h6, h7⟩
    simp only at h1 h2 h3 h4 h5
    obtain ⟨s1, s2, s3⟩ := hS K hK1 hK2
    rw [Ok_bind, Ok_rd]
    refine ⟨by omega, ?_⟩
    rw [Ok_bind]
    refine Ok_datatype_read hq s1 dt s3 s2 ?_
    by_cases hz : w K = 0
    · rw [if_pos hz, Ok_ok]
      refine ⟨l, h1, h2, by simp only; omega, ?_, ?_, h6, h7⟩
      · intro e he
        obtain ⟨g1, k, g2, g3, g4⟩ := h4 e he
        exact ⟨g1, k, g2, by omega, g4⟩
      · intro c
        rw [h5 c, Finset.sum_Ico_succ_top hK1, hz]
        simp
    · rw [if_neg hz]
      simp only [Ok_bind, Ok_rd, Ok_setJ]
      have hu : u < W.j.size := by omega
      refine ⟨hQ K hK2, hu, ?_⟩
      refine Ok_setX (by exact h1.x_some) (h1.room hu) ?_
      rw [Ok_ok]
      refine ⟨l ++ [(qa.g (Q.g K), w K)], h1.push hu _ _, ?_, by simp only; omega, ?_, ?_, ?_, ?_⟩
      · simp only [Csr.j_updX, Csr.j_updJ, size_upd]; exact h2
      · intro e he
        rw [List.mem_append, List.mem_singleton] at he
        rcases he with he | rfl
        · obtain ⟨g1, k, g2, g3, g4⟩ := h4 e he
          exact ⟨g1, k, g2, by omega, g4⟩
        · exact ⟨s3.small, K, hK1, by omega, rfl⟩
      · intro c
        exact lsum_cells (fun k => qa.g (Q.g k)) w rr c l K hK1 (h5 c)
      · rw [List.map_append]
        refine List.Nodup.append h6 (by simp) ?_
        intro c hc1 hc2
        obtain ⟨e, he, rfl⟩ := List.mem_map.mp hc1
        simp only [List.map_cons, List.map_nil, List.mem_singleton] at hc2
        obtain ⟨-, k, g2, g3, g4⟩ := h4 e he
        rw [g4] at hc2
        have := hinj k K (by omega) hK2 hc2
        omega
      · intro e he
        rw [List.mem_append, List.mem_singleton] at he
        rcases he with he | rfl
        · exact h7 e he
        · exact hz
  · rintro s hs
    exact hs

/-- `qa` takes coordinates on the columns without pivot to vectors. -/
theorem onCols_perm {q : ℕ} {Sm : Nat} {qa Q : Array Nat}
    (hQ : IsPerm Q.g Sm) (f : Nat → ZMod q) (c : Nat) :
    onCols qa Sm (onCols Q Sm f) c = ∑ k ∈ range Sm, if qa.g (Q.g k) = c then f k else 0 := by
  unfold onCols
  have : ∀ t ∈ range Sm, (if qa.g t = c then ∑ k ∈ range Sm, (if Q.g k = t then f k else 0) else 0) =
      ∑ k ∈ range Sm, if Q.g k = t ∧ qa.g t = c then f k else 0 := by
    intro t ht
    by_cases e : qa.g t = c
    · simp [e]
    · simp [e]
  rw [Finset.sum_congr rfl this, Finset.sum_comm]
  refine Finset.sum_congr rfl fun k hk => ?_
  rw [Finset.sum_eq_single (Q.g k)]
  · simp
  · intro t _ ht
    rw [if_neg]
    rintro ⟨e, -⟩; exact ht e.symm
  · intro hn
    exact absurd (mem_range.mpr (hQ.1 k (mem_range.mp hk))) hn

theorem sum_range_split {q : ℕ} (cols : Nat → Nat) (f : Nat → ZMod q) {r Sm i : Nat} (hr : r ≤ Sm)
    (hi : i < r) (c : Nat) :
    (∑ k ∈ range Sm, if cols k = c then (if k < r then (if k = i then 1 else 0) else f k) else 0) =
      (if cols i = c then 1 else 0) + ∑ k ∈ Ico r Sm, if cols k = c then f k else 0 := by
  rw [← Finset.sum_range_add_sum_Ico _ hr]
  congr 1
  · rw [Finset.sum_eq_single i]
    · simp [hi]
    · intro k hk hne
      simp [mem_range.mp hk, hne]
    · intro hn; exact absurd (mem_range.mpr hi) hn
  · refine Finset.sum_congr rfl fun k hk => ?_
    have := (mem_Ico.mp hk).1
    simp [show ¬ k < r by omega]

theorem dense_rref_row_spec {q : ℕ} (hq : q ≤ 0xfffffffb) {U : Csr} {qinv : Array Int} {n rr Sm : Nat}
    {S : Array ℚ} (dt : Datatype) {Q qa : Array Nat} {w0 w : Nat → Nat → Int}
    (hR : DenseRref q n Sm w0 rr w Q) (hC : Cells n Sm S w) (hqa : IsQ qinv U.m Sm qa)
    (hps : U.n + rr < U.p.size) {i : Nat} (hi : i < rr) {V : Csr} {unz : Nat} {qi : Array Int}
    (h : DenseGrow q U qinv (fun t => qa.g (Q.g t)) (fun t => onCols qa Sm (denseRrefRow q Sm rr Q w t))
      i V unz qi) (hsz : unz + (1 + Sm - rr) ≤ V.j.size) :
    Ok (dense_rref_row rr Sm S dt Q qa i (V, unz, qi)) (fun s =>
      DenseGrow q U qinv (fun t => qa.g (Q.g t)) (fun t => onCols qa Sm (denseRrefRow q Sm rr Q w t))
        (i + 1) s.1 s.2.1 s.2.2 ∧ s.1.j.size = V.j.size ∧ s.2.1 ≤ unz + (1 + Sm - rr) ∧
      (V.RowsNonzero → s.1.RowsNonzero)) := by
  have hrm := hR.r_m
  have hrn := hR.r_n
  have hcols := hqa.cols hR.perm
  have hQ : ∀ k, k < Sm → Q.g k < qa.size := fun k hk => lt_of_lt_of_le (hR.perm.1 k hk) hqa.size
  have hci := hcols.lt i (by omega)
  have hqs := h.ech.size
  have hm := h.m_eq
  unfold dense_rref_row
  simp only [Ok_bind, Ok_rd, Ok_setJ]
  have hu : unz < V.j.size := by omega
  refine ⟨by rw [hR.size]; omega, hQ i (by omega), hu, ?_⟩
  refine Ok_setX (by exact h.grow.x_some) (h.grow.room hu) ?_
  rw [Ok_wr]
  refine ⟨by omega, ?_⟩
  have hG1 := h.grow.push hu (qa.g (Q.g i)) 1
  rw [List.nil_append] at hG1
  refine (dense_rref_rest_spec hq dt (w := w i) hrm (by rw [hR.size]) hQ hcols.inj ?_ hG1 ?_).mono ?_
  · intro k hk1 hk2
    have := cell_lt (n := n) (k := i) (by omega) hk2
    exact ⟨lt_of_lt_of_le this hC.1, hC.2 i k (by omega) hk2, hR.bal i k hi hk1 hk2⟩
  · simp only [Csr.j_updX, Csr.j_updJ, size_upd]; omega
  · rintro ⟨W, u⟩ ⟨l, g1, g2, g3, g4, g5, g6⟩
    simp only at g1 g2 g3 g4 g5
    rw [Ok_setP]
    have hWn : W.n = V.n := g1.n_eq
    have hWp : W.p.size = V.p.size := g1.psize
    have hps1 := h.psize
    have hn := h.n_eq
    refine ⟨by simp only; omega, ?_⟩
    rw [Ok_ok]
    have hst := h.step hcols (by omega) (by omega) g1 (fun e he => by
      obtain ⟨f1, k, f2, f3, f4⟩ := g4 e he
      exact ⟨f1, k, by omega, f3, f4⟩) g6.1 (fun c => by
        rw [g5 c]
        unfold denseRrefRow
        rw [onCols_perm hR.perm]
        exact sum_range_split (fun t => qa.g (Q.g t)) (fun k => (w i k : ZMod q)) hrm hi c) rfl
    refine ⟨hst, ?_, by simp only; omega, fun hV => ?_⟩
    · simp only [Csr.j_updX, Csr.j_updJ, size_upd] at g2
      exact g2
    · refine hV.grow g1 h.ech.wfv.toWF rfl (by omega) ?_
      intro e he
      rcases List.mem_cons.mp he with rfl | he
      · exact one_ne_zero
      · exact g6.2 e he

/-- `update_U_after_rref`. -/
theorem update_U_spec (jk : Junk) {q : ℕ} {fact : Lu} {n rr Sm : Nat} {S : Array ℚ} (dt : Datatype)
    {Q qa : Array Nat} {w0 w : Nat → Nat → Int} (hE : Echelon q fact.U fact.qinv)
    (hx : fact.U.x.isSome = true) (hxs : ∀ a, fact.U.x = some a → fact.U.j.size ≤ a.size)
    (hR : DenseRref q n Sm w0 rr w Q) (hC : Cells n Sm S w) (hqa : IsQ fact.qinv fact.U.m Sm qa)
    (hps : fact.U.n + rr < fact.U.p.size) (h0 : 0 < fact.U.n + rr ∨ jk.null0 = false) :
    Ok (update_U_after_rref jk rr Sm S dt Q qa fact) (fun f => ∃ unz,
      DenseGrow q fact.U fact.qinv (fun t => qa.g (Q.g t))
        (fun t => onCols qa Sm (denseRrefRow q Sm rr Q w t)) rr f.U unz f.qinv ∧
      f = { fact with U := f.U, qinv := f.qinv } ∧ (fact.U.RowsNonzero → f.U.RowsNonzero)) := by
  have hU := hE.wfv.toWF
  have hrm := hR.r_m
  have hq := hE.wfv.good.le_max
  unfold update_U_after_rref
  unfold nnz
  rw [Ok_bind, Ok_rd]
  refine ⟨by omega, ?_⟩
  have hpos : 0 < fact.U.p.g fact.U.n + (1 + Sm - rr) * rr ∨ jk.null0 = false := by
    refine h0.imp (fun h0 => ?_) id
    by_cases e : fact.U.n = 0
    · have : 0 < (1 + Sm - rr) * rr := Nat.mul_pos (by omega) (by omega)
      omega
    · have := hE.ne 0 (by omega)
      have := (hU.row_le (i := 0) (by omega)).2
      omega
  rw [Ok_bind]
  refine ((Grow.refl hU hx hxs).realloc jk (k := fact.U.p.g fact.U.n + (1 + Sm - rr) * rr) (by omega)
    hpos).mono ?_
  rintro V ⟨hV, hVs, -, -⟩
  rw [Ok_bind]
  refine Ok_forRange_imp (I := fun i (s : Csr × Nat × Array Int) =>
    DenseGrow q fact.U fact.qinv (fun t => qa.g (Q.g t))
      (fun t => onCols qa Sm (denseRrefRow q Sm rr Q w t)) i s.1 s.2.1 s.2.2 ∧
    s.1.j.size = V.j.size ∧ s.2.1 ≤ fact.U.p.g fact.U.n + (1 + Sm - rr) * i ∧
    (fact.U.RowsNonzero → s.1.RowsNonzero)) (Nat.zero_le _) ?_ ?_ ?_
  · exact ⟨DenseGrow.refl hE hV, rfl, by simp, fun h => h.of_grow hV hU⟩
  · rintro i ⟨V', unz, qi⟩ - hi ⟨h1, h2, h3, h4⟩
    simp only at h1 h2 h3
    have hmul : (1 + Sm - rr) * (i + 1) ≤ (1 + Sm - rr) * rr := Nat.mul_le_mul_left _ hi
    rw [Nat.mul_add, Nat.mul_one] at hmul
    refine (dense_rref_row_spec hq dt hR hC hqa hps hi h1 (by omega)).mono ?_
    rintro s ⟨g1, g2, g3, g4⟩
    refine ⟨g1, by omega, ?_, fun h => g4 (h4 h)⟩
    rw [Nat.mul_add, Nat.mul_one]
    omega
  · rintro ⟨V', unz, qi⟩ ⟨h1, h2, h3, h4⟩
    simp only at h1 h2 h3
    rw [Ok_bind, Ok_rd]
    have hps' := h1.psize
    have hn' := h1.n_eq
    refine ⟨by omega, ?_⟩
    have hu : unz = V'.p.g V'.n := by simpa using h1.grow.unz_eq
    rw [Ok_bind, Ok_cassert]
    refine ⟨by simp; omega, ?_⟩
    rw [Ok_ok]
    exact ⟨unz, h1, rfl, h4⟩

end Spasm
