import Verif.Proofs.Transfer
import Verif.Proofs.Block
import Verif.Proofs.Gplu

/-
A dense LU factorization is added to `L` and `U`.
-/

namespace Spasm

open Finset

/-! ### Rows of `U` -/

theorem sum_range_lu {q : ℕ} (cols : Nat → Nat) (w : Nat → Nat → Int) {Sm i : Nat}
    (hi : i < Sm) (c : Nat) :
    (∑ k ∈ range Sm, if cols k = c then luU q w i k else 0) =
      (if cols i = c then 1 else 0) + ∑ k ∈ Ico (i + 1) Sm, if cols k = c then (w i k : ZMod q) else 0 := by
  rw [← Finset.sum_range_add_sum_Ico _ (show i + 1 ≤ Sm by omega)]
  congr 1
  · rw [Finset.sum_range_succ, Finset.sum_eq_zero, zero_add]
    · simp [luU]
    · intro k hk
      have := mem_range.mp hk
      simp [luU, show k ≠ i by omega, show ¬ i < k by omega]
  · refine Finset.sum_congr rfl fun k hk => ?_
    have := (mem_Ico.mp hk).1
    simp [luU, show k ≠ i by omega, show i < k by omega]

theorem lu_rest_spec {q : ℕ} (hq : q ≤ 0xfffffffb) {lo Sm : Nat} {S : Array ℚ} (dt : Datatype)
    {Q qa : Array Nat} {i : Nat} {w : Nat → Int} (hrr : lo ≤ Sm) (hQs : Sm ≤ Q.size)
    (hQ : ∀ k, k < Sm → Q.g k < qa.size)
    (hinj : ∀ s t, s < Sm → t < Sm → qa.g (Q.g s) = qa.g (Q.g t) → s = t)
    (hS : ∀ k, lo ≤ k → k < Sm → i * Sm + k < S.size ∧ S.g (i * Sm + k) = (w k : ℚ) ∧ Bal q (w k))
    {V U : Csr} {unz : Nat} {e0 : Nat × Int} (hG : Grow V U unz [e0]) (hsz : unz + (Sm - lo) ≤ U.j.size) :
    Ok (forRange lo Sm (U, unz) fun j (s : Csr × Nat) => do
      let jnew ← rd Q j
      let c ← rd qa jnew
      let x ← datatype_read S (i * Sm + j) dt
      let U ← s.1.setJ s.2 c
      let U ← U.setX s.2 x
      .ok (U, s.2 + 1)) (fun s => ∃ l, Grow V s.1 s.2 (e0 :: l) ∧
      s.1.j.size = U.j.size ∧ s.2 ≤ unz + (Sm - lo) ∧
      (∀ e ∈ l, Small q e.2 ∧ ∃ k, lo ≤ k ∧ k < Sm ∧ e.1 = qa.g (Q.g k)) ∧
      (∀ c, lsum q l c = ∑ k ∈ Ico lo Sm, if qa.g (Q.g k) = c then (w k : ZMod q) else 0) ∧
      (l.map Prod.fst).Nodup) := by
  refine Ok_forRange_imp (I := fun K (s : Csr × Nat) => ∃ l, Grow V s.1 s.2 (e0 :: l) ∧
      s.1.j.size = U.j.size ∧ s.2 ≤ unz + (K - lo) ∧
      (∀ e ∈ l, Small q e.2 ∧ ∃ k, lo ≤ k ∧ k < K ∧ e.1 = qa.g (Q.g k)) ∧
      (∀ c, lsum q l c = ∑ k ∈ Ico lo K, if qa.g (Q.g k) = c then (w k : ZMod q) else 0) ∧
      (l.map Prod.fst).Nodup) hrr ?_ ?_ ?_
  · exact ⟨[], hG, rfl, by simp, by simp, by simp [lsum_nil], by simp⟩
  · rintro K ⟨W, u⟩ hK1 hK2 ⟨l, h1, h2, h3, h4, h5, h6⟩
    simp only at h1 h2 h3 h4 h5
    obtain ⟨s1, s2, s3⟩ := hS K hK1 hK2
    rw [Ok_bind, Ok_rd]
    refine ⟨by omega, ?_⟩
    rw [Ok_bind, Ok_rd]
    refine ⟨hQ K hK2, ?_⟩
    rw [Ok_bind]
    refine Ok_datatype_read hq s1 dt s3 s2 ?_
    have hu : u < W.j.size := by omega
    simp only [Ok_bind, Ok_setJ]
    refine ⟨hu, ?_⟩
    refine Ok_setX (by exact h1.x_some) (h1.room hu) ?_
    rw [Ok_ok]
    refine ⟨l ++ [(qa.g (Q.g K), w K)], h1.push hu _ _, ?_, by simp only; omega, ?_, ?_, ?_⟩
    · simp only [Csr.j_updX, Csr.j_updJ, size_upd]; exact h2
    · intro e he
      rw [List.mem_append, List.mem_singleton] at he
      rcases he with he | rfl
      · obtain ⟨g1, k, g2, g3, g4⟩ := h4 e he
        exact ⟨g1, k, g2, by omega, g4⟩
      · exact ⟨s3.small, K, hK1, by omega, rfl⟩
    · intro c
      exact lsum_cells (fun k => qa.g (Q.g k)) w lo c l K hK1 (h5 c)
    · rw [List.map_append]
      refine List.Nodup.append h6 (by simp) ?_
      intro c hc1 hc2
      obtain ⟨e, he, rfl⟩ := List.mem_map.mp hc1
      simp only [List.map_cons, List.map_nil, List.mem_singleton] at hc2
      obtain ⟨-, k, g2, g3, g4⟩ := h4 e he
      rw [g4] at hc2
      have := hinj k K (by omega) hK2 hc2
      omega
  · rintro s hs
    exact hs

/-- The vector of row `i` of the upper factor. -/
def luRow (q : ℕ) (Sm : Nat) (qa Q : Array Nat) (w : Nat → Nat → Int) (i : Nat) : Nat → ZMod q :=
  onCols qa Sm (onCols Q Sm (luU q w i))

theorem lu_rowU_spec {q : ℕ} (hq : q ≤ 0xfffffffb) {U : Csr} {qinv : Array Int} {n r Sm : Nat}
    {S : Array ℚ} (dt : Datatype) {P Q qa : Array Nat} {w0 w : Nat → Nat → Int}
    (hR : IsPluq q n Sm w0 r w P Q) (hC : Cells n Sm S w) (hqa : IsQ qinv U.m Sm qa)
    (hps : U.n + r < U.p.size) {i : Nat} (hi : i < r) {V : Csr} {unz : Nat} {qi : Array Int}
    (h : DenseGrow q U qinv (fun t => qa.g (Q.g t)) (luRow q Sm qa Q w) i V unz qi)
    (hsz : unz + (Sm - i) ≤ V.j.size) :
    Ok (lu_rowU Sm S dt Q qa i (V, unz, qi)) (fun s =>
      DenseGrow q U qinv (fun t => qa.g (Q.g t)) (luRow q Sm qa Q w)
        (i + 1) s.1 s.2.1 s.2.2 ∧ s.1.j.size = V.j.size ∧ s.2.1 ≤ unz + (Sm - i)) := by
  have hrm := hR.r_m
  have hrn := hR.r_n
  have hcols := hqa.cols hR.q_perm
  have hQ : ∀ k, k < Sm → Q.g k < qa.size := fun k hk => lt_of_lt_of_le (hR.q_perm.1 k hk) hqa.size
  have hci := hcols.lt i (by omega)
  have hqs := h.ech.size
  have hm := h.m_eq
  unfold lu_rowU
  simp only [Ok_bind, Ok_rd, Ok_setJ]
  have hu : unz < V.j.size := by omega
  refine ⟨by rw [hR.q_size]; omega, hQ i (by omega), hu, ?_⟩
  refine Ok_setX (by exact h.grow.x_some) (h.grow.room hu) ?_
  rw [Ok_wr]
  refine ⟨by omega, ?_⟩
  have hG1 := h.grow.push hu (qa.g (Q.g i)) 1
  rw [List.nil_append] at hG1
  refine (lu_rest_spec hq dt (w := w i) (lo := i + 1) (by omega) (by rw [hR.q_size]) hQ hcols.inj ?_ hG1 ?_).mono ?_
  · intro k hk1 hk2
    have := cell_lt (n := n) (k := i) (by omega) hk2
    exact ⟨lt_of_lt_of_le this hC.1, hC.2 i k (by omega) hk2, hR.bal i k (by omega) hk2⟩
  · simp only [Csr.j_updX, Csr.j_updJ, size_upd]; omega
  · rintro ⟨W, u⟩ ⟨l, g1, g2, g3, g4, g5, g6⟩
    simp only at g1 g2 g3 g4 g5
    rw [Ok_setP]
    have hWn : W.n = V.n := g1.n_eq
    have hWp : W.p.size = V.p.size := g1.psize
    have hps1 := h.psize
    have hn := h.n_eq
    refine ⟨by simp only; omega, ?_⟩
    rw [Ok_ok]
    have hst := h.step hcols (by omega) (by omega) g1 (fun e he => by
      obtain ⟨f1, k, f2, f3, f4⟩ := g4 e he
      exact ⟨f1, k, by omega, f3, f4⟩) g6 (fun c => by
        rw [g5 c]
        unfold luRow
        rw [onCols_perm hR.q_perm]
        exact sum_range_lu (fun t => qa.g (Q.g t)) w (by omega) c) rfl
    refine ⟨hst, ?_, ?_⟩
    · simp only [Csr.j_updX, Csr.j_updJ, size_upd] at g2
      exact g2
    · simp only; omega

/-! ### Entries of `L` -/

/-- Entry `k`. -/
def Triplet.nth (Z : Triplet) (k : Nat) : Nat × Nat × Int := (Z.i.g k, Z.j.g k, Z.val k)

theorem Triplet.lst_nz (Z : Triplet) (k : Nat) :
    ({ Z with nz := k } : Triplet).lst = (List.range k).map Z.nth := rfl

theorem store_spec {Z : Triplet} (hb : Z.Buf) {k : Nat} (hk : k < Z.i.size) (i j : Nat) (v : Int) :
    Ok (Z.store k i j v) (fun Z' => Z'.Buf ∧ Z'.i.size = Z.i.size ∧ Z'.n = Z.n ∧ Z'.m = Z.m ∧
      Z'.F = Z.F ∧ Z'.nz = Z.nz ∧ ∀ t, Z'.nth t = if t = k then (i, j, v) else Z.nth t) := by
  obtain ⟨b, hbx⟩ := Option.isSome_iff_exists.mp hb.x_some
  have hbs := hb.xsz b hbx
  have hj := hb.jsz
  unfold Triplet.store
  simp only [Ok_bind, Ok_wr, hbx, Ok_deref_some, Ok_ok]
  refine ⟨hk, by omega, by omega, ⟨by simpa using hj, rfl, ?_⟩, by simp, trivial, trivial, trivial, trivial, ?_⟩
  · intro a ha
    simp only [Option.some.injEq] at ha
    rw [← ha]; simpa using hbs
  · intro t
    unfold Triplet.nth Triplet.val
    by_cases e : t = k
    · rw [if_pos e, e]
      simp only
      rw [g_upd_eq _ _ _ hk, g_upd_eq _ _ _ (by omega), g_upd_eq _ _ _ (by omega)]
    · rw [if_neg e, hbx]
      simp only
      rw [g_upd_ne _ _ _ _ e, g_upd_ne _ _ _ _ e, g_upd_ne _ _ _ _ e]

theorem lst_store {Z Z' : Triplet} {k : Nat} {e : Nat × Nat × Int}
    (h : ∀ t, Z'.nth t = if t = k then e else Z.nth t) :
    (List.range (k + 1)).map Z'.nth = (List.range k).map Z.nth ++ [e] := by
  rw [List.range_succ, List.map_append]
  congr 1
  · refine List.map_congr_left fun t ht => ?_
    have := List.mem_range.mp ht
    rw [h t, if_neg (by omega)]
  · simp [h k]

theorem realloc_buf (jk : Junk) {Z : Triplet} (hb : Z.Buf) (hn : Z.nz ≤ Z.i.size) {k : Nat}
    (hk : Z.nz ≤ k) (hk0 : 0 < k ∨ jk.null0 = false) :
    Ok (triplet_realloc jk Z (k : Int)) (fun Z' => Z'.Buf ∧ Z'.i.size = k ∧ Z'.n = Z.n ∧ Z'.m = Z.m ∧
      Z'.F = Z.F ∧ Z'.nz = Z.nz ∧ ∀ t, t < Z.nz → Z'.nth t = Z.nth t) := by
  have hT : TGrow Z Z Z.nz 0 [] :=
    ⟨rfl, rfl, rfl, hb.jsz, hb.x_some, hb.xsz, rfl, hn, fun t _ => ⟨rfl, rfl, rfl⟩,
      fun t e he => by simp at he⟩
  refine ((hT.realloc jk hk hk0).and (R := fun Z' => Z'.nz = Z.nz) ?_).mono ?_
  · unfold triplet_realloc
    rw [if_neg (by omega)]
    simp only [Int.toNat_natCast]
    have hno : ¬ (k = 0 ∧ jk.null0 = true) := by
      rintro ⟨h1, h2⟩; rcases hk0 with h | h
      · omega
      · rw [h] at h2; cases h2
    rw [if_neg hno, Ok_ok]
  · rintro Z' ⟨⟨h1, h2⟩, h3⟩
    refine ⟨⟨h1.jsz, h1.x_some, h1.xsz⟩, h2, h1.n_eq, h1.m_eq, h1.F_eq, h3, fun t ht => ?_⟩
    obtain ⟨e1, e2, e3⟩ := h1.old t ht
    unfold Triplet.nth
    rw [e1, e2, e3]

/-- Pivotal rows are marked. -/
theorem lu_mark_spec {r : Nat} {Sp : Array Nat} {po : Array Nat} {pivotal : Array Bool}
    (h1 : r ≤ Sp.size) (h2 : ∀ i, i < r → Sp.g i < po.size)
    (h3 : ∀ i, i < r → po.g (Sp.g i) < pivotal.size) :
    Ok (lu_mark r Sp (some po) pivotal) (fun pv => pv.size = pivotal.size ∧
      ∀ a, pv.g a = true ↔ pivotal.g a = true ∨ ∃ i, i < r ∧ po.g (Sp.g i) = a) := by
  unfold lu_mark
  refine Ok_forRange_imp (I := fun K (pv : Array Bool) => pv.size = pivotal.size ∧
      ∀ a, pv.g a = true ↔ pivotal.g a = true ∨ ∃ i, i < K ∧ po.g (Sp.g i) = a) (Nat.zero_le _) ?_ ?_ ?_
  · exact ⟨rfl, fun a => by simp⟩
  · rintro K pv - hK ⟨g1, g2⟩
    rw [Ok_bind, Ok_rd]
    refine ⟨by omega, ?_⟩
    rw [Ok_bind]
    unfold permAt
    rw [Ok_rd]
    refine ⟨h2 K hK, ?_⟩
    rw [Ok_wr]
    have h4 := h3 K hK
    refine ⟨by omega, by simpa using g1, ?_⟩
    intro a
    by_cases e : a = po.g (Sp.g K)
    · rw [e, g_upd_eq _ _ _ (by omega)]
      simp only [true_iff]
      exact Or.inr ⟨K, by omega, rfl⟩
    · rw [g_upd_ne _ _ _ _ e, g2 a]
      constructor
      · rintro (h | ⟨i, hi, he⟩)
        · exact Or.inl h
        · exact Or.inr ⟨i, by omega, he⟩
      · rintro (h | ⟨i, hi, he⟩)
        · exact Or.inl h
        · by_cases hiK : i = K
          · subst hiK; exact absurd he.symm e
          · exact Or.inr ⟨i, by omega, he⟩
  · intro pv h; exact h

/-- New entries on rows that are not pivotal are removed. -/
theorem lu_stack_spec {pivotal : Array Bool} {lb : Nat} {L : Triplet} (hb : L.Buf) (hn : L.nz ≤ L.i.size)
    (hlb : lb ≤ L.nz) (hpv : ∀ k, lb ≤ k → k < L.nz → L.i.g k < pivotal.size) :
    Ok (lu_stack pivotal lb L) (fun s => s.1.Buf ∧ s.1.i.size = L.i.size ∧ s.1.n = L.n ∧ s.1.m = L.m ∧
      s.1.F = L.F ∧ s.2 ≤ L.nz ∧
      (List.range s.2).map s.1.nth = (List.range lb).map L.nth ++
        ((List.range' lb (L.nz - lb)).map L.nth).filter fun e => pivotal.g e.1) := by
  unfold lu_stack
  refine Ok_forRange_imp (I := fun K (s : Triplet × Nat) => s.1.Buf ∧ s.1.i.size = L.i.size ∧
      s.1.n = L.n ∧ s.1.m = L.m ∧ s.1.F = L.F ∧ s.2 ≤ K ∧ (∀ t, K ≤ t → s.1.nth t = L.nth t) ∧
      (List.range s.2).map s.1.nth = (List.range lb).map L.nth ++
        ((List.range' lb (K - lb)).map L.nth).filter fun e => pivotal.g e.1) hlb ?_ ?_ ?_
  · exact ⟨hb, rfl, rfl, rfl, rfl, le_refl _, fun _ _ => rfl, by simp⟩
  · rintro K ⟨T, z⟩ hK1 hK2 ⟨g1, g2, g3, g4, g5, g6, g7, g8⟩
    simp only at g1 g2 g3 g4 g5 g6 g7 g8
    have hK := g7 K (le_refl _)
    unfold Triplet.nth at hK
    rw [Prod.mk.injEq, Prod.mk.injEq] at hK
    obtain ⟨k1, k2, k3⟩ := hK
    rw [Ok_bind, Ok_rd]
    refine ⟨by simp only; omega, ?_⟩
    rw [Ok_bind, Ok_rd]
    refine ⟨by rw [k1]; exact hpv K hK1 hK2, ?_⟩
    have hIco : List.range' lb (K + 1 - lb) = List.range' lb (K - lb) ++ [K] := by
      rw [show K + 1 - lb = K - lb + 1 by omega, List.range'_1_concat, show lb + (K - lb) = K by omega]
    by_cases hp : pivotal.g (T.i.g K) = false
    · rw [if_pos hp, Ok_ok]
      refine ⟨g1, g2, g3, g4, g5, by simp only; omega, fun t ht => g7 t (by omega), ?_⟩
      simp only
      rw [g8, hIco, List.map_append, List.filter_append]
      have : L.i.g K = (L.nth K).1 := rfl
      rw [k1, this] at hp
      simp [hp]
    · rw [if_neg hp]
      obtain ⟨b, hbx⟩ := Option.isSome_iff_exists.mp g1.x_some
      have hbs := g1.xsz b hbx
      have hj := g1.jsz
      simp only [Ok_bind, Ok_rd, hbx, Ok_deref_some]
      refine ⟨by omega, by omega, ?_⟩
      refine (store_spec g1 (k := z) (by omega) (T.i.g K) (T.j.g K) (b.g K)).mono ?_
      rintro T' ⟨f1, f2, f3, f4, f5, f6, f7⟩
      rw [Ok_ok]
      have hval : T.val K = b.g K := by unfold Triplet.val; rw [hbx]
      refine ⟨f1, by simp only; omega, by simp only; omega, by simp only; omega, by rw [f5, g5],
        by simp only; omega, ?_, ?_⟩
      · intro t ht
        rw [f7 t, if_neg (by omega), g7 t (by omega)]
      · simp only
        rw [lst_store f7, g8, hIco, List.map_append, List.filter_append, ← List.append_assoc]
        congr 1
        have : L.i.g K = (L.nth K).1 := rfl
        have hp' : pivotal.g (L.nth K).1 = true := by
          rw [← this, ← k1]; simpa using hp
        rw [← hval, k1, k2, k3]
        simp [hp']
        rfl
  · rintro s ⟨g1, g2, g3, g4, g5, g6, -, g8⟩
    exact ⟨g1, g2, g3, g4, g5, g6, g8⟩

/-- Row `i` of the lower factor: its nonzero coefficients. -/
def luCoeffs (r : Nat) (w : Nat → Nat → Int) (i : Nat) : List (Nat × Int) :=
  ((List.range (min (i + 1) r)).filter fun j => w i j ≠ 0).map fun j => (j, w i j)

/-- The corresponding entries of `L`. -/
def luEnts (r un a : Nat) (w : Nat → Nat → Int) (i : Nat) : List (Nat × Nat × Int) :=
  (luCoeffs r w i).map fun e => (a, un + e.1, e.2)

theorem lu_rowL_spec {q : ℕ} (hq : q ≤ 0xfffffffb) {Sm r : Nat} {S : Array ℚ} (dt : Datatype)
    (un : Nat) {i : Nat} (a : Nat) {w : Nat → Nat → Int} (hr : r ≤ Sm)
    (hS : ∀ k, k < Sm → i * Sm + k < S.size ∧ S.g (i * Sm + k) = (w i k : ℚ) ∧ Bal q (w i k))
    {L : Triplet} {lnz : Nat} (hb : L.Buf) (hsz : lnz + min (i + 1) r ≤ L.i.size) :
    Ok (lu_rowL Sm r S dt un i a L lnz) (fun s => s.1.Buf ∧ s.1.i.size = L.i.size ∧ s.1.n = L.n ∧
      s.1.m = L.m ∧ s.1.F = L.F ∧ s.2 ≤ lnz + min (i + 1) r ∧
      (List.range s.2).map s.1.nth = (List.range lnz).map L.nth ++ luEnts r un a w i) := by
  unfold lu_rowL
  refine Ok_forRange_imp (I := fun K (s : Triplet × Nat) => s.1.Buf ∧ s.1.i.size = L.i.size ∧
      s.1.n = L.n ∧ s.1.m = L.m ∧ s.1.F = L.F ∧ s.2 ≤ lnz + K ∧
      (List.range s.2).map s.1.nth = (List.range lnz).map L.nth ++
        ((((List.range K).filter fun j => w i j ≠ 0).map fun j => (j, w i j)).map fun e =>
          (a, un + e.1, e.2))) (Nat.zero_le _) ?_ ?_ ?_
  · exact ⟨hb, rfl, rfl, rfl, rfl, le_refl _, by simp⟩
  · rintro K ⟨T, z⟩ - hK ⟨g1, g2, g3, g4, g5, g6, g7⟩
    simp only at g1 g2 g3 g4 g5 g6 g7
    obtain ⟨s1, s2, s3⟩ := hS K (by omega)
    rw [Ok_bind]
    refine Ok_datatype_read hq s1 dt s3 s2 ?_
    by_cases hz : w i K = 0
    · rw [if_pos hz, Ok_ok]
      refine ⟨g1, g2, g3, g4, g5, by simp only; omega, ?_⟩
      simp only
      rw [g7, List.range_succ, List.filter_append]
      simp [hz]
    · rw [if_neg hz, Ok_bind]
      refine (store_spec g1 (k := z) (by omega) a (un + K) (w i K)).mono ?_
      rintro T' ⟨f1, f2, f3, f4, f5, f6, f7⟩
      rw [Ok_ok]
      refine ⟨f1, by simp only; omega, by simp only; omega, by simp only; omega, by rw [f5, g5],
        by simp only; omega, ?_⟩
      simp only
      rw [lst_store f7, g7, List.range_succ, List.filter_append]
      simp [hz]
  · intro s h; exact h

theorem lu_register_spec {i r un a : Nat} {Lp : Array Nat} (h : un + r ≤ Lp.size) :
    Ok (lu_register i r un a Lp) (fun Lp' => Lp'.size = Lp.size ∧
      ∀ k, Lp'.g k = if i < r ∧ k = un + i then a else Lp.g k) := by
  unfold lu_register
  by_cases e : i < r
  · rw [if_pos e, Ok_wr]
    refine ⟨by omega, by simp, fun k => ?_⟩
    by_cases e' : k = un + i
    · rw [if_pos ⟨e, e'⟩, e', g_upd_eq _ _ _ (by omega)]
    · rw [if_neg (by tauto), g_upd_ne _ _ _ _ e']
  · rw [if_neg e, Ok_ok]
    exact ⟨rfl, fun k => by rw [if_neg (by tauto)]⟩

/-- Number of coefficients of the lower factor. -/
theorem sum_min {n r : Nat} (h : r ≤ n) : ∑ i ∈ range n, min (i + 1) r = (2 * n - r + 1) * r / 2 := by
  obtain ⟨d, rfl⟩ := Nat.exists_eq_add_of_le h
  have h1 : ∀ k, k ≤ r → 2 * ∑ i ∈ range k, min (i + 1) r = k * (k + 1) := by
    intro k
    induction k with
    | zero => intro _; rfl
    | succ k ih =>
      intro hk
      rw [Finset.sum_range_succ, Nat.mul_add, ih (by omega), Nat.min_eq_left (by omega)]
      ring
  have h2 : ∑ i ∈ range d, min (r + i + 1) r = d * r := by
    rw [Finset.sum_congr rfl (g := fun _ => r) (fun i _ => Nat.min_eq_right (by omega)),
      Finset.sum_const, card_range, smul_eq_mul]
  rw [Finset.sum_range_add, h2, show 2 * (r + d) - r + 1 = r + 2 * d + 1 by omega]
  have h3 := h1 r (le_refl _)
  have h4 : (r + 2 * d + 1) * r = 2 * (∑ i ∈ range r, min (i + 1) r + d * r) := by
    rw [Nat.mul_add, h3]; ring
  rw [h4, Nat.mul_div_cancel_left _ (by omega)]

theorem lu_addL_spec {q : ℕ} (hq : q ≤ 0xfffffffb) {n Sm r : Nat} {S : Array ℚ} (dt : Datatype)
    {Sp po : Array Nat} {N : Nat} (hN : N ≤ n) {w : Nat → Nat → Int} (complete : Bool)
    (hNc : N = if complete then n else r) (un : Nat) (hr : r ≤ Sm)
    (hS : ∀ i k, i < n → k < Sm → i * Sm + k < S.size ∧ S.g (i * Sm + k) = (w i k : ℚ) ∧ Bal q (w i k))
    (h1 : n ≤ Sp.size) (h2 : ∀ i, i < n → Sp.g i < po.size)
    {L : Triplet} {lnz : Nat} {Lp : Array Nat} (hb : L.Buf)
    (hsz : lnz + ∑ i ∈ range n, min (i + 1) r ≤ L.i.size) (hLp : un + r ≤ Lp.size) :
    Ok (lu_addL n Sm r S dt Sp (some po) complete un (L, lnz, Lp)) (fun s => s.1.Buf ∧
      s.1.i.size = L.i.size ∧ s.1.n = L.n ∧ s.1.m = L.m ∧ s.1.F = L.F ∧ s.2.1 ≤ L.i.size ∧
      (List.range s.2.1).map s.1.nth = (List.range lnz).map L.nth ++
        ((List.range N).flatMap fun i => luEnts r un (po.g (Sp.g i)) w i) ∧
      s.2.2.size = Lp.size ∧ (∀ i, i < N → i < r → s.2.2.g (un + i) = po.g (Sp.g i)) ∧
      ∀ k, k < un → s.2.2.g k = Lp.g k) := by
  unfold lu_addL
  rw [← hNc]
  refine Ok_forRange_imp (I := fun K (s : Triplet × Nat × Array Nat) => s.1.Buf ∧
      s.1.i.size = L.i.size ∧ s.1.n = L.n ∧ s.1.m = L.m ∧ s.1.F = L.F ∧
      s.2.1 ≤ lnz + ∑ i ∈ range K, min (i + 1) r ∧
      (List.range s.2.1).map s.1.nth = (List.range lnz).map L.nth ++
        ((List.range K).flatMap fun i => luEnts r un (po.g (Sp.g i)) w i) ∧
      s.2.2.size = Lp.size ∧ (∀ i, i < K → i < r → s.2.2.g (un + i) = po.g (Sp.g i)) ∧
      ∀ k, k < un → s.2.2.g k = Lp.g k) (Nat.zero_le _) ?_ ?_ ?_
  · exact ⟨hb, rfl, rfl, rfl, rfl, by simp, by simp, rfl, fun i hi => by omega, fun _ _ => rfl⟩
  · rintro K ⟨T, z, lp⟩ - hK ⟨g1, g2, g3, g4, g5, g6, g7, g8, g9, g10⟩
    simp only at g1 g2 g3 g4 g5 g6 g7 g8 g9 g10
    have hmono : ∑ i ∈ range (K + 1), min (i + 1) r ≤ ∑ i ∈ range n, min (i + 1) r :=
      Finset.sum_le_sum_of_subset (by intro x; simp only [mem_range]; omega)
    rw [Finset.sum_range_succ] at hmono
    rw [Ok_bind, Ok_rd]
    refine ⟨by omega, ?_⟩
    rw [Ok_bind]
    unfold permAt
    rw [Ok_rd]
    refine ⟨h2 K (by omega), ?_⟩
    rw [Ok_bind]
    refine (lu_rowL_spec hq dt un (po.g (Sp.g K)) hr (fun k hk => hS K k (by omega) hk) g1
      (lnz := z) (by omega)).mono ?_
    rintro ⟨T', z'⟩ ⟨f1, f2, f3, f4, f5, f6, f7⟩
    simp only at f1 f2 f3 f4 f5 f6 f7
    simp only
    rw [Ok_bind]
    refine (lu_register_spec (i := K) (r := r) (un := un) (a := po.g (Sp.g K)) (Lp := lp) (by omega)).mono ?_
    rintro lp' ⟨e1, e2⟩
    rw [Ok_ok]
    refine ⟨f1, by simp only; omega, by simp only; omega, by simp only; omega, by rw [f5, g5], ?_, ?_,
      by simp only; omega, ?_, ?_⟩
    · rw [Finset.sum_range_succ]; simp only; omega
    · simp only
      rw [f7, g7, List.range_succ, List.flatMap_append, List.append_assoc]
      simp
    · intro i hi hir
      simp only
      rw [e2]
      by_cases e : i = K
      · subst e; rw [if_pos ⟨hir, rfl⟩]
      · rw [if_neg (by omega)]; exact g9 i (by omega) hir
    · intro k hk
      simp only
      rw [e2, if_neg (by omega)]
      exact g10 k hk
  · rintro s ⟨g1, g2, g3, g4, g5, g6, g7, g8, g9, g10⟩
    refine ⟨g1, g2, g3, g4, g5, ?_, g7, g8, g9, g10⟩
    have hmono : ∑ i ∈ range N, min (i + 1) r ≤ ∑ i ∈ range n, min (i + 1) r :=
      Finset.sum_le_sum_of_subset (by intro x; simp only [mem_range]; omega)
    omega

/-- The part for incomplete factorizations. -/
theorem lu_incomplete_spec {complete : Bool} {n r : Nat} {Sp po : Array Nat} {lb : Nat} {pivotal : Array Bool}
    {L : Triplet} (hb : L.Buf) (hn : L.nz ≤ L.i.size) (hlb : lb ≤ L.nz) (hrn : r ≤ n) (h1 : n ≤ Sp.size)
    (h2 : ∀ i, i < n → Sp.g i < po.size)
    (hpv : complete = false → (∀ k, lb ≤ k → k < L.nz → L.i.g k < pivotal.size) ∧
      ∀ i, i < r → po.g (Sp.g i) < pivotal.size) :
    Ok (lu_incomplete complete r Sp (some po) lb pivotal L) (fun s => s.1.size = pivotal.size ∧
      (∀ a, s.1.g a = true ↔ pivotal.g a = true ∨ (complete = false ∧ ∃ i, i < r ∧ po.g (Sp.g i) = a)) ∧
      s.2.1.Buf ∧ s.2.1.i.size = L.i.size ∧ s.2.1.n = L.n ∧ s.2.1.m = L.m ∧ s.2.1.F = L.F ∧ s.2.2 ≤ L.nz ∧
      (List.range s.2.2).map s.2.1.nth = (List.range lb).map L.nth ++
        ((List.range' lb (L.nz - lb)).map L.nth).filter fun e => complete || s.1.g e.1) := by
  unfold lu_incomplete
  cases complete with
  | true =>
    rw [if_pos rfl, Ok_ok]
    refine ⟨rfl, fun a => by simp, hb, rfl, rfl, rfl, rfl, le_refl _, ?_⟩
    simp only [Bool.true_or, List.filter_true]
    rw [← List.map_append]
    congr 1
    rw [List.range_eq_range', List.range_eq_range']
    have := List.range'_append_1 (s := 0) (m := lb) (n := L.nz - lb)
    rw [Nat.zero_add] at this
    rw [this]
    congr 1; omega
  | false =>
    obtain ⟨p1, p2⟩ := hpv rfl
    rw [if_neg (by simp), Ok_bind]
    refine (lu_mark_spec (by omega) (fun i hi => h2 i (by omega)) p2).mono ?_
    rintro pv ⟨g1, g2⟩
    rw [Ok_bind]
    refine (lu_stack_spec hb hn hlb (fun k hk hk' => by rw [g1]; exact p1 k hk hk')).mono ?_
    rintro ⟨T, z⟩ ⟨f1, f2, f3, f4, f5, f6, f7⟩
    rw [Ok_ok]
    refine ⟨g1, fun a => by rw [g2 a]; simp, f1, f2, f3, f4, f5, f6, ?_⟩
    simp only [Bool.false_or]
    exact f7

/-- `update_fact_after_LU`. -/
theorem update_fact_spec (jk : Junk) {q : ℕ} {fact : Lu} {Z : Triplet} {Lp : Array Nat} {n r Sm : Nat}
    {S : Array ℚ} (dt : Datatype) {P Q qa po : Array Nat} {w0 w : Nat → Nat → Int} {lb : Nat}
    {complete : Bool} {pivotal : Array Bool} (hL : fact.Ltmp = some Z) (hp : fact.p = some Lp)
    (hE : Echelon q fact.U fact.qinv) (hx : fact.U.x.isSome = true)
    (hxs : ∀ a, fact.U.x = some a → fact.U.j.size ≤ a.size)
    (hR : IsPluq q n Sm w0 r w P Q) (hC : Cells n Sm S w) (hqa : IsQ fact.qinv fact.U.m Sm qa)
    (hps : fact.U.n + r < fact.U.p.size) (h0 : 0 < fact.U.n + r ∨ jk.null0 = false) (hZb : Z.Buf) (hZn : Z.nz ≤ Z.i.size)
    (hlb : lb ≤ Z.nz) (hnz : 0 < Z.nz + r ∨ jk.null0 = false) (hpo : n ≤ po.size) (hLp : fact.U.n + r ≤ Lp.size)
    (hpv : complete = false → (∀ k, lb ≤ k → k < Z.nz → Z.i.g k < pivotal.size) ∧
      ∀ i, i < n → po.g i < pivotal.size) :
    Ok (update_fact_after_LU jk n Sm r S dt P Q qa (some po) lb complete pivotal fact) (fun o =>
      ∃ unz Z' Lp', DenseGrow q fact.U fact.qinv (fun t => qa.g (Q.g t)) (luRow q Sm qa Q w) r o.1.U unz
          o.1.qinv ∧
        o.1 = { fact with U := o.1.U, qinv := o.1.qinv, p := some Lp', Ltmp := some Z' } ∧
        Z'.Buf ∧ Z'.nz ≤ Z'.i.size ∧ Z'.n = Z.n ∧ Z'.m = Z.m ∧ Z'.F = Z.F ∧
        Z'.lst = (List.range lb).map Z.nth ++
          (((List.range' lb (Z.nz - lb)).map Z.nth).filter fun e => complete || o.2.g e.1) ++
          ((List.range (if complete then n else r)).flatMap fun i =>
            luEnts r fact.U.n (po.g (P.g i)) w i) ∧
        Lp'.size = Lp.size ∧ (∀ i, i < r → Lp'.g (fact.U.n + i) = po.g (P.g i)) ∧
        (∀ k, k < fact.U.n → Lp'.g k = Lp.g k) ∧ o.2.size = pivotal.size ∧
        ∀ a, o.2.g a = true ↔ pivotal.g a = true ∨ (complete = false ∧ ∃ i, i < r ∧ po.g (P.g i) = a)) := by
  have hU := hE.wfv.toWF
  have hrm := hR.r_m
  have hrn := hR.r_n
  have hq := hE.wfv.good.le_max
  have hP : ∀ i, i < n → P.g i < po.size := fun i hi => lt_of_lt_of_le (hR.p_perm.1 i hi) hpo
  unfold update_fact_after_LU
  rw [hL, hp]
  unfold nnz
  simp only [Ok_bind, Ok_deref_some, Ok_rd]
  refine ⟨by omega, ?_⟩
  have hpos : 0 < fact.U.p.g fact.U.n + (1 + 2 * Sm - r) * r ∨ jk.null0 = false := by
    refine h0.imp (fun h0 => ?_) id
    by_cases e : fact.U.n = 0
    · have : 0 < (1 + 2 * Sm - r) * r := Nat.mul_pos (by omega) (by omega)
      omega
    · have := hE.ne 0 (by omega)
      have := (hU.row_le (i := 0) (by omega)).2
      omega
  refine ((Grow.refl hU hx hxs).realloc jk (k := fact.U.p.g fact.U.n + (1 + 2 * Sm - r) * r) (by omega)
    hpos).mono ?_
  rintro V ⟨hV, hVs, hVn, -⟩
  rw [← sum_min hrn]
  have hpos' : 0 < Z.nz + ∑ i ∈ range n, min (i + 1) r ∨ jk.null0 = false := by
    refine hnz.imp (fun hnz => ?_) id
    by_cases e : r = 0
    · omega
    · have : min (0 + 1) r ≤ ∑ i ∈ range n, min (i + 1) r :=
        Finset.single_le_sum (f := fun i => min (i + 1) r) (fun _ _ => Nat.zero_le _)
          (mem_range.mpr (by omega))
      omega
  refine (realloc_buf jk hZb hZn (k := Z.nz + ∑ i ∈ range n, min (i + 1) r) (by omega) hpos').mono ?_
  rintro L1 ⟨b1, b2, b3, b4, b5, b6, b7⟩
  have hnth1 : (List.range lb).map L1.nth = (List.range lb).map Z.nth :=
    List.map_congr_left fun t ht => b7 t (by have := List.mem_range.mp ht; omega)
  have hnth2 : (List.range' lb (L1.nz - lb)).map L1.nth = (List.range' lb (Z.nz - lb)).map Z.nth := by
    rw [b6]
    refine List.map_congr_left fun t ht => b7 t ?_
    have := List.mem_range'_1.mp ht
    omega
  refine (lu_incomplete_spec (complete := complete) b1 (by omega) (by omega) hrn (by rw [hR.p_size]) hP
    (fun hc => ?_)).mono ?_
  · obtain ⟨p1, p2⟩ := hpv hc
    refine ⟨fun k hk hk' => ?_, fun i hi => p2 _ (hR.p_perm.1 i (by omega))⟩
    have := congrArg Prod.fst (b7 k (by omega))
    unfold Triplet.nth at this
    simp only at this
    rw [this]; exact p1 k hk (by omega)
  rintro ⟨pv, L2, z⟩ ⟨c1, c2, c3, c4, c5, c6, c7, c8, c9⟩
  simp only at c1 c2 c3 c4 c5 c6 c7 c8 c9
  refine (lu_addL_spec hq dt (N := if complete then n else r) (by split <;> omega) complete rfl V.n hrm
    (fun i k hi hk => ⟨lt_of_lt_of_le (cell_lt hi hk) hC.1, hC.2 i k hi hk, hR.bal i k hi hk⟩)
    (by rw [hR.p_size]) hP c3 (by simp only; omega) (by omega)).mono ?_
  rintro ⟨L3, z3, lp⟩ ⟨d1, d2, d3, d4, d5, d6, d7, d8, d9, d10⟩
  simp only at d1 d2 d3 d4 d5 d6 d7 d8 d9 d10
  rw [hVn] at d7 d9 d10
  have hmulmono : ∀ i, i ≤ r → ∑ t ∈ range i, (Sm - t) ≤ (1 + 2 * Sm - r) * r := by
    intro i hi
    calc ∑ t ∈ range i, (Sm - t) ≤ ∑ t ∈ range i, (1 + 2 * Sm - r) :=
          Finset.sum_le_sum fun t _ => by omega
      _ = i * (1 + 2 * Sm - r) := by rw [Finset.sum_const, card_range, smul_eq_mul]
      _ ≤ (1 + 2 * Sm - r) * r := by rw [Nat.mul_comm]; exact Nat.mul_le_mul_left _ hi
  refine Ok_forRange_imp (I := fun i (s : Csr × Nat × Array Int) =>
    DenseGrow q fact.U fact.qinv (fun t => qa.g (Q.g t)) (luRow q Sm qa Q w) i s.1 s.2.1 s.2.2 ∧
    s.1.j.size = V.j.size ∧ s.2.1 ≤ fact.U.p.g fact.U.n + ∑ t ∈ range i, (Sm - t)) (Nat.zero_le _) ?_ ?_ ?_
  · exact ⟨DenseGrow.refl hE hV, rfl, by simp⟩
  · rintro i ⟨V', unz, qi⟩ - hi ⟨h1, h2, h3⟩
    simp only at h1 h2 h3
    have hmul := hmulmono (i + 1) hi
    rw [Finset.sum_range_succ] at hmul
    refine (lu_rowU_spec hq dt hR hC hqa hps hi h1 (by omega)).mono ?_
    rintro s ⟨g1, g2, g3⟩
    refine ⟨g1, by omega, ?_⟩
    rw [Finset.sum_range_succ]
    omega
  · rintro ⟨V', unz, qi⟩ ⟨h1, h2, h3⟩
    simp only at h1 h2 h3
    rw [Ok_ok]
    refine ⟨unz, { L3 with nz := z3 }, lp, h1, rfl, ⟨d1.jsz, d1.x_some, d1.xsz⟩, by simp only; omega, by simp only; omega,
      by simp only; omega, by simp only; rw [d5, c7, b5], ?_, d8, ?_, d10, c1, c2⟩
    · rw [Triplet.lst_nz, d7, c9, hnth1, hnth2]
    · intro i hi
      exact d9 i (by split <;> omega) hi

end Spasm
