import Verif.Proofs.DmEntries
import Verif.Props.ToolDm

/-!
C85: the numbers printed by `dm` are determined by the positions of the entries, up to the order of the rows and of the
columns.  `MatchingE` and `MaxMatchingE` are specified in Spec/DmCanon.lean, `dmReport` in Spec/DmReport.lean, `IsCoarse` and
`IsFine` in Spec/Dm.lean.
-/

namespace Spasm

open Sha Finset

theorem IsCoarse.toE {A : Csr} {D : Dm} (h : IsCoarse A D) :
    CoarseE A.InRow A.n A.m D.p.g D.q.g (D.cc.g 1).toNat (D.rr.g 1).toNat (D.rr.g 2).toNat (D.rr.g 3).toNat := by
  have r0 := h.rr_zero
  have r1 := h.rr_mono 0 (by omega)
  have r2 := h.rr_mono 1 (by omega)
  have r3 := h.rr_mono 2 (by omega)
  have r4 := h.rr_mono 3 (by omega)
  have rl := h.rr_last
  have c0 := h.cc_zero
  have c1 := h.cc_mono 0 (by omega)
  have cl := h.cc_last
  have s1 := h.square 1 (by omega)
  have s2 := h.square 2 (by omega)
  have s3 := h.square 3 (by omega)
  simp only [Nat.reduceAdd] at r1 r2 r3 r4 c1 s1 s2 s3
  refine ⟨h.perm_p, h.perm_q, by omega, by omega, by omega, by omega, ?_, ?_, ?_, ?_, ?_⟩
  · intro i j hi hj e hk
    have := h.mid i j hi hj e (by omega)
    omega
  · intro i j hi hj e hk
    have := h.low i j hi hj e (by omega)
    omega
  · intro t ht
    exact h.diag t (by omega)
  · intro t ht htn
    obtain ⟨u, a, b, hr⟩ := h.vert t (by omega) htn
    refine ⟨u, by omega, b, Relation.ReflTransGen.mono ?_ _ _ hr⟩
    rintro s t ⟨a, b, e⟩
    exact ⟨a, by omega, e⟩
  · intro t ht
    obtain ⟨u, a, hr⟩ := h.horz t (by omega)
    refine ⟨u, by omega, Relation.ReflTransGen.mono ?_ _ _ hr⟩
    rintro s t ⟨a, b, d, e⟩
    exact ⟨a, by omega, by omega, e⟩

theorem IsFine.toE {A : Csr} {D : Dm} (hc : IsCoarse A D) (h : IsFine A D) :
    FineE A.InRow D.p.g D.q.g (D.cc.g 1).toNat (D.rr.g 1).toNat (D.rr.g 2).toNat (fun b => (D.r.g (b + 1)).toNat)
      (D.nb - 2) := by
  have r0 := hc.rr_zero
  have r1 := hc.rr_mono 0 (by omega)
  have r2 := hc.rr_mono 1 (by omega)
  have r3 := hc.rr_mono 2 (by omega)
  have r4 := hc.rr_mono 3 (by omega)
  have rl := hc.rr_last
  simp only [Nat.reduceAdd] at r1 r2 r3 r4
  have hnb := h.nb
  have hr : ∀ b, b < D.nb - 1 → 0 ≤ D.r.g (b + 1) := by
    intro b
    induction b with
    | zero => intro _; rw [h.r_one]; omega
    | succ b ih =>
      intro hb
      have := h.r_lt (b + 1) (by omega) (by omega)
      have := ih (by omega)
      omega
  have e1 := h.r_one
  have e2 := h.r_pen
  have hpath : ∀ s t, DmPath A D s t ↔
      SqPath A.InRow D.p.g D.q.g (D.cc.g 1).toNat (D.rr.g 1).toNat (D.rr.g 2).toNat s t := by
    intro s t
    constructor
    · refine Relation.ReflTransGen.mono ?_ _ _
      rintro s t ⟨⟨a, b, d⟩, e⟩
      exact ⟨d, by omega, by omega, by omega, by omega⟩
    · refine Relation.ReflTransGen.mono ?_ _ _
      rintro s t ⟨d, e⟩
      exact ⟨⟨by omega, by omega, d⟩, by omega, by omega, by omega, by omega⟩
  refine ⟨?_, ?_, ?_, ?_, ?_⟩
  · simp only [Nat.zero_add]; rw [e1]
  · rw [show D.nb - 2 + 1 = D.nb - 1 by omega, e2]
  · intro b hb
    have := h.r_lt (b + 1) (by omega) (by omega)
    have := hr b (by omega)
    omega
  · intro b hb s t h1 h2 h3 h4
    have := hr b (by omega)
    have := hr (b + 1) (by omega)
    exact (hpath s t).mp (h.conn (b + 1) (by omega) (by omega) s t (by omega) (by omega) (by omega) (by omega))
  · intro s t h1 h2 h3 h4 p1 p2
    obtain ⟨b, a1, a2, a3, a4, a5, a6⟩ := h.same s t (by omega) (by omega) (by omega) (by omega) ((hpath s t).mpr p1)
      ((hpath t s).mpr p2)
    refine ⟨b - 1, by omega, ?_⟩
    have := hr (b - 1) (by omega)
    have := hr b (by omega)
    rw [show b - 1 + 1 = b by omega] at *
    omega

theorem IsFine.sizes_eq {A : Csr} {D : Dm} (hc : IsCoarse A D) (h : IsFine A D) :
    D.sizes = blockSizes (fun b => (D.r.g (b + 1)).toNat) (D.nb - 2) := by
  unfold Dm.sizes blockSizes
  refine List.map_congr_left fun b hb => ?_
  have hb := List.mem_range.mp hb
  have hE := (h.toE hc).range (b := b) hb
  have h1 := h.r_lt (b + 1) (by omega) (by omega)
  have h0 : 0 ≤ D.r.g (b + 1) := by
    have r0 := hc.rr_zero
    have r1 := hc.rr_mono 0 (by omega)
    simp only [Nat.reduceAdd] at r1
    rcases Nat.eq_zero_or_pos b with hb0 | hb0
    · subst hb0; rw [h.r_one]; omega
    · have h2 := (h.toE hc).lt (b - 1) (by omega)
      rw [show b - 1 + 1 = b by omega] at h2
      omega
  show (D.r.g (b + 2) - D.r.g (b + 1)).toNat = (D.r.g (b + 2)).toNat - (D.r.g (b + 1)).toNat
  omega

section

variable {E E' : Nat → Nat → Prop} {n m : Nat} {p q σ τ : Nat → Nat} {c k1 k2 k3 : Nat}

theorem IsPerm.comp' {f g : Nat → Nat} (hf : IsPerm f n) (hg : IsPerm g n) : IsPerm (fun t => f (g t)) n :=
  ⟨fun i hi => hf.1 _ (hg.1 i hi), fun i k hi hk e => hg.2 i k hi hk (hf.2 _ _ (hg.1 i hi) (hg.1 k hk) e)⟩

/-- Another numbering of the rows and of the columns. -/
theorem CoarseE.renumber (hσ : IsPerm σ n) (hτ : IsPerm τ m) (hE : ∀ i j, i < n → j < m → (E' i j ↔ E (σ i) (τ j)))
    (h : CoarseE E' n m p q c k1 k2 k3) : CoarseE E n m (fun t => σ (p t)) (fun t => τ (q t)) c k1 k2 k3 := by
  have h3 := h.le3
  have h4 := h.col
  have hE' : ∀ i j, i < n → j < m → (E' (p i) (q j) ↔ E (σ (p i)) (τ (q j))) := fun i j hi hj =>
    hE _ _ (h.perm_p.1 i hi) (h.perm_q.1 j hj)
  refine ⟨hσ.comp' h.perm_p, hτ.comp' h.perm_q, h.le12, h.le23, h.le3, h.col, ?_, ?_, ?_, ?_, ?_⟩
  · exact fun i j hi hj e => h.mid i j hi hj ((hE' i j hi hj).mpr e)
  · exact fun i j hi hj e => h.low i j hi hj ((hE' i j hi hj).mpr e)
  · exact fun t ht => (hE' _ _ (by omega) (by omega)).mp (h.diag t ht)
  · intro t ht htn
    obtain ⟨u, a, b, hr⟩ := h.vert t ht htn
    refine ⟨u, a, b, Relation.ReflTransGen.mono ?_ _ _ hr⟩
    rintro s t ⟨a, b, e⟩
    exact ⟨a, b, (hE' _ _ a (by omega)).mp e⟩
  · intro t ht
    obtain ⟨u, a, hr⟩ := h.horz t ht
    refine ⟨u, a, Relation.ReflTransGen.mono ?_ _ _ hr⟩
    rintro s t ⟨a, b, d, e⟩
    exact ⟨a, b, d, (hE' _ _ (by omega) a).mp e⟩

theorem FineE.renumber (hc : CoarseE E' n m p q c k1 k2 k3)
    (hE : ∀ i j, i < n → j < m → (E' i j ↔ E (σ i) (τ j))) {r : Nat → Nat} {k : Nat}
    (h : FineE E' p q c k1 k2 r k) : FineE E (fun t => σ (p t)) (fun t => τ (q t)) c k1 k2 r k := by
  have h2 := hc.le23
  have h3 := hc.le3
  have h4 := hc.col
  have hE' : ∀ i j, i < n → j < m → (E' (p i) (q j) ↔ E (σ (p i)) (τ (q j))) := fun i j hi hj =>
    hE _ _ (hc.perm_p.1 i hi) (hc.perm_q.1 j hj)
  have hpath : ∀ s t, SqPath E' p q c k1 k2 s t ↔ SqPath E (fun t => σ (p t)) (fun t => τ (q t)) c k1 k2 s t := by
    intro s t
    constructor
    · refine Relation.ReflTransGen.mono ?_ _ _
      rintro s t ⟨d, e⟩
      exact ⟨(hE' _ _ (by omega) (by omega)).mp d, e⟩
    · refine Relation.ReflTransGen.mono ?_ _ _
      rintro s t ⟨d, e⟩
      exact ⟨(hE' _ _ (by omega) (by omega)).mpr d, e⟩
  exact ⟨h.first, h.last, h.lt, fun b hb s t a1 a2 a3 a4 => (hpath s t).mp (h.conn b hb s t a1 a2 a3 a4),
    fun s t a1 a2 a3 a4 p1 p2 => h.same s t a1 a2 a3 a4 ((hpath s t).mpr p1) ((hpath t s).mpr p2)⟩

theorem IsPerm.id' : IsPerm (fun t => t) n := ⟨fun _ h => h, fun _ _ _ _ e => e⟩

end

/-- The numbers of a report and the decomposition they come from. -/
theorem dm_report_E (jk : Junk) (jw : Nat → W) {f : List Char} {n m : Nat} {l : List (Int × Int × Int)}
    (hf : IsFile f n m l) (hc : NoCancel 42013 l) (hnm : n + m < 2 ^ 31) :
    ∃ p q c k1 k2 k3, CoarseE (fun i j => fileEntry 42013 l i j ≠ 0) n m p q c k1 k2 k3 ∧ ∃ r k,
      (k1 < k2 → FineE (fun i j => fileEntry 42013 l i j ≠ 0) p q c k1 k2 r k) ∧
      tool_dm_verbose jk jw f = .ok (dmReport k3 k1 (c + k1) (k2 - k1) (n - k2) (m - (c + k2))
        (if k1 < k2 then blockSizes r k else [])) := by
  obtain ⟨g, eg, A, D, rfl, rfl, hE, hD, hF, rfl, -, -⟩ := Ok_iff.mp (C50_report jk jw hf hc hnm)
  have r0 := hD.rr_zero
  have r1 := hD.rr_mono 0 (by omega)
  have r2 := hD.rr_mono 1 (by omega)
  have r3 := hD.rr_mono 2 (by omega)
  have r4 := hD.rr_mono 3 (by omega)
  have rl := hD.rr_last
  have c0 := hD.cc_zero
  have c1 := hD.cc_mono 0 (by omega)
  have c2 := hD.cc_mono 1 (by omega)
  have c3 := hD.cc_mono 2 (by omega)
  have s1 := hD.square 1 (by omega)
  have s2 := hD.square 2 (by omega)
  simp only [Nat.reduceAdd] at r1 r2 r3 r4 c1 c2 c3 s1 s2
  have hE' : ∀ i j, i < A.n → j < A.m → (A.InRow i j ↔ fileEntry 42013 l i j ≠ 0) := fun i j hi _ => hE i j hi
  have hcE := hD.toE
  refine ⟨_, _, _, _, _, _, hcE.renumber (σ := fun t => t) (τ := fun t => t) IsPerm.id' IsPerm.id' hE',
    fun b => (D.r.g (b + 1)).toNat, D.nb - 2, ?_, ?_⟩
  · intro hk
    exact FineE.renumber (σ := fun t => t) (τ := fun t => t) hcE hE' ((hF (by omega)).toE hD)
  · rw [eg]
    congr 1
    rw [show (D.rr.g 2 - D.rr.g 1).toNat = (D.rr.g 2).toNat - (D.rr.g 1).toNat by omega,
      show (A.n - D.rr.g 2).toNat = A.n - (D.rr.g 2).toNat by omega,
      show (A.m - D.cc.g 3).toNat = A.m - ((D.cc.g 1).toNat + (D.rr.g 2).toNat) by omega,
      show (D.cc.g 2).toNat = (D.cc.g 1).toNat + (D.rr.g 1).toNat by omega]
    by_cases hk : (D.rr.g 1).toNat < (D.rr.g 2).toNat
    · rw [if_pos hk, (hF (by omega)).sizes_eq hD]
    · rw [if_neg hk]
      unfold dmReport
      rw [if_neg (by omega), if_neg (by omega)]

/-- C85 (the parts). The rows of the vertical part are those that some largest matching misses; the columns of the
horizontal part are those that some largest matching misses. -/
theorem C85_parts (A : Csr) (D : Dm) (h : IsCoarse A D) :
    (∀ t : Nat, t < A.n → (D.rr.g 2 ≤ t ↔ ∃ S, MaxMatchingE A.InRow A.n A.m S ∧ ∀ e ∈ S, e.1 ≠ D.p.g t)) ∧
    ∀ t : Nat, t < A.m → (t < D.cc.g 2 ↔ ∃ S, MaxMatchingE A.InRow A.n A.m S ∧ ∀ e ∈ S, e.2 ≠ D.q.g t) := by
  have r0 := h.rr_zero
  have r1 := h.rr_mono 0 (by omega)
  have r2 := h.rr_mono 1 (by omega)
  have c0 := h.cc_zero
  have c1 := h.cc_mono 0 (by omega)
  have s1 := h.square 1 (by omega)
  simp only [Nat.reduceAdd] at r1 r2 c1 s1
  constructor
  · intro t ht
    rw [← h.toE.vert_iff ht]
    omega
  · intro t ht
    rw [← h.toE.horz_iff ht]
    omega

/-- C85 (numbers). Let `s` be the size of the largest matchings, `v` the number of rows missed by some of them and `w` the
number of columns missed by some of them.  The report shows `s`, a vertical part with `v` rows, a horizontal part with
`w` columns and a square part with all other rows and columns that are not matched to these. -/
theorem C85_numbers (jk : Junk) (jw : Nat → W) {f : List Char} {n m : Nat} {l : List (Int × Int × Int)}
    (hf : IsFile f n m l) (hc : NoCancel 42013 l) (hnm : n + m < 2 ^ 31) :
    ∃ s h w k v u sizes, tool_dm_verbose jk jw f = .ok (dmReport s h w k v u sizes) ∧
      (∃ S, MaxMatchingE (fun i j => fileEntry 42013 l i j ≠ 0) n m S ∧ S.card = s) ∧
      v = {i | i < n ∧ ∃ S, MaxMatchingE (fun i j => fileEntry 42013 l i j ≠ 0) n m S ∧ ∀ e ∈ S, e.1 ≠ i}.ncard ∧
      w = {j | j < m ∧ ∃ S, MaxMatchingE (fun i j => fileEntry 42013 l i j ≠ 0) n m S ∧ ∀ e ∈ S, e.2 ≠ j}.ncard ∧
      h + k + v = n ∧ w + k + u = m ∧ h + k + u = s := by
  obtain ⟨p, q, c, k1, k2, k3, hE, r, k, -, e⟩ := dm_report_E jk jw hf hc hnm
  have a1 := hE.le12
  have a2 := hE.le23
  have a3 := hE.le3
  have a4 := hE.col
  refine ⟨_, _, _, _, _, _, _, e, ?_, hE.vert_card.symm, ?_, by omega, by omega, by omega⟩
  · obtain ⟨S, hS, hk⟩ := hE.matched
    exact ⟨S, hE.max_iff.mpr ⟨hS, hk⟩, hk⟩
  · have hd := hE.dual.vert_card
    rw [show m - (k3 - k1) = c + k1 by omega] at hd
    rw [← hd]
    congr 1
    ext j
    simp only [Set.mem_ofPred_eq]
    refine and_congr_right fun _ => ⟨?_, ?_⟩
    · rintro ⟨S, hS, hm⟩
      refine ⟨_, hS.swap, fun e he => ?_⟩
      obtain ⟨f, hf, rfl⟩ := mem_image.mp he
      exact hm f hf
    · rintro ⟨S, hS, hm⟩
      refine ⟨_, hS.swap, fun e he => ?_⟩
      obtain ⟨f, hf, rfl⟩ := mem_image.mp he
      exact hm f hf

section

variable {E : Nat → Nat → Prop} {n m : Nat} {p q p' q' : Nat → Nat} {c k1 k2 k3 c' k1' k2' k3' : Nat}

theorem sizes_perm {r r' : Nat → Nat} {k k' : Nat} (h : CoarseE E n m p q c k1 k2 k3) (h' : CoarseE E n m p' q' c k1 k2 k3)
    (hF : k1 < k2 → FineE E p q c k1 k2 r k) (hF' : k1 < k2 → FineE E p' q' c k1 k2 r' k') :
    (if k1 < k2 then blockSizes r k else []).Perm (if k1 < k2 then blockSizes r' k' else []) := by
  split
  · next hk => exact (hF hk).sizes h (hF' hk) h'
  · exact .refl _

end

/-- C85 (order of the rows, of the columns and of the entries, values). If the nonzero entries of two files are at the same
positions up to a permutation of the rows and a permutation of the columns, then the two reports show the same numbers, and
the same sizes of components up to their order, whatever the content of uninitialised memory. -/
theorem C85_report (jk jk' : Junk) (jw jw' : Nat → W) {f f' : List Char} {n m : Nat} {l l' : List (Int × Int × Int)}
    (hf : IsFile f n m l) (hf' : IsFile f' n m l') (hc : NoCancel 42013 l) (hc' : NoCancel 42013 l') (hnm : n + m < 2 ^ 31)
    {σ τ : Nat → Nat} (hσ : IsPerm σ n) (hτ : IsPerm τ m)
    (hE : ∀ i j, i < n → j < m → (fileEntry 42013 l' i j ≠ 0 ↔ fileEntry 42013 l (σ i) (τ j) ≠ 0)) :
    ∃ s h w k v u sizes sizes', sizes.Perm sizes' ∧ tool_dm_verbose jk jw f = .ok (dmReport s h w k v u sizes) ∧
      tool_dm_verbose jk' jw' f' = .ok (dmReport s h w k v u sizes') := by
  obtain ⟨p, q, c, k1, k2, k3, hcE, r, k, hF, e⟩ := dm_report_E jk jw hf hc hnm
  obtain ⟨p', q', c', k1', k2', k3', hcE', r', k', hF', e'⟩ := dm_report_E jk' jw' hf' hc' hnm
  have hcE2 := hcE'.renumber (E := fun i j => fileEntry 42013 l i j ≠ 0) hσ hτ hE
  obtain ⟨rfl, rfl, rfl, rfl⟩ := hcE.same_sizes hcE2
  exact ⟨_, _, _, _, _, _, _, _, sizes_perm hcE hcE2 hF fun hk => (hF' hk).renumber hcE' hE, e, e'⟩

/-- C85 (transposition). For the transposed matrix the horizontal and vertical parts are exchanged, as well as rows and
columns. -/
theorem C85_transpose (jk jk' : Junk) (jw jw' : Nat → W) {f f' : List Char} {n m : Nat} {l l' : List (Int × Int × Int)}
    (hf : IsFile f n m l) (hf' : IsFile f' m n l') (hc : NoCancel 42013 l) (hc' : NoCancel 42013 l') (hnm : n + m < 2 ^ 31)
    (hE : ∀ i j, i < n → j < m → (fileEntry 42013 l' j i ≠ 0 ↔ fileEntry 42013 l i j ≠ 0)) :
    ∃ s h w k v u sizes sizes', sizes.Perm sizes' ∧ tool_dm_verbose jk jw f = .ok (dmReport s h w k v u sizes) ∧
      tool_dm_verbose jk' jw' f' = .ok (dmReport s u v k w h sizes') := by
  obtain ⟨p, q, c, k1, k2, k3, hcE, r, k, hF, e⟩ := dm_report_E jk jw hf hc hnm
  obtain ⟨p', q', c', k1', k2', k3', hcE', r', k', hF', e'⟩ := dm_report_E jk' jw' hf' hc' (by omega)
  have hE' : ∀ j i, j < m → i < n → (fileEntry 42013 l' j i ≠ 0 ↔ fileEntry 42013 l i j ≠ 0) := fun j i hj hi => hE i j hi hj
  have h2 := hcE'.renumber (E := fun j i => fileEntry 42013 l i j ≠ 0) (σ := fun t => t) (τ := fun t => t) IsPerm.id'
    IsPerm.id' hE'
  have hd := hcE.dual
  obtain ⟨rfl, rfl, rfl, rfl⟩ := hd.same_sizes h2
  have a1 := hcE.le12
  have a2 := hcE.le23
  have a3 := hcE.le3
  have a4 := hcE.col
  refine ⟨_, _, _, _, _, _, _, if k3 - k2 < k3 - k1 then blockSizes r' k' else [], ?_, e, ?_⟩
  rotate_left
  · rw [e']
    rw [show n - k3 + (k3 - k2) = n - k2 by omega, show k3 - k1 - (k3 - k2) = k2 - k1 by omega,
      show m - (k3 - k1) = c + k1 by omega, show n - (n - k3 + (k3 - k1)) = k1 by omega,
      show k3 - k2 = m - (c + k2) by omega]
  · by_cases hk : k1 < k2
    · rw [if_pos hk, if_pos (by omega)]
      have h1 := (hF hk).dual hcE
      have := h1.sizes hd ((hF' (by omega)).renumber hcE' hE') h2
      rw [blockSizes_dual (hF hk) hcE] at this
      exact (List.reverse_perm _).symm.trans this
    · rw [if_neg hk, if_neg (by omega)]

/-- C85 (the decomposition). Two decompositions of the same matrix have the same boundaries, the same rows and columns in
each part, and the same rows in each component of the square part. -/
theorem C85_unique (A : Csr) (D D' : Dm) (h : IsCoarse A D) (h' : IsCoarse A D') :
    (∀ k, k < 5 → D.rr.g k = D'.rr.g k ∧ D.cc.g k = D'.cc.g k) ∧
    (∀ t t' : Nat, t < A.n → t' < A.n → D.p.g t = D'.p.g t' →
      (t < D.rr.g 1 ↔ t' < D.rr.g 1) ∧ (t < D.rr.g 2 ↔ t' < D.rr.g 2)) ∧
    (∀ t t' : Nat, t < A.m → t' < A.m → D.q.g t = D'.q.g t' →
      (t < D.cc.g 2 ↔ t' < D.cc.g 2) ∧ (t < D.cc.g 3 ↔ t' < D.cc.g 3)) ∧
    (IsFine A D → IsFine A D' → ∀ b, 1 ≤ b → b + 1 < D.nb → ∃ b', 1 ≤ b' ∧ b' + 1 < D'.nb ∧
      ∀ i, (∃ t : Nat, D.r.g b ≤ t ∧ t < D.r.g (b + 1) ∧ D.p.g t = i) ↔
        ∃ t : Nat, D'.r.g b' ≤ t ∧ t < D'.r.g (b' + 1) ∧ D'.p.g t = i) := by
  have key : ∀ {D : Dm}, IsCoarse A D → D.rr.g 0 = 0 ∧ 0 ≤ D.rr.g 1 ∧ D.rr.g 1 ≤ D.rr.g 2 ∧ D.rr.g 2 ≤ D.rr.g 3 ∧
      D.rr.g 4 = A.n ∧ D.cc.g 0 = 0 ∧ 0 ≤ D.cc.g 1 ∧ D.cc.g 4 = A.m ∧ D.rr.g 1 = D.cc.g 2 - D.cc.g 1 ∧
      D.rr.g 2 = D.cc.g 3 - D.cc.g 1 := by
    intro D h
    have r0 := h.rr_zero
    have r1 := h.rr_mono 0 (by omega)
    have r2 := h.rr_mono 1 (by omega)
    have r3 := h.rr_mono 2 (by omega)
    have rl := h.rr_last
    have c0 := h.cc_zero
    have c1 := h.cc_mono 0 (by omega)
    have cl := h.cc_last
    have s1 := h.square 1 (by omega)
    have s2 := h.square 2 (by omega)
    simp only [Nat.reduceAdd] at r1 r2 r3 c1 s1 s2
    exact ⟨r0, by omega, r2, r3, rl, c0, by omega, cl, s1, s2⟩
  have hk := key h
  have hk' := key h'
  have hE := h.toE
  have hE' := h'.toE
  obtain ⟨e1, e2, e3, e4⟩ := hE.same_sizes hE'
  rw [← e1, ← e2, ← e3, ← e4] at hE'
  refine ⟨?_, ?_, ?_, ?_⟩
  · intro k hk5
    interval_cases k <;> omega
  · intro t t' ht ht' e
    have := hE.same_part hE' ht ht' e
    omega
  · intro t t' ht ht' e
    have := hE.same_part_col hE' ht ht' e
    omega
  · intro hF hF' b hb hb'
    have f := hF.toE h
    have f' := hF'.toE h'
    rw [← e1, ← e2, ← e3] at f'
    obtain ⟨b', hb2, e⟩ := f.block hE f' hE' (b := b - 1) (by omega)
    have n1 := f.range (b := b - 1) (by omega)
    have n2 := f'.range (b := b') (by omega)
    have l1 := f.lt (b - 1) (by omega)
    have l2 := f'.lt b' (by omega)
    have z1 : 0 ≤ D.r.g b := by
      rcases Nat.lt_or_ge 1 b with hb1 | hb1
      · have := f.lt (b - 2) (by omega)
        rw [show b - 2 + 1 + 1 = b by omega] at this
        omega
      · rw [show b = 1 by omega, hF.r_one]; omega
    have z2 : 0 ≤ D'.r.g (b' + 1) := by
      rcases Nat.eq_zero_or_pos b' with hb1 | hb1
      · rw [hb1, hF'.r_one]; omega
      · have := f'.lt (b' - 1) (by omega)
        rw [show b' - 1 + 1 + 1 = b' + 1 by omega] at this
        omega
    refine ⟨b' + 1, by omega, by omega, fun i => ?_⟩
    have ei := Finset.ext_iff.mp e i
    simp only [blockRows, mem_image, mem_Ico] at ei
    rw [show b - 1 + 1 = b by omega] at ei
    clear hk hk' e1 e2 e3 e4 n1 n2 l1 l2 e hb hb' hb2 key
    constructor
    · rintro ⟨t, t1, t2, t3⟩
      obtain ⟨u, u1, u2⟩ := ei.mp ⟨t, by omega, t3⟩
      exact ⟨u, by omega, by omega, u2⟩
    · rintro ⟨t, t1, t2, t3⟩
      obtain ⟨u, u1, u2⟩ := ei.mpr ⟨t, by omega, t3⟩
      exact ⟨u, by omega, by omega, u2⟩

/-- C85 (the blocks). An entry of the matrix belongs to some largest matching if and only if it lies in a diagonal block
of the permuted matrix: the horizontal part, the vertical part, or a component of the square part. -/
theorem C85_entries (A : Csr) (D : Dm) (h : IsCoarse A D) (hF : D.rr.g 1 < D.rr.g 2 → IsFine A D)
    (h0 : D.rr.g 1 = D.rr.g 2 → D.nb = 0) {s w : Nat} (hs : s < A.n) (hw : w < A.m) (e : A.InRow (D.p.g s) (D.q.g w)) :
    (∃ S, MaxMatchingE A.InRow A.n A.m S ∧ (D.p.g s, D.q.g w) ∈ S) ↔
      (s < D.rr.g 1 ∧ w < D.cc.g 2) ∨ (D.rr.g 2 ≤ s ∧ D.cc.g 3 ≤ w) ∨
      ∃ b, 1 ≤ b ∧ b + 1 < D.nb ∧ D.r.g b ≤ s ∧ s < D.r.g (b + 1) ∧ D.c.g b ≤ w ∧ w < D.c.g (b + 1) := by
  have r0 := h.rr_zero
  have r1 := h.rr_mono 0 (by omega)
  have r2 := h.rr_mono 1 (by omega)
  have c0 := h.cc_zero
  have c1 := h.cc_mono 0 (by omega)
  have s1 := h.square 1 (by omega)
  have s2 := h.square 2 (by omega)
  simp only [Nat.reduceAdd] at r1 r2 c1 s1 s2
  have hE := h.toE
  have a4 := hE.col
  constructor
  · rintro ⟨S, hS, hm⟩
    by_cases h1 : (s : Int) < D.rr.g 1
    · left
      have := hE.not_right hS hw (by omega) hm
      omega
    · by_cases h2 : D.rr.g 2 ≤ s
      · right; left
        exact ⟨h2, h.low s w hs hw e h2⟩
      · right; right
        have m1 := h.mid s w hs hw e (by omega)
        have m2 : (w : Int) < D.cc.g 3 := by
          by_contra hn
          have := hE.not_above hS hs hw (by omega) hm
          omega
        have hF := hF (by omega)
        have f := hF.toE h
        have ew : w = (D.cc.g 1).toNat + (w - (D.cc.g 1).toNat) := by omega
        rw [ew] at hm e
        have p1 := hE.not_between hS (by omega) (by omega) hm
        obtain ⟨b, b1, b2, b3, b4, b5⟩ := f.same s (w - (D.cc.g 1).toNat) (by omega) (by omega) (by omega) (by omega)
          (.single ⟨e, by omega, by omega, by omega, by omega⟩) p1
        have l1 := hF.r_lt (b + 1) (by omega) (by omega)
        have e1 := hF.c_eq (b + 1) (by omega) (by omega)
        have e2 := hF.c_eq (b + 1 + 1) (by omega) (by omega)
        exact ⟨b + 1, by omega, by omega, by omega, by omega, by omega, by omega⟩
  · rintro (⟨h1, h2⟩ | ⟨h1, h2⟩ | ⟨b, b1, b2, b3, b4, b5, b6⟩)
    · exact hE.in_horz (by omega) (by omega) hw e
    · exact hE.in_vert (by omega) hs (by omega) hw e
    · have hlt : D.rr.g 1 < D.rr.g 2 := by
        by_contra hn
        have := h0 (by omega)
        omega
      have hF := hF hlt
      have f := hF.toE h
      have e1 := hF.c_eq b (by omega) (by omega)
      have e2 := hF.c_eq (b + 1) (by omega) (by omega)
      have l1 := hF.r_lt b (by omega) (by omega)
      have z1 : 0 ≤ D.r.g b := by
        rcases Nat.lt_or_ge 1 b with hb1 | hb1
        · have := f.lt (b - 2) (by omega)
          rw [show b - 2 + 1 + 1 = b by omega] at this
          omega
        · rw [show b = 1 by omega, hF.r_one]; omega
      have g1 := f.range (b := b - 1) (by omega)
      have g2 := f.conn (b - 1) (by omega) (w - (D.cc.g 1).toNat) s
      rw [show b - 1 + 1 = b by omega] at g1 g2
      have ew : w = (D.cc.g 1).toNat + (w - (D.cc.g 1).toNat) := by omega
      rw [ew] at e ⊢
      exact hE.in_square (by omega) (by omega) e (g2 (by omega) (by omega) (by omega) (by omega))

/-- C85 (cover). The structural rank printed is the smallest number of rows and columns that contain all nonzero
entries. -/
theorem C85_cover (jk : Junk) (jw : Nat → W) {f : List Char} {n m : Nat} {l : List (Int × Int × Int)}
    (hf : IsFile f n m l) (hc : NoCancel 42013 l) (hnm : n + m < 2 ^ 31) :
    ∃ s h w k v u sizes, tool_dm_verbose jk jw f = .ok (dmReport s h w k v u sizes) ∧
      (∃ R C : Finset Nat, R.card + C.card = s ∧
        ∀ i j, i < n → j < m → fileEntry 42013 l i j ≠ 0 → i ∈ R ∨ j ∈ C) ∧
      ∀ R C : Finset Nat, (∀ i j, i < n → j < m → fileEntry 42013 l i j ≠ 0 → i ∈ R ∨ j ∈ C) → s ≤ R.card + C.card := by
  classical
  obtain ⟨p, q, c, k1, k2, k3, hE, r, k, -, e⟩ := dm_report_E jk jw hf hc hnm
  have a1 := hE.le12
  have a2 := hE.le23
  have a3 := hE.le3
  have a4 := hE.col
  refine ⟨_, _, _, _, _, _, _, e, ?_, ?_⟩
  · refine ⟨(range k2).image p, (Ico (c + k2) m).image q, ?_, ?_⟩
    · rw [card_image_of_injOn, card_image_of_injOn, card_range, Nat.card_Ico]
      · omega
      · intro s hs t ht e
        simp only [coe_Ico, Set.mem_Ico] at hs ht
        exact hE.perm_q.2 _ _ hs.2 ht.2 e
      · intro s hs t ht e
        simp only [coe_range, Set.mem_Iio] at hs ht
        exact hE.perm_p.2 _ _ (by omega) (by omega) e
    · intro i j hi hj he
      obtain ⟨s, hs, rfl⟩ := hE.perm_p.surj hi
      obtain ⟨t, ht, rfl⟩ := hE.perm_q.surj hj
      by_cases hk : s < k2
      · exact .inl (mem_image.mpr ⟨s, mem_range.mpr hk, rfl⟩)
      · exact .inr (mem_image.mpr ⟨t, mem_Ico.mpr ⟨hE.low s t hs ht he (by omega), ht⟩, rfl⟩)
  · intro R C hRC
    obtain ⟨S, hS, hk⟩ := hE.matched
    rw [← hk]
    have h1 : (S.filter fun e => e.1 ∈ R).card ≤ R.card :=
      card_le_card_of_injOn Prod.fst (fun e he => (mem_filter.mp he).2) fun e he f hf' hef =>
        hS.row e (mem_filter.mp he).1 f (mem_filter.mp hf').1 hef
    have h2 : (S.filter fun e => ¬ e.1 ∈ R).card ≤ C.card :=
      card_le_card_of_injOn Prod.snd (fun e he => by
        obtain ⟨b1, b2⟩ := mem_filter.mp he
        obtain ⟨b3, b4, b5⟩ := hS.entry e b1
        exact (hRC e.1 e.2 b3 b4 b5).resolve_left b2) fun e he f hf' hef =>
        hS.col e (mem_filter.mp he).1 f (mem_filter.mp hf').1 hef
    have h3 : (S.filter fun e => e.1 ∈ R).card + (S.filter fun e => ¬ e.1 ∈ R).card = S.card :=
      card_filter_add_card_filter_not _
    omega

/-- The hypotheses of the theorems on one file are met. -/
example : IsFile exSms 2 3 [(1, 2, -9), (2, 3, 14), (2, 1, 1)] ∧ NoCancel 42013 [(1, 2, -9), (2, 3, 14), (2, 1, 1)] :=
  ⟨exSms_file, Distinct.noCancel (by unfold Distinct; decide)⟩

/-- A decomposition as in these theorems exists for every matrix, for instance for `exDm`, whose parts are all nonempty. -/
example : ∃ D, IsCoarse exDm D ∧ (D.rr.g 1 < D.rr.g 2 → IsFine exDm D) ∧ (D.rr.g 1 = D.rr.g 2 → D.nb = 0) := by
  obtain ⟨D, -, h⟩ := Ok_iff.mp (C34_dulmage_mendelsohn default exDm (Csr.wf_of_check (by decide +kernel)))
  exact ⟨D, h⟩

/-- The matrix of `exSms` with other values, its rows exchanged and its columns in another order. -/
def exTurnedFile : List Char := "2 3 M\n1 1 5\n1 2 -2\n2 3 7\n0 0 0\n".toList

theorem exTurnedFile_file : IsFile exTurnedFile 2 3 [(1, 1, 5), (1, 2, -2), (2, 3, 7)] := by
  refine ⟨.inl ?_, by decide, by decide, by decide, by decide, by decide⟩
  refine ⟨"2 3 M".toList, ["1 1 5".toList, "1 2 -2".toList, "2 3 7".toList], "0 0 0".toList, [],
    ⟨⟨by decide, by decide, by decide⟩, [], [' '], [' '], [], by simp [Blank], by simp [Blank],
      by simp [Blank], by simp, by decide +kernel⟩,
      .cons ?_ (.cons ?_ (.cons ?_ .nil)), ?_, by simp, by decide +kernel⟩ <;>
  exact ⟨⟨by decide, by decide, by decide⟩, [], [' '], [' '], [], by simp [Blank], by simp [Blank],
      by simp [Blank], by simp, by simp, by simp, by decide +kernel⟩

/-- The hypotheses are met: row `i` of the second matrix is row `1 - i` of the first, its columns are the columns
`2, 0, 1`. -/
example : ∃ s h w k v u sizes sizes', sizes.Perm sizes' ∧
    tool_dm_verbose default exJw exSms = .ok (dmReport s h w k v u sizes) ∧
    tool_dm_verbose default exJw exTurnedFile = .ok (dmReport s h w k v u sizes') := by
  refine C85_report default default exJw exJw exSms_file exTurnedFile_file
    (Distinct.noCancel (by unfold Distinct; decide)) (Distinct.noCancel (by unfold Distinct; decide)) (by norm_num)
    (σ := fun i => 1 - i) (τ := fun j => (j + 2) % 3) ⟨by decide, by intro i k hi hk e; simp only at e; omega⟩
    ⟨by decide, by intro i k hi hk e; simp only at e; omega⟩ ?_
  intro i j hi hj
  interval_cases i <;> interval_cases j <;> decide

/-- The transpose of the matrix of `exSms`. -/
def exUprightFile : List Char := "3 2 M\n2 1 1\n3 2 1\n1 2 1\n0 0 0\n".toList

theorem exUprightFile_file : IsFile exUprightFile 3 2 [(2, 1, 1), (3, 2, 1), (1, 2, 1)] := by
  refine ⟨.inl ?_, by decide, by decide, by decide, by decide, by decide⟩
  refine ⟨"3 2 M".toList, ["2 1 1".toList, "3 2 1".toList, "1 2 1".toList], "0 0 0".toList, [],
    ⟨⟨by decide, by decide, by decide⟩, [], [' '], [' '], [], by simp [Blank], by simp [Blank],
      by simp [Blank], by simp, by decide +kernel⟩,
      .cons ?_ (.cons ?_ (.cons ?_ .nil)), ?_, by simp, by decide +kernel⟩ <;>
  exact ⟨⟨by decide, by decide, by decide⟩, [], [' '], [' '], [], by simp [Blank], by simp [Blank],
      by simp [Blank], by simp, by simp, by simp, by decide +kernel⟩

example : ∃ s h w k v u sizes sizes', sizes.Perm sizes' ∧
    tool_dm_verbose default exJw exSms = .ok (dmReport s h w k v u sizes) ∧
    tool_dm_verbose default exJw exUprightFile = .ok (dmReport s u v k w h sizes') := by
  refine C85_transpose default default exJw exJw exSms_file exUprightFile_file
    (Distinct.noCancel (by unfold Distinct; decide)) (Distinct.noCancel (by unfold Distinct; decide)) (by norm_num) ?_
  intro i j hi hj
  interval_cases i <;> interval_cases j <;> decide

/-- What is printed for these files. -/
example : tool_dm_verbose default exJw exSms =
      .ok "structural rank = 2\n*) H (1 x 2)\n*) S (1 x 1) : \n    -> plus 1 SCC of size 1\n".toList ∧
    tool_dm_verbose default exJw exTurnedFile =
      .ok "structural rank = 2\n*) H (1 x 2)\n*) S (1 x 1) : \n    -> plus 1 SCC of size 1\n".toList ∧
    tool_dm_verbose default exJw exUprightFile =
      .ok "structural rank = 2\n*) S (1 x 1) : \n    -> plus 1 SCC of size 1\n*) V (2 x 1)\n".toList := by
  decide +kernel

end Spasm
