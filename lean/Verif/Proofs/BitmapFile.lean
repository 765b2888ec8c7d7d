import Verif.Spec.Bitmap
import Verif.Proofs.File
import Verif.Proofs.Gray

/-! The positions described by a file, as `bitmap` reads them. -/

namespace Spasm

open Sha

/-- The matrix of the positions of a file. -/
structure FilePat (n m : Nat) (l : List (Int × Int × Int)) (A : Csr) : Prop where
  wf : A.WF
  n_eq : A.n = n
  m_eq : A.m = m
  nodup : A.NoDup
  has : ∀ i j, i < n → (A.InRow i j ↔ FileHas l i j)

theorem load_pattern (jk : Junk) (jw : Nat → W) {f : List Char} {n m : Nat} {l : List (Int × Int × Int)}
    (h : IsFile f n m l) (hne : l ≠ []) :
    Ok (do let (T, _) ← triplet_load jk jw f (-1) none
           compress jk T) (FilePat n m l) := by
  have hfit := h.fits
  have hone := fits_one hfit
  rw [h.fromOne] at hone
  have hp : LoadField false 2 (-1) := .inr ⟨rfl, rfl⟩
  have hnl := h.n_lt
  have hml := h.m_lt
  have hh : HashBuf none := by rintro _ h; cases h
  have key : Ok (triplet_load jk jw f (-1) none) (fun r => Loaded false 2 n m l r.1 ∧ r.1.F.p = -1 ∧
      (false = true → r.1.F.Good 2) ∧ (0 < r.1.nz → r.1.x.isSome = false)) := by
    rcases h.format with hs | ⟨hs, h1, h2⟩
    · exact C41_sms jk jw hp hs (by omega) (by omega) hone hh
    · exact C41_mm jk jw hp hs (by omega) (by omega) hone h1 h2 hh
  rw [Ok_bind]
  refine key.mono ?_
  rintro ⟨T, md⟩ ⟨h1, h2, -, h4⟩
  simp only at h1 h2 h4 ⊢
  rw [← h.fromOne] at h1
  obtain ⟨d1, d2⟩ := h1.dims hfit
  have hl := stored_pattern h1.lst
  have hlen : T.nz = l.length := by
    have := congrArg List.length hl
    simpa [Triplet.lst, zeroed] using this
  have hpos : 0 < T.nz := by rw [hlen]; exact List.length_pos_of_ne_nil hne
  have hx : T.x = none := by
    have := h4 hpos
    cases hx : T.x with
    | none => rfl
    | some a => rw [hx] at this; cases this
  have hhas : ∀ i j, T.Has i j ↔ FileHas l i j := by
    intro i j
    constructor
    · rintro ⟨k, hk, rfl, rfl⟩
      have hm : (T.i.g k, T.j.g k, T.val k) ∈ T.lst := List.mem_map.mpr ⟨k, List.mem_range.mpr hk, rfl⟩
      rw [hl] at hm
      obtain ⟨e, he, e2⟩ := List.mem_map.mp hm
      obtain ⟨t, ht, rfl⟩ := List.mem_map.mp he
      simp only [Prod.mk.injEq] at e2
      have := h.row t ht
      have := h.col t ht
      exact ⟨t, ht, by omega, by omega⟩
    · rintro ⟨t, ht, t1, t2⟩
      have hm : (i, j, (1 : Int)) ∈ T.lst := by
        rw [hl]
        refine List.mem_map.mpr ⟨((t.1 - 1).toNat, (t.2.1 - 1).toNat, t.2.2), List.mem_map.mpr ⟨t, ht, rfl⟩, ?_⟩
        simp only [Prod.mk.injEq, and_true]
        omega
      obtain ⟨k, hk, e⟩ := List.mem_map.mp hm
      simp only [Prod.mk.injEq] at e
      exact ⟨k, List.mem_range.mp hk, e.1, e.2.1⟩
  refine (C10_compress_pattern jk T h1.wf hx).mono ?_
  rintro A ⟨a1, a2, a3, a4, a5, a6⟩
  exact ⟨a1, a2.trans d1, a3.trans d2, a5, fun i j hi => (a6 i j (by omega)).trans (hhas i j)⟩

section
variable {n m : Nat} {l : List (Int × Int × Int)} {A : Csr} (h : FilePat n m l A)
include h

theorem FilePat.black (x y u v : Nat) : Black A x y u v ↔ FileBlack l n m x y u v := by
  unfold Black FileBlack
  rw [h.n_eq, h.m_eq]
  constructor
  · rintro ⟨i, j, h1, h2, h3, h4⟩
    obtain ⟨k, k1, k2, rfl⟩ := h2
    have := h.wf.j_lt k (by have := h.wf.row_le (i := i) (by rw [h.n_eq]; exact h1); omega)
    rw [h.m_eq] at this
    exact ⟨i, _, h1, this, (h.has i _ h1).mp ⟨k, k1, k2, rfl⟩, h3, h4⟩
  · rintro ⟨i, j, h1, h2, h3, h4, h5⟩
    exact ⟨i, j, h1, (h.has i j h1).mpr h3, h4, h5⟩

theorem FilePat.count (x y u v : Nat) : pixCount A x y u v = filePix l n m x y u v := by
  classical
  unfold pixCount filePix
  rw [Finset.card_filter, Finset.sum_product, h.n_eq, h.m_eq]
  refine Finset.sum_congr rfl fun i hi => ?_
  rw [Finset.mem_range] at hi
  rw [← Finset.card_filter]
  refine Finset.card_bij (fun k _ => A.j.g k) ?_ ?_ ?_
  · intro k hk
    simp only [Finset.mem_filter, Finset.mem_Ico, Finset.mem_range] at hk ⊢
    have := h.wf.j_lt k (by have := h.wf.row_le (i := i) (by rw [h.n_eq]; exact hi); omega)
    rw [h.m_eq] at this
    exact ⟨this, (h.has i _ hi).mp ⟨k, hk.1.1, hk.1.2, rfl⟩, hk.2.1, hk.2.2⟩
  · intro k hk k' hk' e
    simp only [Finset.mem_filter, Finset.mem_Ico] at hk hk'
    exact h.nodup i (by rw [h.n_eq]; exact hi) k k' hk.1.1 hk.1.2 hk'.1.1 hk'.1.2 e
  · intro j hj
    simp only [Finset.mem_filter, Finset.mem_range] at hj
    obtain ⟨k, k1, k2, rfl⟩ := (h.has i j hi).mpr hj.2.1
    refine ⟨k, ?_, rfl⟩
    simp only [Finset.mem_filter, Finset.mem_Ico]
    exact ⟨⟨k1, k2⟩, hj.2.2.1, hj.2.2.2⟩

/-- There are not more positions than entries. -/
theorem FilePat.nnz_le : A.p.g A.n ≤ l.length := by
  classical
  have hall : pixCount A 1 1 0 0 = A.p.g A.n := by
    unfold pixCount
    have : ∀ i, i ≤ A.n → ∑ i' ∈ Finset.range i, ((Finset.Ico (A.p.g i') (A.p.g (i' + 1))).filter fun k =>
        i' * 1 / A.n = 0 ∧ A.j.g k * 1 / A.m = 0).card = A.p.g i := by
      intro i
      induction i with
      | zero => intro _; simp [h.wf.p_zero]
      | succ i ih =>
        intro hi
        rw [Finset.sum_range_succ, ih (by omega), Finset.filter_true_of_mem]
        · have := h.wf.p_mono i (by omega)
          simp; omega
        · intro k hk
          rw [Finset.mem_Ico] at hk
          have := h.wf.j_lt k (by have := h.wf.row_le (i := i) (by omega); omega)
          rw [Nat.mul_one, Nat.mul_one]
          exact ⟨Nat.div_eq_of_lt (by omega), Nat.div_eq_of_lt this⟩
    exact this A.n le_rfl
  rw [← hall, h.count]
  unfold filePix
  refine le_trans (Finset.card_le_card (t := (l.map fun e => ((e.1 - 1).toNat, (e.2.1 - 1).toNat)).toFinset) ?_)
    ((List.toFinset_card_le _).trans (by simp))
  rintro ⟨i, j⟩ hp
  simp only [Finset.mem_filter] at hp
  obtain ⟨-, ⟨e, he, e1, e2⟩, -⟩ := hp
  rw [List.mem_toFinset]
  refine List.mem_map.mpr ⟨e, he, ?_⟩
  simp only [Prod.mk.injEq]
  omega

end

/-- A matrix with an entry has a pixel that is not empty. -/
theorem pixCount_pos {A : Csr} (hA : A.WF) {x y : Nat} (hx : 1 ≤ x) (hy : 1 ≤ y) (h : 0 < A.p.g A.n) :
    ∃ u v, u < y ∧ v < x ∧ 0 < pixCount A x y u v := by
  have hex : ∃ i, i < A.n ∧ A.p.g i < A.p.g (i + 1) := by
    by_contra hno
    have hno : ∀ i, i < A.n → A.p.g (i + 1) ≤ A.p.g i := fun i hi => by
      by_contra hc
      exact hno ⟨i, hi, by omega⟩
    have : ∀ i, i ≤ A.n → A.p.g i = 0 := by
      intro i
      induction i with
      | zero => intro _; exact hA.p_zero
      | succ i ih =>
        intro hi
        have := ih (by omega)
        have := hno i (by omega)
        omega
    have := this A.n le_rfl
    omega
  obtain ⟨i, hi, hlt⟩ := hex
  have hj := hA.j_lt (A.p.g i) (by have := hA.row_le hi; omega)
  refine ⟨i * y / A.n, A.j.g (A.p.g i) * x / A.m, pix_lt hi hy, pix_lt hj hx, ?_⟩
  unfold pixCount
  refine Finset.sum_pos' (fun _ _ => Nat.zero_le _) ⟨i, Finset.mem_range.mpr hi, ?_⟩
  rw [Finset.card_pos]
  exact ⟨A.p.g i, by simp [hlt]⟩

end Spasm
