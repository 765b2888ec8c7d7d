import Verif.Proofs.FileRows

/-! A file describes one matrix only. -/

namespace Spasm

open Sha

/-- The position of an entry. -/
def posOf (e : Int × Int × Int) : Int × Int := (e.1, e.2.1)

theorem distinct_iff {l : List (Int × Int × Int)} : Distinct l ↔ (l.map posOf).Nodup := by
  unfold Distinct posOf List.Nodup
  rw [List.pairwise_map]
  refine List.pairwise_iff_getElem.trans (Iff.trans ?_ List.pairwise_iff_getElem.symm)
  simp only [ne_eq, Prod.mk.injEq]

theorem stored_positions {vals : Bool} {q : ℕ} {l : List (Int × Int × Int)} {t : List (Nat × Nat × Int)}
    (h : List.Forall₂ (Stored vals q) l t) : l.map posOf = t.map fun t => ((t.1 : Int) + 1, (t.2.1 : Int) + 1) := by
  induction h with
  | nil => rfl
  | cons h _ ih =>
    rw [List.map_cons, List.map_cons, ih]
    congr 1
    exact Prod.ext h.1.symm h.2.1.symm

/-- What is loaded without the values determines the positions. -/
theorem load_positions (jk : Junk) (jw : Nat → W) {f : List Char} {n m : Nat} {l : List (Int × Int × Int)}
    (h : IsFile f n m l) : Ok (triplet_load jk jw f (-1) none) (fun r => r.1.n = n ∧ r.1.m = m ∧
      l.map posOf = r.1.lst.map fun t => ((t.1 : Int) + 1, (t.2.1 : Int) + 1)) := by
  have hfit := h.fits
  have hone := fits_one hfit
  rw [h.fromOne] at hone
  have hp : LoadField false 2 (-1) := .inr ⟨rfl, rfl⟩
  have hnl := h.n_lt
  have hml := h.m_lt
  have key : Ok (triplet_load jk jw f (-1) none) (fun r => Loaded false 2 n m l r.1) := by
    have hh : HashBuf none := by rintro _ h; cases h
    rcases h.format with hs | ⟨hs, h1, h2⟩
    · exact (C41_sms jk jw hp hs (by omega) (by omega) hone hh).mono fun _ h => h.1
    · exact (C41_mm jk jw hp hs (by omega) (by omega) hone h1 h2 hh).mono fun _ h => h.1
  refine key.mono ?_
  rintro ⟨T, md⟩ h1
  simp only at h1 ⊢
  have h2 := h1.lst
  rw [← h.fromOne] at h1
  obtain ⟨d1, d2⟩ := h1.dims hfit
  refine ⟨d1, d2, ?_⟩
  rw [(List.filter_eq_self (p := kept false 2)).mpr (fun _ _ => rfl)] at h2
  exact stored_positions h2

/-- The dimensions and the positions of the entries, with their multiplicities and their order, are determined by the
file, and so is the matrix modulo every possible modulus. -/
theorem IsFile.unique {f : List Char} {n m n' m' : Nat} {l l' : List (Int × Int × Int)} (h : IsFile f n m l)
    (h' : IsFile f n' m' l') : n = n' ∧ m = m' ∧ l.map posOf = l'.map posOf ∧
      ∀ q : ℕ, 2 ≤ q → q ≤ 0xfffffffb → ∀ i j, fileEntry q l i j = fileEntry q l' i j := by
  obtain ⟨T, e, h1, h2, h3⟩ := Ok_iff.mp (load_positions default (fun _ => 0) h)
  have := load_positions default (fun _ => 0) h'
  rw [e, Ok_ok] at this
  obtain ⟨g1, g2, g3⟩ := this
  refine ⟨h1.symm.trans g1, h2.symm.trans g2, h3.trans g3.symm, fun q a b i j => ?_⟩
  obtain ⟨T, e, hT⟩ := Ok_iff.mp (load_file default (fun _ => 0) ⟨a, b⟩ h (hash := none) (by rintro _ h; cases h))
  have := load_file default (fun _ => 0) ⟨a, b⟩ h' (hash := none) (by rintro _ h; cases h)
  rw [e, Ok_ok] at this
  rw [← hT.sum, this.sum]

theorem IsFile.distinct {f : List Char} {n m n' m' : Nat} {l l' : List (Int × Int × Int)} (h : IsFile f n m l)
    (h' : IsFile f n' m' l') (hd : Distinct l) : Distinct l' := by
  rw [distinct_iff] at hd ⊢
  rwa [← (h.unique h').2.2.1]

/-- A matrix whose rows have no repeated column is written with each position once. -/
theorem save_distinct {q : ℕ} {B : Csr} (hB : B.WFV q) (hd : B.NoDup) {g : List Char} (hg : csr_save B = .ok g)
    {n m : Nat} {l : List (Int × Int × Int)} (hn : B.n < 2 ^ 31) (hm : B.m < 2 ^ 31) (h : IsFile g n m l) : Distinct l := by
  have := save_file_wfv hB hn hm
  rw [hg, Ok_ok] at this
  exact this.1.distinct h (distinct_lst hB.toWF hd)

end Spasm
