import Verif.Spec.File
import Verif.Props.IoAny
import Verif.Props.Triplet
import Mathlib.LinearAlgebra.Matrix.Rank

/-! From a file to the compressed matrix. -/

namespace Spasm

open Sha Finset

theorem Distinct.noCancel {q : ℕ} {l : List (Int × Int × Int)} (h : Distinct l) : NoCancel q l := by
  intro e he hne
  induction l with
  | nil => simp at he
  | cons a l ih =>
    obtain ⟨h1, h2⟩ := List.pairwise_cons.mp h
    rw [List.map_cons, List.sum_cons]
    rcases List.mem_cons.mp he with rfl | he
    · have : (l.map fun e' => if e'.1 = e.1 ∧ e'.2.1 = e.2.1 then (e'.2.2 : ZMod q) else 0) =
          l.map fun _ => 0 := by
        refine List.map_congr_left fun e' he' => ?_
        rw [if_neg]
        exact fun hh => h1 e' he' ⟨hh.1.symm, hh.2.symm⟩
      rw [this]; simpa using hne
    · rw [if_neg (h1 e he), zero_add]
      exact ih h2 he

/-- The entries, numbered from zero. -/
def zeroed (l : List (Int × Int × Int)) : List (Nat × Nat × Int) :=
  l.map fun e => ((e.1 - 1).toNat, (e.2.1 - 1).toNat, e.2.2)

section
variable {f : List Char} {n m : Nat} {l : List (Int × Int × Int)} (h : IsFile f n m l)
include h

theorem IsFile.fromOne : fromOne (zeroed l) = l := by
  unfold Spasm.fromOne zeroed
  rw [List.map_map]
  conv_rhs => rw [← List.map_id l]
  refine List.map_congr_left fun e he => ?_
  have := h.row e he
  have := h.col e he
  obtain ⟨a, b, c⟩ := e
  simp only [Function.comp_apply, id, Prod.mk.injEq, and_true] at *
  omega

theorem IsFile.fits : Fits n m (zeroed l) := by
  refine ⟨h.n_lt, h.m_lt, ?_, ?_, ?_⟩
  all_goals
    intro e he
    obtain ⟨t, ht, rfl⟩ := List.mem_map.mp he
    have := h.row t ht
    have := h.col t ht
    have := h.val t ht
    simp only
    omega

theorem IsFile.entry (q : ℕ) (i j : Nat) : fileEntry q l i j = tsum q (zeroed l) i j := by
  unfold fileEntry tsum zeroed
  rw [List.map_map]
  congr 1
  refine List.map_congr_left fun e he => ?_
  have := h.row e he
  have := h.col e he
  simp only [Function.comp_apply]
  have : (e.1 = i + 1 ∧ e.2.1 = j + 1) ↔ ((e.1 - 1).toNat = i ∧ (e.2.1 - 1).toNat = j) := by omega
  simp only [this]

end

/-- What is loaded from a file that describes the matrix `l`. -/
structure FileTriplet (q : ℕ) (n m : Nat) (l : List (Int × Int × Int)) (T : Triplet) : Prop where
  wf : T.WF
  good : T.F.Good q
  n_eq : T.n = n
  m_eq : T.m = m
  has_x : 0 < T.nz → T.x.isSome = true
  bal : ∀ k, k < T.nz → Bal q (T.val k) ∧ T.val k ≠ 0
  sum : ∀ i j, T.sum q i j = fileEntry q l i j
  has : ∀ i j, T.Has i j → ∃ e ∈ l, e.1 = i + 1 ∧ e.2.1 = j + 1 ∧ (e.2.2 : ZMod q) ≠ 0

theorem load_file (jk : Junk) (jw : Nat → W) {q : ℕ} (hq : 2 ≤ q ∧ q ≤ 0xfffffffb) {f : List Char} {n m : Nat}
    {l : List (Int × Int × Int)} (h : IsFile f n m l) {hash : Option (Array B)} (hh : HashBuf hash) :
    Ok (triplet_load jk jw f q hash) (fun r => FileTriplet q n m l r.1) := by
  have hfit := h.fits
  have hone := fits_one hfit
  rw [h.fromOne] at hone
  have hp : LoadField true q q := .inl ⟨rfl, rfl, hq.1, hq.2⟩
  have hnl := h.n_lt
  have hml := h.m_lt
  have key : Ok (triplet_load jk jw f q hash) (fun r => Loaded true q n m l r.1 ∧ r.1.F.p = q ∧
      (true = true → r.1.F.Good q) ∧ (0 < r.1.nz → r.1.x.isSome = true)) := by
    rcases h.format with hs | ⟨hs, h1, h2⟩
    · exact C41_sms jk jw hp hs (by omega) (by omega) hone hh
    · exact C41_mm jk jw hp hs (by omega) (by omega) hone h1 h2 hh
  refine key.mono ?_
  rintro ⟨T, md⟩ ⟨h1, h2, h3, h4⟩
  simp only at h1 h2 h3 h4 ⊢
  rw [← h.fromOne] at h1
  obtain ⟨d1, d2⟩ := h1.dims hfit
  have hmem : ∀ k, k < T.nz → ∃ e ∈ l, (e.2.2 : ZMod q) ≠ 0 ∧ e.1 = T.i.g k + 1 ∧ e.2.1 = T.j.g k + 1 ∧
      Bal q (T.val k) ∧ (T.val k : ZMod q) = e.2.2 := by
    intro k hk
    obtain ⟨e, he, hs⟩ := forall₂_right h1.lst (b := (T.i.g k, T.j.g k, T.val k))
      (List.mem_map.mpr ⟨k, List.mem_range.mpr hk, rfl⟩)
    obtain ⟨he1, he2⟩ := List.mem_filter.mp he
    rw [h.fromOne] at he1
    rw [kept_iff] at he2
    obtain ⟨s1, s2, s3⟩ := hs
    rw [if_pos rfl] at s3
    exact ⟨e, he1, fun h0 => he2 ⟨rfl, h0⟩, s1.symm, s2.symm, s3.1, s3.2⟩
  refine ⟨h1.wf, h3 trivial, d1, d2, h4, ?_, ?_, ?_⟩
  · intro k hk
    obtain ⟨e, -, e2, -, -, e3, e4⟩ := hmem k hk
    refine ⟨e3, fun h0 => e2 ?_⟩
    rw [← e4, h0]; simp
  · intro i j
    rw [Triplet.sum_eq, tsum_stored h1.lst, h.entry]
  · rintro i j ⟨k, hk, rfl, rfl⟩
    obtain ⟨e, e1, e2, e3, e4, -⟩ := hmem k hk
    exact ⟨e, e1, e3, e4, e2⟩

theorem fileEntry_flipped (q : ℕ) (l : List (Int × Int × Int)) (i j : Nat) :
    fileEntry q (flipped l) i j = fileEntry q l j i := by
  unfold fileEntry flipped
  rw [List.map_map]
  congr 1
  refine List.map_congr_left fun e _ => ?_
  simp only [Function.comp_apply, and_comm]

theorem fileMat_flipped (q : ℕ) (n m : Nat) (l : List (Int × Int × Int)) :
    fileMat q m n (flipped l) = (fileMat q n m l).transpose := by
  ext i j
  exact fileEntry_flipped q l i j

theorem NoCancel.flipped {q : ℕ} {l : List (Int × Int × Int)} (h : NoCancel q l) : NoCancel q (flipped l) := by
  intro e he hne
  obtain ⟨t, ht, rfl⟩ := List.mem_map.mp he
  have := h t ht hne
  unfold Spasm.flipped
  rw [List.map_map]
  convert this using 3
  ext e
  simp only [Function.comp_apply, and_comm]

theorem FileTriplet.transpose {q : ℕ} {n m : Nat} {l : List (Int × Int × Int)} {T : Triplet}
    (h : FileTriplet q n m l T) : FileTriplet q m n (flipped l) (triplet_transpose T) := by
  have hw := h.wf
  refine ⟨⟨?_, hw.j_size.symm, ?_, hw.j_lt, hw.i_lt, hw.field_ok⟩, h.good, h.m_eq, h.n_eq, h.has_x, h.bal, ?_, ?_⟩
  · show T.nz ≤ T.j.size
    rw [hw.j_size]; exact hw.i_size
  · intro a ha
    show a.size = T.j.size
    rw [hw.j_size]; exact hw.x_size a ha
  · intro i j
    rw [fileEntry_flipped, ← h.sum]
    unfold Triplet.sum triplet_transpose
    apply Finset.sum_congr rfl
    intro k _
    simp only [and_comm, Triplet.val]
  · rintro i j ⟨k, hk, hi, hj⟩
    obtain ⟨e, e1, e2, e3, e4⟩ := h.has j i ⟨k, hk, hj, hi⟩
    exact ⟨(e.2.1, e.1, e.2.2), List.mem_map.mpr ⟨e, e1, rfl⟩, e3, e2, e4⟩

theorem compress_good (jk : Junk) {T : Triplet} (hT : T.WF) (hx : T.x = none) :
    Ok (compress jk T) (fun A => ∀ q, T.F.Good q → A.F.Good q) := by
  unfold compress
  rw [Ok_bind]
  refine (compress_sort_spec jk hT).mono ?_
  rintro A ⟨h1, h2, h3, h4, h5, h6, h7⟩
  have hAx : A.x.isSome = false := by rw [h5, hx]; rfl
  rw [Ok_bind]
  refine (deduplicate_spec jk h1 0 (fun h => by rw [hAx] at h; cases h)).mono ?_
  rintro B ⟨g1, g2, g3, g4, g5, g6, g7⟩
  have hBx : B.x = none := by
    cases hb : B.x with
    | none => rfl
    | some a => have := g7 (by rw [hb]; rfl); rw [hAx] at this; cases this
  unfold remove_explicit_zeroes
  rw [if_pos (by rw [hBx]; rfl), Ok_ok]
  intro q hg
  rw [g4]; exact h7 q hg

theorem compress_file (jk : Junk) {q : ℕ} {n m : Nat} {l : List (Int × Int × Int)} {T : Triplet}
    (h : FileTriplet q n m l T) (hc : NoCancel q l) : Ok (compress jk T) (FileCsr q n m l) := by
  cases hx : T.x with
  | none =>
    have hz : T.nz = 0 := by
      by_contra h0
      have := h.has_x (by omega)
      rw [hx] at this; cases this
    have hno : ∀ i j, ¬ T.Has i j := by rintro i j ⟨k, hk, -⟩; omega
    refine ((C10_compress_pattern jk T h.wf hx).and (compress_good jk h.wf hx)).mono ?_
    rintro A ⟨⟨h1, h2, h3, h4, h5, h6⟩, h7⟩
    have hp : A.p.g A.n = 0 := by
      by_contra h0
      obtain ⟨i, e1, e2, e3⟩ := h1.row_of_pos (k := 0) (by omega)
      exact hno i _ ((h6 i _ (by omega)).mp ⟨0, e2, e3, rfl⟩)
    refine ⟨⟨h1, h7 q h.good, fun hh => by omega, fun k hk => by omega⟩, h5, fun k hk => absurd hk (by omega),
      h2.trans h.n_eq, h3.trans h.m_eq, ?_⟩
    intro i j hi
    rw [← h.sum, Triplet.sum, hz, Csr.entry, Finset.sum_range_zero]
    refine Finset.sum_eq_zero fun k hk => ?_
    rw [Finset.mem_Ico] at hk
    have := h1.row_le (i := i) (by rw [h2, h.n_eq]; exact hi)
    omega
  | some x =>
    have hT : T.WFV q := ⟨h.wf, h.good, by rw [hx]; rfl, h.bal⟩
    refine (C10_compress_partial jk q T hT ?_).mono ?_
    · intro i j _ hhas
      obtain ⟨e, e1, e2, e3, e4⟩ := h.has i j hhas
      have := hc e e1 e4
      rw [h.sum, fileEntry]
      rwa [e2, e3] at this
    · rintro A ⟨c1, c2, c3, c4, c5, c6⟩
      refine ⟨c1, c4, c5, c2.trans h.n_eq, c3.trans h.m_eq, ?_⟩
      intro i j hi
      rw [c6 i j (by rw [h.n_eq]; exact hi), h.sum]

theorem FileCsr.rank {q : ℕ} {n m : Nat} {l : List (Int × Int × Int)} {A : Csr} (h : FileCsr q n m l A) :
    (A.toMat q).rank = (fileMat q n m l).rank := by
  obtain ⟨-, -, -, rfl, rfl, he⟩ := h
  have : A.toMat q = fileMat q A.n A.m l := by
    ext i j
    exact he i j i.isLt
  rw [this]

end Spasm
