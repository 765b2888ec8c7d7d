import Verif.Spec.Check

/-
Properties C09 and C10: building triplet matrices, converting them to CSR.
-/

namespace Spasm

open Finset

/-! ### C09 -/

/-- A sequence of calls of `spasm_add_entry`, each with its own state of the allocator. -/
def addEntries : Triplet → List (Junk × Nat × Nat × Int) → C Triplet
  | T, [] => .ok T
  | T, (jk, i, j, x) :: l => do
    let T ← add_entry jk T i j x
    addEntries T l

/-- C09. After any sequence of calls, the sum of the entries at `(a, b)` has grown by the sum of
all the values added there. -/
theorem C09_add_entries (q : ℕ) (l : List (Junk × Nat × Nat × Int)) (T : Triplet) (hT : T.WFV q) :
    Ok (addEntries T l) (fun S => S.WFV q ∧
      (∀ a b, S.sum q a b = T.sum q a b +
        (l.map fun c => if a = c.2.1 ∧ b = c.2.2.1 then (c.2.2.2 : ZMod q) else 0).sum) ∧
      T.n ≤ S.n ∧ T.m ≤ S.m ∧
      -- nothing previously stored is lost or changed
      T.nz ≤ S.nz ∧
      (∀ t, t < T.nz → S.i.g t = T.i.g t ∧ S.j.g t = T.j.g t ∧ S.val t = T.val t)) := by
  induction l generalizing T with
  | nil =>
    simp only [addEntries, Ok_ok, List.map_nil, List.sum_nil, add_zero]
    exact ⟨hT, fun _ _ => trivial, le_refl _, le_refl _, le_refl _, fun _ _ => ⟨trivial, trivial, trivial⟩⟩
  | cons c l ih =>
    obtain ⟨jk, i, j, x⟩ := c
    simp only [addEntries]
    rw [Ok_bind]
    refine (add_entry_spec jk hT i j x).mono ?_
    rintro S ⟨h1, h2, h3, h4, h5, h6, h7, h8⟩
    refine (ih S h1).mono ?_
    rintro R ⟨g1, g2, g3, g4, g5, g6⟩
    refine ⟨g1, ?_, by omega, by omega, by omega, ?_⟩
    · intro a b
      rw [g2, h3, List.map_cons, List.sum_cons]
      ring
    · intro t ht
      have a1 := h8 t ht
      have a2 := g6 t (by omega)
      exact ⟨a2.1.trans a1.1, a2.2.1.trans a1.2.1, a2.2.2.trans a1.2.2⟩

/-- C09 (one call): exact effect on the dimensions and the number of entries. -/
theorem C09_add_entry (q : ℕ) (jk : Junk) (T : Triplet) (hT : T.WFV q) (i j : Nat) (x : Int) :
    Ok (add_entry jk T i j x) (fun S => S.WFV q ∧
      (∀ a b, S.sum q a b = T.sum q a b + if a = i ∧ b = j then (x : ZMod q) else 0) ∧
      ((x : ZMod q) = 0 → S.n = T.n ∧ S.m = T.m ∧ S.nz = T.nz) ∧
      ((x : ZMod q) ≠ 0 → S.n = max T.n (i + 1) ∧ S.m = max T.m (j + 1) ∧ S.nz = T.nz + 1 ∧
        S.Has i j)) := by
  refine (add_entry_spec jk hT i j x).mono ?_
  rintro S ⟨h1, h2, h3, h4, h5, h6, h7, h8⟩
  refine ⟨h1, h3, ?_, ?_⟩
  · intro hx
    rcases h7 with h7 | ⟨h7, h8', h9⟩
    · exact h7
    · exfalso
      -- the sum at the new entry's position would have changed by a nonzero value
      have hb := h1.bal T.nz (by omega)
      have hs := h3 (S.i.g T.nz) (S.j.g T.nz)
      have : S.sum q (S.i.g T.nz) (S.j.g T.nz)
          = T.sum q (S.i.g T.nz) (S.j.g T.nz) + (S.val T.nz : ZMod q) := by
        unfold Triplet.sum
        rw [h9, Finset.sum_range_succ, if_pos ⟨rfl, rfl⟩]
        congr 1
        apply sum_range_congr'
        intro k hk
        obtain ⟨a1, a2, a3⟩ := h8 k hk
        rw [a1, a2, a3]
      rw [this, hx] at hs
      have h0 : (S.val T.nz : ZMod q) = 0 := by
        have : (S.val T.nz : ZMod q) = if S.i.g T.nz = i ∧ S.j.g T.nz = j then 0 else 0 :=
          add_left_cancel hs
        simpa using this
      exact hb.2 ((small_eq_zero_iff h1.good.two_le hb.1.small).mp h0)
  · intro hx
    rcases h7 with ⟨e1, e2, e3⟩ | ⟨e1, e2, e3⟩
    · exfalso
      have hs := h3 i j
      rw [if_pos ⟨rfl, rfl⟩] at hs
      have : S.sum q i j = T.sum q i j := by
        unfold Triplet.sum
        rw [e3]
        apply sum_range_congr'
        intro k hk
        obtain ⟨a1, a2, a3⟩ := h8 k hk
        rw [a1, a2, a3]
      rw [this] at hs
      exact hx (by simpa using hs.symm)
    · refine ⟨e1, e2, e3, T.nz, by omega, ?_⟩
      by_contra hne
      have hs := h3 i j
      rw [if_pos ⟨rfl, rfl⟩] at hs
      have : S.sum q i j = T.sum q i j := by
        unfold Triplet.sum
        rw [e3, Finset.sum_range_succ, if_neg hne, add_zero]
        apply sum_range_congr'
        intro k hk
        obtain ⟨a1, a2, a3⟩ := h8 k hk
        rw [a1, a2, a3]
      rw [this] at hs
      exact hx (by simpa using hs.symm)

/-- C09 (transpose). -/
theorem C09_triplet_transpose (q : ℕ) (T : Triplet) (hT : T.WFV q) :
    (triplet_transpose T).WFV q ∧ (triplet_transpose T).n = T.m ∧ (triplet_transpose T).m = T.n ∧
    ∀ i j, (triplet_transpose T).sum q j i = T.sum q i j := by
  refine ⟨⟨⟨?_, ?_, ?_, ?_, ?_, ?_⟩, ?_, ?_, ?_⟩, rfl, rfl, ?_⟩
  · show T.nz ≤ T.j.size
    rw [hT.j_size]; exact hT.i_size
  · exact hT.j_size.symm
  · intro a ha
    show a.size = T.j.size
    rw [hT.j_size]; exact hT.x_size a ha
  · exact hT.j_lt
  · exact hT.i_lt
  · exact hT.field_ok
  · exact hT.good
  · exact hT.has_x
  · exact hT.bal
  · intro i j
    unfold Triplet.sum triplet_transpose
    apply Finset.sum_congr rfl
    intro k _
    simp only [and_comm, Triplet.val]

/-- A 3 x 2 triplet matrix modulo 7 with repeated positions and no spare capacity. -/
def exT : Triplet :=
  { n := 3, m := 2, nz := 4, i := #[0, 2, 0, 1], j := #[1, 0, 1, 1], x := some #[3, -2, 1, 1],
    F := Field.ofPrime 7 }

theorem exT_wfv : exT.WFV 7 :=
  ⟨⟨by decide, rfl, fun a ha => by cases ha; rfl, by decide, by decide, Or.inr (by decide)⟩,
    good_ofPrime 7 (by decide) (by decide), rfl, by unfold Bal; decide⟩

example : exT.WFV 7 ∧ exT.nz = exT.i.size ∧ exT.sum 7 0 1 = 4 := ⟨exT_wfv, rfl, by decide⟩

/-! ### C10 -/

/-- C10 (safety, for every input): `spasm_compress` always succeeds and returns a well-formed
matrix of the same dimensions without explicit zeroes, all of whose columns occur in `T`. -/
theorem C10_compress_safe (jk : Junk) (q : ℕ) (T : Triplet) (hT : T.WFV q) :
    Ok (compress jk T) (fun A => A.WFV q ∧ A.n = T.n ∧ A.m = T.m ∧ A.NoZero ∧
      A.p.g A.n ≤ A.nzmax ∧
      ∀ i j, i < A.n → A.InRow i j → ∃ i', T.Has i' j) := by
  unfold compress
  rw [Ok_bind]
  refine (compress_sort_spec jk hT.toWF).mono ?_
  rintro A ⟨h1, h2, h3, h4, h5, h6, h7⟩
  have hAV : A.WFV q := by
    apply h1.toWFV (h7 q hT.good) (fun _ => by rw [h5]; exact hT.has_x)
    intro i hi e he
    rw [h2] at hi
    rw [h4 i hi] at he
    have he' : (i, e) ∈ T.items T.nz := by
      unfold sel at he
      simp only [List.mem_map, List.mem_filter, decide_eq_true_eq] at he
      obtain ⟨a, ⟨ha, rfl⟩, rfl⟩ := he
      exact ha
    obtain ⟨k, hk, hek⟩ := Triplet.mem_items.mp he'
    have : e.2 = T.val k := by
      have := congrArg (fun x => x.2.2) hek
      exact this
    rw [this]
    exact (hT.bal k hk).1.small
  rw [Ok_bind]
  refine (deduplicate_spec jk h1 q (fun _ => hAV)).mono ?_
  rintro B ⟨g1, g2, g3, g4, g5, g6, g7⟩
  refine (remove_explicit_zeroes_spec jk g1).mono ?_
  rintro D ⟨d1, d2, d3, d4, d5, d6, d7, d8⟩
  have hAx : A.x.isSome = true := by rw [h5]; exact hT.has_x
  have hBx : 0 < B.p.g B.n → B.x.isSome = true := fun h => by rw [g6 h]; exact hAx
  have hBpos : ∀ i, i < D.n → ∀ e ∈ D.row i, 0 < B.p.g B.n := by
    intro i hi e he
    obtain ⟨-, k, hk, -⟩ := d5 i (by omega) e he
    omega
  have hmem : ∀ i, i < D.n → ∀ e ∈ D.row i, ∃ i', i' < A.n ∧ e ∈ B.row i' := by
    intro i hi e he
    obtain ⟨-, k, hk, rfl⟩ := d5 i (by omega) e he
    obtain ⟨i', e1, e2, e3⟩ := g1.row_of_pos hk
    exact ⟨i', by omega, Csr.mem_seg.mpr ⟨k, e2, e3, rfl⟩⟩
  refine ⟨?_, by omega, by omega, ?_, d1.p_nnz, ?_⟩
  · apply d1.toWFV (by rw [d4, g4]; exact hAV.good)
    · intro hpos
      obtain ⟨i, e1, e2, e3⟩ := d1.row_of_pos hpos
      rw [d6 hpos]
      exact hBx (hBpos i e1 (D.ent 0) (Csr.mem_seg.mpr ⟨0, e2, e3, rfl⟩))
    · intro i hi e he
      obtain ⟨i', hi', he'⟩ := hmem i hi e he
      exact (g5 i' hi').small hAx e he'
  · rw [noZero_iff d1]
    intro i hi e he
    exact (d5 i (by omega) e he).1 (hBx (hBpos i hi e he))
  · intro i j hi hj
    rw [Csr.inRow_iff] at hj
    obtain ⟨e, he, rfl⟩ := hj
    obtain ⟨i', hi', he'⟩ := hmem i hi e he
    have := ((g5 i' hi').cols e.1).mp (List.mem_map.mpr ⟨e, he', rfl⟩)
    rw [List.mem_map] at this
    obtain ⟨a, ha, hae⟩ := this
    rw [h4 i' (by omega)] at ha
    unfold sel at ha
    simp only [List.mem_map, List.mem_filter, decide_eq_true_eq] at ha
    obtain ⟨b, ⟨hb, hbi⟩, hba⟩ := ha
    obtain ⟨k, hk, hek⟩ := Triplet.mem_items.mp hb
    refine ⟨i', k, hk, ?_, ?_⟩
    · rw [← hbi, hek]
    · rw [← hae, ← hba, hek]

/-- C10 (partial). The full property, under the condition that repeated entries do not cancel
except in the last row. Without it the code is wrong: see `C10_cancellation_wrong`. -/
theorem C10_compress_partial (jk : Junk) (q : ℕ) (T : Triplet) (hT : T.WFV q)
    (hc : ∀ i j, i + 1 < T.n → T.Has i j → T.sum q i j ≠ 0) :
    Ok (compress jk T) (fun A => A.WFV q ∧ A.n = T.n ∧ A.m = T.m ∧ A.NoDup ∧ A.NoZero ∧
      ∀ i j, i < T.n → A.entry q i j = T.sum q i j) := by
  have hsafe := C10_compress_safe jk q T hT
  have : Ok (compress jk T) (fun A => A.NoDup ∧
      ∀ i j, i < T.n → A.entry q i j = T.sum q i j) := by
    unfold compress
    rw [Ok_bind]
    refine (compress_sort_spec jk hT.toWF).mono ?_
    rintro A ⟨h1, h2, h3, h4, h5, h6, h7⟩
    have hrow : ∀ i, i < T.n → ∀ e, e ∈ A.row i ↔ (i, e) ∈ T.items T.nz := by
      intro i hi e
      rw [h4 i hi]
      unfold sel
      simp only [List.mem_map, List.mem_filter, decide_eq_true_eq]
      constructor
      · rintro ⟨a, ⟨ha, rfl⟩, rfl⟩
        exact ha
      · intro h; exact ⟨(i, e), ⟨h, rfl⟩, rfl⟩
    have hAV : A.WFV q := by
      apply h1.toWFV (h7 q hT.good) (fun _ => by rw [h5]; exact hT.has_x)
      intro i hi e he
      obtain ⟨k, hk, hek⟩ := Triplet.mem_items.mp ((hrow i (by omega) e).mp he)
      have : e.2 = T.val k := congrArg (fun x => x.2.2) hek
      rw [this]
      exact (hT.bal k hk).1.small
    have hAx : A.x.isSome = true := by rw [h5]; exact hT.has_x
    rw [Ok_bind]
    refine (deduplicate_spec jk h1 q (fun _ => hAV)).mono ?_
    rintro B ⟨g1, g2, g3, g4, g5, g6, g7⟩
    have hsum : ∀ i, i < T.n → ∀ j, lsum q (B.row i) j = T.sum q i j := by
      intro i hi j
      rw [(g5 i (by omega)).sum hAx j, h4 i hi, lsum_sel_items]
      rfl
    have hzf : ZeroFreeButLast B := by
      intro i hi e he
      have hb := g5 i (by omega)
      have hin := (hb.cols e.1).mp (List.mem_map.mpr ⟨e, he, rfl⟩)
      rw [List.mem_map] at hin
      obtain ⟨a, ha, hae⟩ := hin
      obtain ⟨k, hk, hek⟩ := Triplet.mem_items.mp ((hrow i (by omega) a).mp ha)
      have hne := hc i e.1 (by omega) ⟨k, hk, (congrArg (fun x => x.1) hek).symm, by
        rw [← hae]; exact (congrArg (fun x => x.2.1) hek).symm⟩
      rw [← hsum i (by omega) e.1] at hne
      intro h0
      apply hne
      have : ∀ l : List (Nat × Int), (l.map Prod.fst).Nodup → e ∈ l →
          lsum q l e.1 = (e.2 : ZMod q) := by
        intro l
        induction l with
        | nil => intro _ h; simp at h
        | cons b l ih =>
          intro hnd hm
          rw [List.map_cons, List.nodup_cons] at hnd
          rw [lsum_cons]
          rcases List.mem_cons.mp hm with rfl | hm
          · rw [if_pos rfl, lsum_map_fst_not_mem hnd.1, add_zero]
          · rw [if_neg, zero_add, ih hnd.2 hm]
            intro hbe
            exact hnd.1 (by rw [hbe]; exact List.mem_map.mpr ⟨e, hm, rfl⟩)
      rw [this _ hb.nodup he, h0]; simp
    refine (remove_explicit_zeroes_spec jk g1).mono ?_
    rintro D ⟨d1, d2, d3, d4, d5, d6, d7, d8⟩
    have hrows := d8 hzf
    refine ⟨?_, ?_⟩
    · rw [nodup_row_iff]
      intro i hi
      rw [hrows i (by omega)]
      exact List.Nodup.sublist (List.Sublist.map _ (List.filter_sublist)) (g5 i (by omega)).nodup
    · intro i j hi
      rw [Csr.entry_eq_lsum, hrows i (by omega), lsum_filter_ne_zero, hsum i hi]
  refine (hsafe.and this).mono ?_
  rintro A ⟨⟨h1, h2, h3, h4, -, -⟩, h6, h7⟩
  exact ⟨h1, h2, h3, h6, h4, h7⟩

/-- C10 (pattern only). A matrix without values: no condition is needed. -/
theorem C10_compress_pattern (jk : Junk) (T : Triplet) (hT : T.WF) (hx : T.x = none) :
    Ok (compress jk T) (fun A => A.WF ∧ A.n = T.n ∧ A.m = T.m ∧ A.x = none ∧ A.NoDup ∧
      ∀ i j, i < T.n → (A.InRow i j ↔ T.Has i j)) := by
  unfold compress
  rw [Ok_bind]
  refine (compress_sort_spec jk hT).mono ?_
  rintro A ⟨h1, h2, h3, h4, h5, h6, h7⟩
  have hAx : A.x.isSome = false := by rw [h5, hx]; rfl
  rw [Ok_bind]
  refine (deduplicate_spec jk h1 0 (fun h => by rw [hAx] at h; cases h)).mono ?_
  rintro B ⟨g1, g2, g3, g4, g5, g6, g7⟩
  have hBx : B.x = none := by
    cases hb : B.x with
    | none => rfl
    | some a => have := g7 (by rw [hb]; rfl); rw [hAx] at this; cases this
  unfold remove_explicit_zeroes
  rw [if_pos (by rw [hBx]; rfl), Ok_ok]
  refine ⟨g1, by omega, by omega, hBx, ?_, ?_⟩
  · rw [nodup_row_iff]
    intro i hi
    exact (g5 i (by omega)).nodup
  · intro i j hi
    rw [Csr.inRow_iff]
    have := (g5 i (by omega)).cols j
    rw [List.mem_map, List.mem_map] at this
    rw [this, h4 i hi]
    unfold sel
    simp only [List.mem_map, List.mem_filter, decide_eq_true_eq]
    constructor
    · rintro ⟨a, ⟨b, ⟨hb, rfl⟩, rfl⟩, rfl⟩
      obtain ⟨k, hk, rfl⟩ := Triplet.mem_items.mp hb
      exact ⟨k, hk, rfl, rfl⟩
    · rintro ⟨k, hk, rfl, rfl⟩
      exact ⟨(T.j.g k, T.val k), ⟨_, ⟨Triplet.mem_items.mpr ⟨k, hk, rfl⟩, rfl⟩, rfl⟩, rfl⟩

example : exT.WFV 7 ∧ ∀ i j, i + 1 < exT.n → exT.Has i j → exT.sum 7 i j ≠ 0 := by
  refine ⟨exT_wfv, ?_⟩
  rintro i j - ⟨k, hk, rfl, rfl⟩
  have : ∀ k, k < 4 → exT.sum 7 (exT.i.g k) (exT.j.g k) ≠ 0 := by decide +kernel
  exact this k hk

/-- The 2 x 3 matrix [[1, 1 - 1, -2], [0, 0, 0]] modulo 7. -/
def exCancel : Triplet :=
  { n := 2, m := 3, nz := 4, i := #[0, 0, 0, 0], j := #[0, 1, 1, 2], x := some #[1, 1, -1, -2],
    F := Field.ofPrime 7 }

/-- C10 is false of the code: on a well-formed input with a cancellation, the second row, which
is empty, receives an entry of the first one. -/
theorem C10_cancellation_wrong : exCancel.WFV 7 ∧
    ∃ A, compress default exCancel = .ok A ∧ A.entry 7 1 2 = -2 ∧ exCancel.sum 7 1 2 = 0 := by
  refine ⟨⟨⟨by decide, rfl, fun a ha => by cases ha; rfl, by decide, by decide,
    Or.inr (by decide)⟩, good_ofPrime 7 (by decide) (by decide), rfl, by unfold Bal; decide⟩, ?_⟩
  refine ⟨_, rfl, ?_, by decide +kernel⟩
  decide +kernel

end Spasm
