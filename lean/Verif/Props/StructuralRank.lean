import Verif.Props.Invariant
import Verif.Props.ToolDm

/-!
C83: the rank printed by `rank` is at most the structural rank printed by `dm --verbose`.

`IsFile`, `fileEntry`, `fileMat`, `NoCancel` are specified in Spec/File.lean; `dmReport` and `FileMatching` in
Spec/DmReport.lean.
-/

namespace Spasm

open Sha

/-! ### Rank and covers -/

theorem Matrix_rank_add_le {K : Type} [_root_.Field K] {n m : Nat} (M N : Matrix (Fin n) (Fin m) K) :
    (M + N).rank ≤ M.rank + N.rank := by
  unfold Matrix.rank
  rw [Matrix.mulVecLin_add]
  refine le_trans (Submodule.finrank_mono (t := LinearMap.range M.mulVecLin ⊔ LinearMap.range N.mulVecLin) ?_)
    (Submodule.finrank_add_le_finrank_add_finrank _ _)
  rintro _ ⟨x, rfl⟩
  exact Submodule.add_mem_sup ⟨x, rfl⟩ ⟨x, rfl⟩

open Classical in
/-- If the nonzero entries are on the rows of `R` or on the columns of `K`, then the rank is at most the number of these
rows and columns. -/
theorem rank_le_cover {F : Type} [_root_.Field F] {n m : Nat} (M : Matrix (Fin n) (Fin m) F) (R : Finset (Fin n))
    (K : Finset (Fin m)) (h : ∀ i j, M i j ≠ 0 → i ∈ R ∨ j ∈ K) : M.rank ≤ R.card + K.card := by
  have e : M = Matrix.diagonal (fun i => if i ∈ R then (1 : F) else 0) * M +
      (M - Matrix.diagonal (fun i => if i ∈ R then (1 : F) else 0) * M) *
        Matrix.diagonal (fun j => if j ∈ K then (1 : F) else 0) := by
    ext i j
    rw [Matrix.add_apply, Matrix.mul_diagonal, Matrix.sub_apply, Matrix.diagonal_mul]
    by_cases hi : i ∈ R
    · simp [hi]
    · by_cases hj : j ∈ K
      · simp [hi, hj]
      · have : M i j = 0 := by
          by_contra h0
          exact (h i j h0).elim hi hj
        simp [hi, hj, this]
  rw [e]
  refine le_trans (Matrix_rank_add_le _ _) (Nat.add_le_add ?_ ?_)
  · refine le_trans (Matrix.rank_mul_le_left _ _) ?_
    rw [Matrix.rank_diagonal, Fintype.card_subtype]
    refine Finset.card_le_card fun i hi => ?_
    simpa using hi
  · refine le_trans (Matrix.rank_mul_le_right _ _) ?_
    rw [Matrix.rank_diagonal, Fintype.card_subtype]
    refine Finset.card_le_card fun i hi => ?_
    simpa using hi

open Classical in
/-- The rank of a matrix whose nonzero entries are entries of `A` is at most the structural rank of `A`. -/
theorem IsCoarse.rank_le {A : Csr} {D : Dm} (h : IsCoarse A D) {F : Type} [_root_.Field F] {n m : Nat}
    (hn : A.n = n) (hm : A.m = m) (M : Matrix (Fin n) (Fin m) F) (hM : ∀ i j, M i j ≠ 0 → A.InRow i j) :
    M.rank ≤ (D.rr.g 3).toNat := by
  have r1 := h.rr_mono 0 (by omega)
  have r2 := h.rr_mono 1 (by omega)
  have r3 := h.rr_mono 2 (by omega)
  have r4 := h.rr_mono 3 (by omega)
  have c1 := h.cc_mono 3 (by omega)
  have c2 := h.cc_mono 2 (by omega)
  have c3 := h.cc_mono 1 (by omega)
  have c4 := h.cc_mono 0 (by omega)
  have s3 := h.square 3 (by omega)
  have s2 := h.square 2 (by omega)
  have rz := h.rr_zero
  have rl := h.rr_last
  have cl := h.cc_last
  have cz := h.cc_zero
  simp only [Nat.reduceAdd] at r1 r2 r3 r4 c1 c2 c3 c4 s2 s3
  have hR : (Finset.univ.filter fun i : Fin n => i.1 ∈ (Finset.range (D.rr.g 2).toNat).image D.p.g).card ≤
      (D.rr.g 2).toNat := by
    refine le_trans (Finset.card_le_card_of_injOn (t := (Finset.range (D.rr.g 2).toNat).image D.p.g) Fin.val ?_
      fun _ _ _ _ => Fin.ext) (le_trans Finset.card_image_le (by simp))
    intro i hi
    exact (Finset.mem_filter.mp hi).2
  have hK : (Finset.univ.filter fun j : Fin m => j.1 ∈ (Finset.Ico (D.cc.g 3).toNat m).image D.q.g).card ≤
      m - (D.cc.g 3).toNat := by
    refine le_trans (Finset.card_le_card_of_injOn (t := (Finset.Ico (D.cc.g 3).toNat m).image D.q.g) Fin.val ?_
      fun _ _ _ _ => Fin.ext) (le_trans Finset.card_image_le (by simp))
    intro i hi
    exact (Finset.mem_filter.mp hi).2
  refine le_trans (rank_le_cover M _ _ ?_) (le_trans (Nat.add_le_add hR hK) (by omega))
  intro i j hij
  obtain ⟨a, ha, ea⟩ := h.perm_p.surj (k := i.1) (by omega)
  obtain ⟨b, hb, eb⟩ := h.perm_q.surj (k := j.1) (by omega)
  by_cases hlt : (a : Int) < D.rr.g 2
  · exact .inl (Finset.mem_filter.mpr ⟨Finset.mem_univ _, Finset.mem_image.mpr ⟨a, Finset.mem_range.mpr (by omega), ea⟩⟩)
  · refine .inr (Finset.mem_filter.mpr ⟨Finset.mem_univ _, Finset.mem_image.mpr ⟨b, Finset.mem_Ico.mpr ⟨?_, by omega⟩, eb⟩⟩)
    have := h.low a b ha hb (by rw [ea, eb]; exact hM i j hij) (by omega)
    omega

/-! ### C83 -/

/-- A position that is not zero modulo `q` is not zero modulo 42013, if values are small. -/
theorem fileEntry_small {q : ℕ} {l : List (Int × Int × Int)} (hs : ∀ e ∈ l, |e.2.2| < 42013) (hc : NoCancel 42013 l)
    {i j : Nat} (h : fileEntry q l i j ≠ 0) : fileEntry 42013 l i j ≠ 0 := by
  obtain ⟨e, he, h1⟩ : ∃ e ∈ l, (if e.1 = (i : Int) + 1 ∧ e.2.1 = (j : Int) + 1 then (e.2.2 : ZMod q) else 0) ≠ 0 := by
    by_contra hno
    push Not at hno
    refine h (List.sum_eq_zero fun x hx => ?_)
    obtain ⟨e, he, rfl⟩ := List.mem_map.mp hx
    exact hno e he
  split at h1
  · rename_i h2
    have hv : e.2.2 ≠ 0 := by
      intro h0
      rw [h0, Int.cast_zero] at h1
      exact h1 rfl
    have := hc e he fun h0 => by
      rw [ZMod.intCast_zmod_eq_zero_iff_dvd] at h0
      have := Int.eq_zero_of_abs_lt_dvd h0 (by have := hs e he; exact_mod_cast this)
      exact hv this
    rwa [h2.1, h2.2] at this
  · exact absurd rfl h1

theorem dmReport_first (s h w k v u : Nat) (sizes : List Nat) :
    ∃ t, dmReport s h w k v u sizes = "structural rank = ".toList ++ dec s ++ "\n".toList ++ t := by
  unfold dmReport
  simp only [List.append_assoc]
  exact ⟨_, rfl⟩

/-- C83 (condition on the positions). If the nonzero positions modulo `q` are nonzero modulo 42013, then, whatever the
options, the schedule, the random numbers and the heuristic decisions, the number printed by `rank` for the modulus `q` is
at most the structural rank printed by `dm --verbose`. -/
theorem C83_positions {jk jk' : Junk} {jw jw' : Nat → W} {h0 : Nat → B} {q : ℕ} [Fact q.Prime] {env : Env} {opts : Opts}
    (hq : q ≤ 0xfffffffb) {f : List Char} {n m : Nat} {l : List (Int × Int × Int)} (hf : IsFile f n m l)
    (hc : NoCancel q l) (hc' : NoCancel 42013 l) (hnm : n + m < 2 ^ 31)
    (hpos : ∀ i j, fileEntry q l i j ≠ 0 → fileEntry 42013 l i j ≠ 0)
    (henv : env.Possible q) (hb : 0 < opts.block) (hnull : opts.max_round ≠ 0 ∨ jk.null0 = false)
    (hL : opts.L = false) (hcm : opts.complete = false) {allow : Bool}
    (hw : opts.tall = true → ∀ k, k ≤ min n m → |env.weight| * 2 ^ k < 2 ^ 31)
    {r : Nat} (hr : tool_rank jk jw h0 env opts f q allow = .ok r) :
    ∃ s t, tool_dm_verbose jk' jw' f = .ok ("structural rank = ".toList ++ dec (s : Nat) ++ "\n".toList ++ t) ∧ r ≤ s := by
  obtain ⟨g, e, A, D, a1, a2, a3, a4, -, rfl, -⟩ := Ok_iff.mp (C50_report jk' jw' hf hc' hnm)
  have h1 := C51_sound jk jw h0 env opts hq hf hc henv hb hnull hL hcm allow hw
  rw [hr, WpE_ok] at h1
  have h2 := le_trans h1 (a4.rank_le a1 a2 _ fun i j hij => (a3 i j i.2).mpr (hpos i j hij))
  obtain ⟨t, ht⟩ := dmReport_first (D.rr.g 3).toNat (D.rr.g 1).toNat (D.cc.g 2).toNat (D.rr.g 2 - D.rr.g 1).toNat
    (n - D.rr.g 2).toNat (m - D.cc.g 3).toNat D.sizes
  exact ⟨_, t, by rw [e, ht], h2⟩

/-- C83. If the values are less than 42013 in absolute value, then, whatever the options, the schedule, the random numbers
and the heuristic decisions, the number printed by `rank` is at most the structural rank printed by `dm --verbose`.

Missing: the bound on the values, without which the property is violated (`C83_large`): `dm` reads the file modulo 42013. -/
theorem C83_partial {jk jk' : Junk} {jw jw' : Nat → W} {h0 : Nat → B} {q : ℕ} [Fact q.Prime] {env : Env} {opts : Opts}
    (hq : q ≤ 0xfffffffb) {f : List Char} {n m : Nat} {l : List (Int × Int × Int)} (hf : IsFile f n m l)
    (hs : ∀ e ∈ l, |e.2.2| < 42013) (hc : NoCancel q l) (hc' : NoCancel 42013 l) (hnm : n + m < 2 ^ 31)
    (henv : env.Possible q) (hb : 0 < opts.block) (hnull : opts.max_round ≠ 0 ∨ jk.null0 = false)
    (hL : opts.L = false) (hcm : opts.complete = false) {allow : Bool}
    (hw : opts.tall = true → ∀ k, k ≤ min n m → |env.weight| * 2 ^ k < 2 ^ 31)
    {r : Nat} (hr : tool_rank jk jw h0 env opts f q allow = .ok r) :
    ∃ s t, tool_dm_verbose jk' jw' f = .ok ("structural rank = ".toList ++ dec (s : Nat) ++ "\n".toList ++ t) ∧ r ≤ s :=
  C83_positions hq hf hc hc' hnm (fun _ _ h => fileEntry_small hs hc' h) henv hb hnull hL hcm hw hr

/-- C83 (both programs). With an exact method, both programs print a number, and that of `rank` is at most that of
`dm --verbose`. -/
theorem C83_both_partial (jk jk' : Junk) (jw jw' : Nat → W) (h0 : Nat → B) {q : ℕ} [Fact q.Prime] {env : Env} {opts : Opts}
    (hq : q ≤ 0xfffffffb) (hx : Exact jk q env opts) {f : List Char} {n m : Nat} {l : List (Int × Int × Int)}
    (hf : IsFile f n m l) (hs : ∀ e ∈ l, |e.2.2| < 42013) (hc : NoCancel q l) (hc' : NoCancel 42013 l)
    (hnm : n + m < 2 ^ 31) (allow : Bool) :
    ∃ r s t, tool_rank jk jw h0 env opts f q allow = .ok r ∧ r = (fileMat q n m l).rank ∧
      tool_dm_verbose jk' jw' f = .ok ("structural rank = ".toList ++ dec (s : Nat) ++ "\n".toList ++ t) ∧ r ≤ s := by
  obtain ⟨r, e, e2⟩ := Ok_iff.mp (rank_exact jk jw env opts hq hf hc hx h0 allow)
  obtain ⟨s, t, h⟩ := C83_partial (jk' := jk') (jw' := jw') hq hf hs hc hc' hnm hx.possible hx.block hx.null hx.noL
    hx.incomplete (fun h => by rw [hx.noTall] at h; cases h) e
  exact ⟨r, s, t, e, e2, h⟩

/-- The hypotheses are met. -/
example := C83_both_partial (q := 7) default default exJw exJw default (by norm_num) exExact exSms_file (by decide)
  (exSms_noCancel 7) (exSms_noCancel 42013) (by decide) true

open Classical in
/-- The matrix with ones on the positions of a matching. -/
theorem rank_matching {F : Type} [_root_.Field F] {q n m : Nat} {l : List (Int × Int × Int)} {S : Finset (Nat × Nat)}
    (hS : FileMatching q n m l S) :
    S.card ≤ (Matrix.of fun (i : Fin n) (j : Fin m) => if (i.1, j.1) ∈ S then (1 : F) else 0).rank := by
  have e : (Matrix.of fun (i : Fin n) (j : Fin m) => if (i.1, j.1) ∈ S then (1 : F) else 0).submatrix
      (fun a : S => ⟨a.1.1, (hS.entry a.1 a.2).1⟩) (fun a : S => ⟨a.1.2, (hS.entry a.1 a.2).2.1⟩) = 1 := by
    ext a b
    rw [Matrix.submatrix_apply, Matrix.of_apply, Matrix.one_apply]
    by_cases hab : a = b
    · subst hab
      rw [if_pos a.2, if_pos rfl]
    · rw [if_neg hab, if_neg]
      intro h
      refine hab (Subtype.ext ?_)
      exact (hS.row _ a.2 _ h rfl).trans (hS.col _ h _ b.2 rfl)
  have := Matrix.rank_submatrix_le (Matrix.of fun (i : Fin n) (j : Fin m) => if (i.1, j.1) ∈ S then (1 : F) else 0)
      (fun a : S => ⟨a.1.1, (hS.entry a.1 a.2).1⟩) (fun a : S => ⟨a.1.2, (hS.entry a.1 a.2).2.1⟩)
  rwa [e, Matrix.rank_one, Fintype.card_coe] at this

/-- C83 (best possible). The structural rank printed is the largest rank, over any field, of the matrices whose nonzero
entries are on the nonzero positions of the file modulo 42013. -/
theorem C83_attained (jk : Junk) (jw : Nat → W) {f : List Char} {n m : Nat} {l : List (Int × Int × Int)}
    (hf : IsFile f n m l) (hc : NoCancel 42013 l) (hnm : n + m < 2 ^ 31) :
    ∃ s t, tool_dm_verbose jk jw f = .ok ("structural rank = ".toList ++ dec (s : Nat) ++ "\n".toList ++ t) ∧
      ∀ (F : Type) [_root_.Field F],
        (∃ M : Matrix (Fin n) (Fin m) F, (∀ i j, M i j ≠ 0 → fileEntry 42013 l i j ≠ 0) ∧ M.rank = s) ∧
        ∀ M : Matrix (Fin n) (Fin m) F, (∀ i j, M i j ≠ 0 → fileEntry 42013 l i j ≠ 0) → M.rank ≤ s := by
  classical
  obtain ⟨g, e, A, D, a1, a2, a3, a4, -, rfl, ⟨S, hS, hk⟩, -⟩ := Ok_iff.mp (C50_report jk jw hf hc hnm)
  obtain ⟨t, ht⟩ := dmReport_first (D.rr.g 3).toNat (D.rr.g 1).toNat (D.cc.g 2).toNat (D.rr.g 2 - D.rr.g 1).toNat
    (n - D.rr.g 2).toNat (m - D.cc.g 3).toNat D.sizes
  refine ⟨_, t, by rw [e, ht], fun F _ => ?_⟩
  have hle : ∀ M : Matrix (Fin n) (Fin m) F, (∀ i j, M i j ≠ 0 → fileEntry 42013 l i j ≠ 0) →
      M.rank ≤ (D.rr.g 3).toNat := fun M hM => a4.rank_le a1 a2 _ fun i j hij => (a3 i j i.2).mpr (hM i j hij)
  have hpos : ∀ (i : Fin n) (j : Fin m), (Matrix.of fun (i : Fin n) (j : Fin m) => if (i.1, j.1) ∈ S then (1 : F) else 0) i j ≠ 0 →
      fileEntry 42013 l i j ≠ 0 := by
    intro i j hij
    rw [Matrix.of_apply] at hij
    by_cases h : (i.1, j.1) ∈ S
    · exact (hS.entry _ h).2.2
    · exact absurd (if_neg h) hij
  refine ⟨⟨_, hpos, le_antisymm (hle _ hpos) ?_⟩, hle⟩
  have := rank_matching (F := F) hS
  rwa [hk] at this

/-- The hypotheses are met. -/
example := C83_attained default exJw exSms_file (exSms_noCancel 42013) (by decide)

/-! ### Large values -/

/-- A file with one entry, a multiple of 42013. -/
def exLargeFile : List Char := "1 1 M\n1 1 42013\n0 0 0\n".toList

theorem exLargeFile_file : IsFile exLargeFile 1 1 [(1, 1, 42013)] := by
  refine ⟨.inl ?_, by decide, by decide, by decide, by decide, by decide⟩
  refine ⟨"1 1 M".toList, ["1 1 42013".toList], "0 0 0".toList, [],
    ⟨⟨by decide, by decide, by decide⟩, [], [' '], [' '], [], by simp [Blank], by simp [Blank],
      by simp [Blank], by simp, by decide +kernel⟩, .cons ?_ .nil, ?_, by simp, by decide +kernel⟩ <;>
  exact ⟨⟨by decide, by decide, by decide⟩, [], [' '], [' '], [], by simp [Blank], by simp [Blank],
      by simp [Blank], by simp, by simp, by simp, by decide +kernel⟩

theorem fileMat_single {q : ℕ} [Fact q.Prime] {l : List (Int × Int × Int)} (h : fileEntry q l 0 0 ≠ 0) :
    (fileMat q 1 1 l).rank = 1 := by
  have hi : LinearIndependent (ZMod q) (fileMat q 1 1 l).row := by
    rw [Fintype.linearIndependent_iff]
    intro g hg i
    have := congrFun hg 0
    rw [Finset.sum_apply, Fin.sum_univ_one] at this
    rw [Subsingleton.elim i 0]
    exact (mul_eq_zero.mp this).resolve_right h
  have := hi.rank_matrix
  rwa [Fintype.card_fin] at this

/-- The number printed for a matrix with one entry. -/
theorem rank_single {jk : Junk} {jw : Nat → W} {h0 : Nat → B} {q : ℕ} [Fact q.Prime] {env : Env} {opts : Opts}
    (hq : q ≤ 0xfffffffb) (hx : Exact jk q env opts) {f : List Char} {l : List (Int × Int × Int)}
    (hf : IsFile f 1 1 l) (hc : NoCancel q l) (h : fileEntry q l 0 0 ≠ 0) :
    tool_rank jk jw h0 env opts f q false = .ok 1 := by
  obtain ⟨r, e, rfl⟩ := Ok_iff.mp (rank_exact jk jw env opts hq hf hc hx h0 false)
  rw [e, fileMat_single h]

/-- C83 (violated). Without the bound on the values: for some file, whatever the exact method, `rank` prints 1 for the
modulus 7 and `dm --verbose` prints that the structural rank is 0. -/
theorem C83_large (env : Env) (opts : Opts) (hx : Exact default 7 env opts) :
    tool_rank default exJw default env opts exLargeFile ((7 : ℕ) : Int) false = .ok 1 ∧
    tool_dm_verbose default exJw exLargeFile = .ok "structural rank = 0\n".toList := by
  have hd : Distinct [(1, 1, 42013)] := by unfold Distinct; decide
  have hv : fileEntry 7 [(1, 1, 42013)] 0 0 ≠ 0 := by decide
  have : Fact (Nat.Prime 7) := ⟨by norm_num⟩
  exact ⟨rank_single (by norm_num) hx exLargeFile_file hd.noCancel hv, by decide +kernel⟩

/-- There is such a method. -/
example := C83_large _ _ exExact

end Spasm
