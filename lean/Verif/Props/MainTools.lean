import Verif.Spec.MainTools
import Verif.Props.CommandLine
import Verif.Props.Bitmap
import Verif.Props.ToolCert
import Verif.Proofs.Width

/-
C66. The programs `bitmap`, `dm` and `check_cert`, from the command line to what they write.
-/

namespace Spasm

open Sha

/-! ### bitmap -/

section
variable (jk : Junk) (jw : Nat → W) (M : LibM) (atof : List Char → Dbl)

/-- The options in effect. -/
def bitmapMeans (l : List (BitmapOpt Int (List Char))) : BitmapOpts where
  w := lastVal BitmapOpt.widthOf (-1) l
  h := lastVal BitmapOpt.heightOf (-1) l
  mode := if .gray ∈ l then 2 else 1
  mpix := lastVal (fun a => (BitmapOpt.mpixelsOf a).map atof) (.fin (-1)) l

theorem bitmap_parse (l : List (BitmapOpt Int (List Char))) (hf : ∀ a ∈ l, a.Fits) :
    (l.map BitmapOpt.text).foldlM (parse_bitmap_opt atof) BitmapOpts.init = .ok (bitmapMeans atof l) := by
  induction l using List.reverseRecOn with
  | nil =>
    simp only [List.map_nil, List.foldlM_nil]
    unfold bitmapMeans
    simp [lastVal, BitmapOpts.init, pure, Except.pure]
  | append_singleton l a ih =>
    rw [List.map_append, List.foldlM_append, ih fun a ha => hf a (List.mem_append_left _ ha)]
    have ha := hf a (by simp)
    show ([a].map BitmapOpt.text).foldlM (parse_bitmap_opt atof) (bitmapMeans atof l) = _
    simp only [List.map_cons, List.map_nil, List.foldlM_cons, List.foldlM_nil]
    unfold bitmapMeans
    simp only [lastVal_snoc, List.mem_append, List.mem_singleton]
    cases a with
    | gray => simp [parse_bitmap_opt, BitmapOpt.text, BitmapOpt.widthOf, BitmapOpt.heightOf, BitmapOpt.mpixelsOf]
    | width n =>
      simp only [parse_bitmap_opt, BitmapOpt.text, ato_dec ha, BitmapOpt.widthOf, BitmapOpt.heightOf,
        BitmapOpt.mpixelsOf, reduceCtorEq, or_false]
      rfl
    | height n =>
      simp only [parse_bitmap_opt, BitmapOpt.text, ato_dec ha, BitmapOpt.widthOf, BitmapOpt.heightOf,
        BitmapOpt.mpixelsOf, reduceCtorEq, or_false]
      rfl
    | mpixels d =>
      simp only [parse_bitmap_opt, BitmapOpt.text, BitmapOpt.widthOf, BitmapOpt.heightOf,
        BitmapOpt.mpixelsOf, reduceCtorEq, or_false]
      rfl
    | unknown => exact absurd ha id

/-- C66. `bitmap`: the last value given to each option counts. -/
theorem C66_bitmap (l : List (BitmapOpt Int (List Char))) (hf : ∀ a ∈ l, a.Fits) (f : List Char) :
    main_bitmap jk jw M atof (l.map BitmapOpt.text) f = tool_bitmap_opts jk jw M (bitmapMeans atof l) f := by
  unfold main_bitmap
  rw [bitmap_parse atof l hf]
  rfl

/-- C66. Something that is not an option: nothing is written. -/
theorem C66_bitmap_unknown (l : List (BitmapOpt Int (List Char))) (hf : ∀ a ∈ l, a.Fits)
    (l' : List (BitmapOpt (List Char) (List Char))) (f : List Char) :
    main_bitmap jk jw M atof (l.map BitmapOpt.text ++ .unknown :: l') f = .error .exitErr := by
  unfold main_bitmap
  rw [List.foldlM_append, bitmap_parse atof l hf]
  rfl

variable {M} {lg ex sq : ℚ → ℚ} (hM : M.Good lg ex) (hS : M.Sqrt sq) {f : List Char} {n m : Nat}
  {e : List (Int × Int × Int)} (hf : IsFile f n m e) (hne : e ≠ []) (hlen : e.length < 2 ^ 31)
include hM hf hne hlen

/-- C66 (partial). `bitmap --width w --height h`, with or without `--gray`, in any order: an image of that size (or of
the size of the matrix), each pixel of which is as specified.  Missing: sizes of 0 or less, or `2^31` pixels (C62). -/
theorem C66_bitmap_size_partial (l : List (BitmapOpt Int (List Char))) (hl : ∀ a ∈ l, a.Fits) {w h : Nat} (hw : 1 ≤ w)
    (hh : 1 ≤ h) (hwh : min w m * min h n < 2 ^ 31) (h1 : lastVal BitmapOpt.widthOf (-1) l = w)
    (h2 : lastVal BitmapOpt.heightOf (-1) l = h) (h3 : ∀ d, .mpixels d ∉ l) :
    Ok (main_bitmap jk jw M atof (l.map BitmapOpt.text) f) fun img =>
      (.gray ∈ l → Drawn 2 e n m (min w m) (min h n) img) ∧ (.gray ∉ l → Drawn 1 e n m (min w m) (min h n) img) := by
  rw [C66_bitmap jk jw M atof l hl]
  have h4 : lastVal (fun a => (BitmapOpt.mpixelsOf a).map atof) (.fin (-1)) l = .fin (-1) := by
    unfold lastVal
    rw [List.filterMap_eq_nil_iff.mpr]
    · rfl
    · intro a ha
      cases a with
      | mpixels d => exact absurd ha (h3 d)
      | _ => rfl
  unfold bitmapMeans
  rw [h1, h2, h4]
  have key := C62_size_partial jk jw hM hf hne hlen (if BitmapOpt.gray ∈ l then 2 else 1) hw hh hwh
  refine Ok.mono key fun img hi => ⟨fun hg => ?_, fun hg => ?_⟩
  · rwa [if_pos hg] at hi
  · rwa [if_neg hg] at hi

include hS

/-- C66 (partial). `bitmap` without option, or with `--gray`: an image of at most a million pixels.  Missing: matrices
that are too elongated (C62). -/
theorem C66_bitmap_default_partial (l : List (BitmapOpt Int (List Char))) (hl : ∀ a ∈ l, a = .gray)
    (h1 : m < 1000000 * n) (h2 : n < 1000000 * m) :
    Ok (main_bitmap jk jw M atof (l.map BitmapOpt.text) f) fun img => ∃ w h : Nat, 1 ≤ w ∧ w ≤ m ∧ 1 ≤ h ∧ h ≤ n ∧
      w * h ≤ 1000000 ∧ w * n ≤ (h + 1) * m + 1 ∧ h * m ≤ (w + 1) * n + 1 ∧ (n * m < 1000000 → w = m ∧ h = n) ∧
      Drawn (if l = [] then 1 else 2) e n m w h img := by
  rw [C66_bitmap jk jw M atof l (fun a ha => by rw [hl a ha]; trivial)]
  have key : ∀ {β : Type} (g : BitmapOpt Int (List Char) → Option β) (d : β), g .gray = none → lastVal g d l = d := by
    intro β g d hg
    unfold lastVal
    rw [List.filterMap_eq_nil_iff.mpr]
    · rfl
    · intro a ha
      rw [hl a ha, hg]
  unfold bitmapMeans
  rw [key _ _ rfl, key _ _ rfl, key _ _ rfl]
  have hm : (if .gray ∈ l then 2 else 1 : Nat) = if l = [] then 1 else 2 := by
    cases l with
    | nil => simp
    | cons a l => rw [hl a (by simp)]; simp
  rw [hm]
  exact C62_default_partial jk jw hM hS hf hne hlen _ h1 h2

end

example (atof : List Char → Dbl) (jk : Junk) (jw : Nat → W) (M : LibM) (f : List Char) :
    main_bitmap jk jw M atof [.width "3".toList, .gray, .height "2".toList, .width "4".toList] f =
      tool_bitmap_opts jk jw M ⟨4, 2, 2, .fin (-1)⟩ f := by
  have h := C66_bitmap jk jw M atof [.width 3, .gray, .height 2, .width 4] (by
    intro a ha
    simp only [List.mem_cons, List.not_mem_nil, or_false] at ha
    rcases ha with rfl | rfl | rfl | rfl <;> simp [BitmapOpt.Fits]) f
  have e : bitmapMeans atof [.width 3, .gray, .height 2, .width 4] = ⟨4, 2, 2, .fin (-1)⟩ := by
    unfold bitmapMeans
    rw [if_pos (by simp)]
    rfl
  rw [e] at h
  exact h

/-! ### dm -/

theorem FileCsr.pat {q n m : Nat} {l : List (Int × Int × Int)} {A : Csr} (h : FileCsr q n m l A) :
    ∃ l', FilePat n m l' A ∧ l'.length ≤ l.length := by
  classical
  refine ⟨l.filter fun e => fileEntry q l (e.1 - 1).toNat (e.2.1 - 1).toNat ≠ 0,
    ⟨h.wfv.toWF, h.n_eq, h.m_eq, h.nodup, fun i j hi => ?_⟩, List.length_filter_le ..⟩
  rw [h.inRow hi]
  unfold FileHas
  constructor
  · intro hne
    obtain ⟨e, he, e1, e2⟩ : ∃ e ∈ l, e.1 = (i : Int) + 1 ∧ e.2.1 = (j : Int) + 1 := by
      by_contra hno
      push Not at hno
      refine hne ?_
      unfold fileEntry
      refine List.sum_eq_zero fun x hx => ?_
      obtain ⟨e, he, rfl⟩ := List.mem_map.mp hx
      rw [if_neg]
      rintro ⟨h1, h2⟩
      exact hno e he h1 h2
    refine ⟨e, List.mem_filter.mpr ⟨he, ?_⟩, e1, e2⟩
    rw [e1, e2]
    simpa using hne
  · rintro ⟨e, he, e1, e2⟩
    have := (List.mem_filter.mp he).2
    rw [e1, e2] at this
    simpa using this

section
variable (jk : Junk) (jw : Nat → W) (M : LibM) (atof : List Char → Dbl) (d0 : Dbl)

/-- What is to be written, with the size of the image. -/
def DmWhat.mode : DmWhat (List Char) → DmMode
  | .permuted => .p
  | .verbose => .v
  | .nothing => .t
  | .image _ => .i

theorem dm_parse (l : List (DmOpt (List Char))) (hf : ∀ a ∈ l, a.Known) :
    ∃ d, l.foldlM (parse_dm_opt atof) (.p, d0) = .ok ((lastVal DmOpt.whatOf .permuted l).mode, d) ∧
      ∀ s, lastVal DmOpt.whatOf .permuted l = .image s → d = atof s := by
  induction l using List.reverseRecOn with
  | nil => exact ⟨d0, rfl, fun s h => by cases h⟩
  | append_singleton l a ih =>
    obtain ⟨d, e, h⟩ := ih fun a ha => hf a (List.mem_append_left _ ha)
    have ha := hf a (by simp)
    rw [List.foldlM_append, e, lastVal_snoc]
    cases a with
    | permuted => exact ⟨d, rfl, fun s h => by cases h⟩
    | verbose => exact ⟨d, rfl, fun s h => by cases h⟩
    | tabulated => exact ⟨d, rfl, fun s h => by cases h⟩
    | image s => exact ⟨atof s, rfl, fun s' h => by cases h; rfl⟩
    | unknown => exact absurd ha id

/-- C66. `dm`, when the last option is `--permuted`, or without option (with C50_dm). -/
theorem C66_dm_permuted (l : List (DmOpt (List Char))) (hl : ∀ a ∈ l, a.Known)
    (hw : lastVal DmOpt.whatOf .permuted l = .permuted) (f : List Char) :
    main_dm jk jw M atof d0 l f = tool_dm jk jw f := by
  obtain ⟨d, e, -⟩ := dm_parse atof d0 l hl
  unfold main_dm
  rw [e, hw]
  rfl

/-- C66. `dm`, when the last option is `--verbose` (with C50_report). -/
theorem C66_dm_verbose (l : List (DmOpt (List Char))) (hl : ∀ a ∈ l, a.Known)
    (hw : lastVal DmOpt.whatOf .permuted l = .verbose) (f : List Char) :
    main_dm jk jw M atof d0 l f = tool_dm_verbose jk jw f := by
  obtain ⟨d, e, -⟩ := dm_parse atof d0 l hl
  unfold main_dm
  rw [e, hw]
  rfl

/-- C66. `dm`, when the last option is `--tabulated`: nothing is written. -/
theorem C66_dm_tabulated (l : List (DmOpt (List Char))) (hl : ∀ a ∈ l, a.Known)
    (hw : lastVal DmOpt.whatOf .permuted l = .nothing) {f : List Char} {n m : Nat} {e : List (Int × Int × Int)}
    (hf : IsFile f n m e) (hc : NoCancel 42013 e) : main_dm jk jw M atof d0 l f = .ok [] := by
  obtain ⟨d, ed, -⟩ := dm_parse atof d0 l hl
  unfold main_dm
  rw [ed, hw]
  have : Ok (do let (T, _) ← triplet_load jk jw f 42013 none
                let A ← compress jk T
                let (D, B) ← dm_decompose jk A
                dm_print jk M A.n A.m D B .t d) (fun g => g = []) := by
    refine tool_load jk jw (q := 42013) (by omega) hf hc ?_
    intro A hA
    rw [Ok_bind]
    refine (dm_decompose_spec jk hA.wfv.toWF).mono ?_
    rintro ⟨D, B⟩ -
    exact rfl
  obtain ⟨g, eg, rfl⟩ := Ok_iff.mp this
  exact eg

/-- C66. Something that is not an option: nothing is written. -/
theorem C66_dm_unknown (l : List (DmOpt (List Char))) (hl : ∀ a ∈ l, a.Known) (l' : List (DmOpt (List Char)))
    (f : List Char) : main_dm jk jw M atof d0 (l ++ .unknown :: l') f = .error .exitErr := by
  obtain ⟨d, e, -⟩ := dm_parse atof d0 l hl
  unfold main_dm
  rw [List.foldlM_append, e]
  rfl

theorem dm_dims_of {n m : Nat} {q : ℚ} (hq : 0 < q) {w h : Nat}
    (hd : bitmap_dims M n m ⟨-1, -1, 1, .fin (-1)⟩ (.fin q) = .ok ((w : Int), (h : Int))) :
    ∃ w' h' : Int, dm_dims M n m (.fin q) = .ok (w', h') ∧ min w' m = w ∧ min h' n = h := by
  unfold bitmap_dims at hd
  rw [if_pos ⟨by simp [Dbl.lt, hq], by decide, by decide⟩] at hd
  unfold dm_dims
  simp only at hd ⊢
  cases h1 : ((bitmap_alpha M n m (.fin q)).mul (Dbl.ofInt m)).toI32 with
  | error e => rw [h1] at hd; cases hd
  | ok w1 =>
    rw [h1] at hd
    cases h2 : ((bitmap_alpha M n m (.fin q)).mul (Dbl.ofInt n)).toI32 with
    | error e =>
      simp only [h2] at hd
      cases hd
    | ok h1' =>
      simp only [h2] at hd
      refine ⟨w1, h1', rfl, ?_⟩
      have hd : (Except.ok (min w1 (m : Int), min h1' (n : Int)) : C (Int × Int)) = .ok ((w : Int), (h : Int)) := hd
      simp only [Except.ok.injEq, Prod.mk.injEq] at hd
      exact hd

theorem save_ppm_min (B : Csr) (w h : Int) (D : Dm) : save_ppm jk B w h D = save_ppm jk B (min w B.m) (min h B.n) D := by
  unfold save_ppm
  simp only [min_assoc, min_self]

variable {M} {sq : ℚ → ℚ} (hS : M.Sqrt sq) (l : List (DmOpt (List Char))) (hl : ∀ a ∈ l, a.Known) {s : List Char}
  (hw : lastVal DmOpt.whatOf .permuted l = .image s) {q : ℚ} (hq : 0 < q) (hq2 : q ≤ 1000) (hs : atof s = .fin q)
  {f : List Char} {n m : Nat} {e : List (Int × Int × Int)} (hf : IsFile f n m e) (hc : NoCancel 42013 e) (hne : e ≠ [])
include hS hl hw hq hq2 hs hf hc hne

/-- What is written, once the matrix has been decomposed. -/
theorem dm_image_run {w h : Nat} (hd : bitmap_dims M n m ⟨-1, -1, 1, .fin (-1)⟩ (.fin q) = .ok ((w : Int), (h : Int)))
    {Q : List Char → Prop} (hk : ∀ A D B, FileCsr 42013 n m e A → dm_decompose jk A = .ok (D, B) →
      Ok (save_ppm jk B w h D) Q) : Ok (main_dm jk jw M atof d0 l f) Q := by
  obtain ⟨d, ed, hd0⟩ := dm_parse atof d0 l hl
  obtain ⟨w', h', ew, e1, e2⟩ := dm_dims_of M hq hd
  unfold main_dm
  rw [ed, hw]
  show Ok (do let (T, _) ← triplet_load jk jw f 42013 none
              let A ← compress jk T
              let (D, B) ← dm_decompose jk A
              dm_print jk M A.n A.m D B .i d) Q
  refine tool_load jk jw (q := 42013) (by omega) hf hc ?_
  intro A hA
  obtain ⟨⟨D, B⟩, eD, h1, h2, -, hB, hBn, hBm, -⟩ := Ok_iff.mp (dm_decompose_spec jk hA.wfv.toWF)
  rw [eD]
  show Ok (dm_print jk M A.n A.m D B .i d) Q
  unfold dm_print
  simp only at hBn hBm
  rw [hA.n_eq, hA.m_eq, hd0 s hw, hs]
  simp only [ew, Ok_bind, Ok_ok]
  rw [save_ppm_min, hBn, hBm, hA.n_eq, hA.m_eq, e1, e2]
  exact hk A D B hA eD

/-- C66 (partial). `dm`, when the last option is `--image q` with `0 < q ≤ 1000`: an image in colours of at most `q`
million pixels, not larger than the matrix, with its proportions; it shows the matrix with permuted rows and columns;
the background shows the parts of the decomposition.  Missing: matrices that are too elongated. -/
theorem C66_dm_image_partial (hlen : e.length < 2 ^ 31) (h1 : (m : ℚ) ≤ q * 1000000 * n * (1 - 1 / 2 ^ 49))
    (h2 : (n : ℚ) ≤ q * 1000000 * m * (1 - 1 / 2 ^ 49)) :
    Ok (main_dm jk jw M atof d0 l f) fun img => ∃ (A : Csr) (D : Dm) (B : Csr) (w h : Nat),
      (∀ i j, i < n → (A.InRow i j ↔ fileEntry 42013 e i j ≠ 0)) ∧ IsCoarse A D ∧
      (∀ i j, i < n → j < m → (B.InRow i j ↔ A.InRow (D.p.g i) (D.q.g j))) ∧ 1 ≤ w ∧ w ≤ m ∧ 1 ≤ h ∧ h ≤ n ∧
      (w : ℚ) * h ≤ q * 1000000 * (1 + 1 / 2 ^ 48) ∧
      (w : ℚ) * n ≤ (h + 1) * m * (1 + 1 / 2 ^ 50) ∧ (h : ℚ) * m ≤ (w + 1) * n * (1 + 1 / 2 ^ 50) ∧
      ((n : ℚ) * m < q * 1000000 * (1 - 1 / 2 ^ 49) → w = m ∧ h = n) ∧
      ∃ color : Nat → Nat → Nat × Nat × Nat, IsPpm img w h color ∧ ∀ u v, u < h → v < w →
        (color u v = (0, 0, 0) ↔ Black B w h u v) ∧
        (¬ Black B w h u v → ∃ p, Background D n m w h u v p ∧ color u v = rgb p) := by
  have hnm : 1 ≤ n ∧ 1 ≤ m := by
    obtain ⟨x, hx⟩ := List.exists_mem_of_ne_nil e hne
    have := hf.row x hx
    have := hf.col x hx
    omega
  obtain ⟨w, h, hd, b1, b2, b3, b4, b5, b6, b7, b8, -⟩ :=
    bitmap_dims_spec hS hnm.1 hnm.2 hf.n_lt hf.m_lt hq hq2 (o := ⟨-1, -1, 1, .fin (-1)⟩)
      (by show (-1 : Int) < 0; decide) (by show (-1 : Int) < 0; decide)
  have hh := b7 h1
  have hw1 := b8 h2
  refine dm_image_run jk jw atof d0 hS l hl hw hq hq2 hs hf hc hne hd ?_
  intro A D B hA eD
  have ew : min w A.m = w := by rw [hA.m_eq]; omega
  have eh : min h A.n = h := by rw [hA.n_eq]; omega
  have hwh : w * h < 2 ^ 31 := by
    have : (w : ℚ) * h ≤ 1000 * 1000000 * (1 + 1 / 2 ^ 48) := b3.trans (by
      have : (0 : ℚ) ≤ 1 + 1 / 2 ^ 48 := by norm_num
      exact mul_le_mul_of_nonneg_right (by linarith) this)
    have : ((w * h : Nat) : ℚ) < ((2 ^ 31 : Nat) : ℚ) := by
      push_cast
      refine lt_of_le_of_lt this ?_
      norm_num
    exact_mod_cast this
  have hnz : A.p.g A.n ≤ e.length := by
    obtain ⟨l', p1, p2⟩ := hA.pat
    exact p1.nnz_le.trans p2
  have key := C45_color jk jk (A := A) hA.wfv.toWF hw1 hh (by rw [hA.n_eq]; omega) (by rw [hA.m_eq]; omega)
    (by rw [hA.n_eq]; exact hf.n_lt) (by rw [hA.m_eq]; exact hf.m_lt) (lt_of_le_of_lt hnz hlen)
    (by rw [ew, eh]; exact hwh)
  rw [eD] at key
  obtain ⟨k1, k2, k3⟩ := (Ok_ok ..).mp key
  simp only at k1 k2 k3
  refine k3.mono fun img ⟨color, c1, c2⟩ => ⟨A, D, B, w, h, fun i j hi => hA.inRow hi, k1, ?_, hw1, b1, hh, b2, b3, b4, b5,
    b6, color, ?_⟩
  · rw [hA.n_eq, hA.m_eq] at k2
    exact k2
  · rw [ew, eh, hA.n_eq, hA.m_eq] at *
    exact ⟨c1, c2⟩

/-- C66 (defect). `dm --image q`, for every file of a nonzero matrix that has too many columns for each row: an access
out of bounds. -/
theorem C66_dm_elongated {i j : Nat} (hi : i < n) (hij : fileEntry 42013 e i j ≠ 0)
    (h : q * 1000000 * n * (1 + 1 / 2 ^ 48) < m) : main_dm jk jw M atof d0 l f = .error .ub := by
  have hnm : 1 ≤ n ∧ 1 ≤ m := by
    obtain ⟨x, hx⟩ := List.exists_mem_of_ne_nil e hne
    have := hf.row x hx
    have := hf.col x hx
    omega
  obtain ⟨w, h', hd, -, -, -, -, -, -, -, -, a9⟩ :=
    bitmap_dims_spec hS hnm.1 hnm.2 hf.n_lt hf.m_lt hq hq2 (o := ⟨-1, -1, 1, .fin (-1)⟩)
      (by show (-1 : Int) < 0; decide) (by show (-1 : Int) < 0; decide)
  obtain ⟨d, ed, hd0⟩ := dm_parse atof d0 l hl
  obtain ⟨w', h', ew, e1, e2⟩ := dm_dims_of M hq hd
  obtain ⟨⟨T, md⟩, eT, hT⟩ := Ok_iff.mp (load_file jk jw (q := 42013) (by omega) hf (hash := none) (by rintro _ h; cases h))
  obtain ⟨A, eA, hA⟩ := Ok_iff.mp (compress_file jk hT hc)
  obtain ⟨⟨D, B⟩, eD, h1, h2, -, hB, hBn, hBm, hBz, -⟩ := Ok_iff.mp (dm_decompose_spec jk hA.wfv.toWF)
  simp only at hBn hBm hBz
  have hz : 0 < B.p.g B.n := by
    rw [hBz]
    obtain ⟨k, k1, k2, -⟩ := (hA.inRow hi).mpr hij
    have := hA.wfv.toWF.row_le (i := i) (by rw [hA.n_eq]; exact hi)
    omega
  unfold main_dm
  rw [ed, hw]
  show (triplet_load jk jw f 42013 none >>= fun r => compress jk r.1 >>= fun A => dm_decompose jk A >>= fun r =>
    dm_print jk M A.n A.m r.1 r.2 .i d) = _
  have eT : triplet_load jk jw f 42013 none = .ok (T, md) := eT
  rw [eT, ok_bind_eq, eA, ok_bind_eq, eD, ok_bind_eq]
  unfold dm_print
  simp only
  rw [hA.n_eq, hA.m_eq, hd0 s hw, hs]
  show (dm_dims M n m (.fin q) >>= fun r => save_ppm jk B r.1 r.2 D) = _
  rw [ew, ok_bind_eq]
  unfold save_ppm
  have hcz : pnm_cells jk B (min w' B.m) (min h' B.n) = .error .ub := by
    refine pnm_cells_zero jk hB hz (.inr ?_)
    rw [hBn, hA.n_eq, e2, a9 h]
    rfl
  simp only [hcz]
  rfl

end

/-- `--image 1` after other options: the file of a matrix with 2 rows and 3 columns. -/
example : lastVal DmOpt.whatOf .permuted [.image "2".toList, .verbose, .image "1".toList] = .image "1".toList ∧
    lastVal DmOpt.whatOf .permuted [.image "1".toList, .tabulated] = .nothing ∧
    (3 : ℚ) ≤ 1 * 1000000 * 2 * (1 - 1 / 2 ^ 49) ∧ (2 : ℚ) ≤ 1 * 1000000 * 3 * (1 - 1 / 2 ^ 49) :=
  ⟨rfl, rfl, by norm_num, by norm_num⟩

/-! ### check_cert -/

section
variable (jk : Junk) (jw : Nat → W) (jc : Nat → Char) (h0 : Nat → B) (c0 : Cert) (ctx0 : Prng) (fuel : Nat) (sys : Sys)
  (rest : List Char)

theorem check_parse (l : List (CheckOpt Int)) (hf : ∀ a ∈ l, a.Fits) :
    (l.map CheckOpt.text).foldlM parse_check_opt (none, InputArgs.init) =
      .ok (lastVal CheckOpt.certOf none l, ⟨lastVal CheckOpt.fileOf none l, lastVal CheckOpt.modulusOf 42013 l⟩) := by
  induction l using List.reverseRecOn with
  | nil => rfl
  | append_singleton l a ih =>
    rw [List.map_append, List.foldlM_append, ih fun a ha => hf a (List.mem_append_left _ ha)]
    have ha := hf a (by simp)
    simp only [lastVal_snoc]
    cases a with
    | certificate f => rfl
    | input o =>
      cases o with
      | matrix f => rfl
      | modulus p =>
        have ha : -2 ^ 63 ≤ p ∧ p < 2 ^ 63 := ha
        simp only [List.map_cons, List.map_nil, CheckOpt.text, InputOpt.text, ok_bind_eq, List.foldlM_cons,
          List.foldlM_nil, parse_check_opt, parse_input_opt, ato_dec ha]
        rfl
    | arg s => exact absurd ha id
    | unknown => exact absurd ha id

/-- C66. `check_cert` with a certificate in a file: the matrix is read from the last file given with `--matrix`, else
from the standard input; the modulus is the last one given, else 42013; the verdict is that of C44. -/
theorem C66_check (l : List (CheckOpt Int)) (hl : ∀ a ∈ l, a.Fits) {c : List Char}
    (hc : lastVal CheckOpt.certOf none l = some c) {fA fC : List Char}
    (hA : read_file sys (lastVal CheckOpt.fileOf none l) = .ok fA) (hC : sys.file c = some fC) :
    main_check_cert jk jw jc h0 c0 ctx0 fuel sys rest (l.map CheckOpt.text) =
      tool_check_cert jk jw jc h0 c0 ctx0 fuel fA fC (lastVal CheckOpt.modulusOf 42013 l) := by
  unfold main_check_cert
  rw [check_parse l hl, ok_bind_eq]
  simp only
  rw [hA, ok_bind_eq, hc]
  have : ∀ s, read_file { sys with stdin := s } (some c) = .ok fC := by
    intro s
    unfold read_file
    simp only [hC]
  simp only [this]
  rfl

/-- C66. When both are read from the standard input, the certificate is what follows the matrix. -/
theorem C66_check_stdin (l : List (CheckOpt Int)) (hl : ∀ a ∈ l, a.Fits) (hc : lastVal CheckOpt.certOf none l = none)
    (hA : lastVal CheckOpt.fileOf none l = none) :
    main_check_cert jk jw jc h0 c0 ctx0 fuel sys rest (l.map CheckOpt.text) =
      tool_check_cert jk jw jc h0 c0 ctx0 fuel sys.stdin rest (lastVal CheckOpt.modulusOf 42013 l) := by
  unfold main_check_cert
  rw [check_parse l hl, ok_bind_eq]
  simp only
  rw [hA, hc]
  rfl

/-- C66. A file that cannot be opened. -/
theorem C66_check_missing (l : List (CheckOpt Int)) (hl : ∀ a ∈ l, a.Fits) {g : List Char}
    (hA : lastVal CheckOpt.fileOf none l = some g) (hg : sys.file g = none) :
    main_check_cert jk jw jc h0 c0 ctx0 fuel sys rest (l.map CheckOpt.text) = .error .exitErr := by
  unfold main_check_cert
  rw [check_parse l hl, ok_bind_eq]
  simp only
  rw [hA]
  unfold read_file
  simp only [hg]
  rfl

/-- C66. An argument which is not an option. -/
theorem C66_check_argument (l : List (CheckOpt Int)) (hl : ∀ a ∈ l, a.Fits) (s : List Char)
    (l' : List (CheckOpt (List Char))) :
    main_check_cert jk jw jc h0 c0 ctx0 fuel sys rest (l.map CheckOpt.text ++ .arg s :: l') = .error .exitErr := by
  unfold main_check_cert
  rw [List.foldlM_append, check_parse l hl]
  rfl

end

/-- C66 (defect). Whatever the matrix and the certificate of a nonzero rank in the files given on the command line, there
is a content of the memory with which the program says that the certificate is correct. -/
theorem C66_check_blind (jw : Nat → W) (jc : Nat → Char) (h0 : Nat → B) {c0 : Cert} (hc0 : c0.hash.size = 32)
    (ctx0 : Prng) (fuel : Nat) (sys : Sys) (rest : List Char) (l : List (CheckOpt Int)) (hl : ∀ a ∈ l, a.Fits)
    {q : ℕ} (hq : 2 ≤ q ∧ q ≤ 0xfffffffb) (hp : lastVal CheckOpt.modulusOf 42013 l = q) {g : List Char}
    (hc : lastVal CheckOpt.certOf none l = some g) {f : List Char}
    (hA : read_file sys (lastVal CheckOpt.fileOf none l) = .ok f) {n m : Nat} {e : List (Int × Int × Int)}
    (hf : IsFile f n m e) (hn : NoCancel q e) {c : Cert} (hfit : c.Fits) (hr : 0 < c.r)
    (hC : sys.file g = some (certText c)) :
    ∃ jk : Junk, main_check_cert jk jw jc h0 c0 ctx0 fuel sys rest (l.map CheckOpt.text) =
      .ok ("CORRECT certificate\n".toList, false) := by
  obtain ⟨jk, h⟩ := C44_blind jw jc h0 hc0 ctx0 fuel hq hf hn hfit hr
  obtain ⟨r, e, rfl⟩ := Ok_iff.mp h
  refine ⟨jk, ?_⟩
  rw [C66_check jk jw jc h0 c0 ctx0 fuel sys rest l hl hc hA hC, hp]
  exact e

example (f g : List Char) : lastVal CheckOpt.certOf none [.input (.modulus 7), .certificate g, .input (.matrix f)] = some g ∧
    lastVal CheckOpt.fileOf none [.input (.modulus 7), .certificate g, .input (.matrix f)] = some f ∧
    lastVal CheckOpt.modulusOf 42013 [.input (.modulus 7), .certificate g, .input (.matrix f)] = 7 := ⟨rfl, rfl, rfl⟩

attribute [local irreducible] main_check_cert in
/-- `check_cert --modulus 7 --certificate c` with the certificate of another matrix. -/
example : ∃ jk : Junk, main_check_cert jk exJw default (fun _ => 0) exCert exPrng 20
    ⟨exWideFile, fun g => if g = ['c'] then some (certText exCert) else none⟩ []
    ([.input (.modulus 7), .certificate ['c']].map CheckOpt.text) = .ok ("CORRECT certificate\n".toList, false) :=
  C66_check_blind (q := 7) exJw default (fun _ => 0) (by simp [exCert, exHash]) exPrng 20 _ [] _ (by
    intro a ha
    simp only [List.mem_cons, List.not_mem_nil, or_false] at ha
    rcases ha with rfl | rfl <;> simp [CheckOpt.Fits]) (by norm_num) rfl rfl rfl exWideFile_file
    exWideFile_noCancel exCert_fits (by decide) (by simp)

end Spasm
