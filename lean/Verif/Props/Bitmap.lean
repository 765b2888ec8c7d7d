import Verif.Props.Gray
import Verif.Props.ToolDm

/-!
C62: the images drawn by the program `bitmap` from a file.  The image is specified in Spec/Bitmap.lean.
-/

namespace Spasm

open Sha

/-- The image: black and white, or in gray levels. -/
def Drawn (mode : Nat) (l : List (Int × Int × Int)) (n m w h : Nat) (img : List Char) : Prop :=
  if mode = 2 then ∃ level, IsPgm img w h level ∧ Levels w h (filePix l n m w h) level
  else IsPbm img w h (FileBlack l n m w h)

theorem FilePat.nnz_pos {n m : Nat} {l : List (Int × Int × Int)} {A : Csr} (h : FilePat n m l A) {f : List Char} (hf : IsFile f n m l) (hne : l ≠ []) : 0 < A.p.g A.n ∧ 0 < n ∧ 0 < m := by
  obtain ⟨e, he⟩ := List.exists_mem_of_ne_nil l hne
  obtain ⟨r1, r2⟩ := hf.row e he
  obtain ⟨c1, c2⟩ := hf.col e he
  obtain ⟨k, k1, k2, -⟩ := (h.has (e.1 - 1).toNat (e.2.1 - 1).toNat (by omega)).mpr ⟨e, he, by omega, by omega⟩
  have := h.wf.row_le (i := (e.1 - 1).toNat) (by rw [h.n_eq]; omega)
  exact ⟨by omega, by omega, by omega⟩

/-- The two steps of the program. -/
theorem tool_bitmap_opts_eq (jk : Junk) (jw : Nat → W) (M : LibM) (o : BitmapOpts) (f : List Char) :
    tool_bitmap_opts jk jw M o f = (do
      let A ← (do let (T, _) ← triplet_load jk jw f (-1) none
                  compress jk T)
      let mpix ← bitmap_mpix o
      let (w, h) ← bitmap_dims M A.n A.m o mpix
      if o.mode = 2 then save_pgm jk M A w h else save_pbm jk A w h) := by
  unfold tool_bitmap_opts
  rcases triplet_load jk jw f (-1) none with _ | ⟨T, _⟩
  · rfl
  · show (compress jk T >>= _) = (compress jk T >>= _)
    rfl

theorem bitmap_draw (jk : Junk) (jw : Nat → W) {M : LibM} {lg ex : ℚ → ℚ} (hM : M.Good lg ex) {f : List Char}
    {n m : Nat} {l : List (Int × Int × Int)} (hf : IsFile f n m l) (hne : l ≠ []) (hlen : l.length < 2 ^ 31)
    {o : BitmapOpts} {mpix : Dbl} {w h : Nat} (h1 : bitmap_mpix o = .ok mpix)
    (h2 : bitmap_dims M n m o mpix = .ok ((w : Int), (h : Int))) (hw : 1 ≤ w) (hwm : w ≤ m) (hh : 1 ≤ h) (hhn : h ≤ n)
    (hwh : w * h < 2 ^ 31) : Ok (tool_bitmap_opts jk jw M o f) (Drawn o.mode l n m w h) := by
  rw [tool_bitmap_opts_eq, Ok_bind]
  refine (load_pattern jk jw hf hne).mono fun A hA => ?_
  rw [h1]
  have hn := hf.n_lt
  have hm := hf.m_lt
  have hnz := hA.nnz_le
  have hpos := hA.nnz_pos hf hne
  have hn_eq := hA.n_eq
  have hm_eq := hA.m_eq
  show Ok (bitmap_dims M A.n A.m o mpix >>= _) _
  rw [hn_eq, hm_eq, h2]
  show Ok (if o.mode = 2 then save_pgm jk M A w h else save_pbm jk A w h) _
  have ew : min w A.m = w := by omega
  have eh : min h A.n = h := by omega
  unfold Drawn
  split_ifs with hmode
  · refine (C61_gray_partial jk hM hA.wf hw hh (by omega) hpos.1 (by omega) (by rw [ew, eh]; exact hwh)).mono ?_
    rintro img ⟨level, i1, i2⟩
    rw [ew, eh] at i1 i2
    refine ⟨level, i1, ?_⟩
    rwa [show pixCount A w h = filePix l n m w h from funext fun u => funext fun v => hA.count w h u v] at i2
  · refine (C45_bw_partial jk hA.wf hw hh (by omega) (by omega) (by rw [ew, eh]; exact hwh)).mono ?_
    intro img hi
    rw [ew, eh] at hi
    rwa [show Black A w h = FileBlack l n m w h from
      funext fun u => funext fun v => propext (hA.black w h u v)] at hi

/-- C62 (partial), `--mpixels q` with `0 < q ≤ 1000`. For every file with at least one entry, the image has about `q`
million pixels at most, it is never larger than the matrix, its proportions are those of the matrix up to one row or
column of pixels, and it is the matrix itself when the matrix has less than `q` million positions.  A pixel is black
when an entry falls on it (or its level is as specified in `Levels`).  Missing: matrices that are too elongated
(`C62_elongated`). -/
theorem C62_mpixels_partial (jk : Junk) (jw : Nat → W) {M : LibM} {lg ex sq : ℚ → ℚ} (hM : M.Good lg ex)
    (hS : M.Sqrt sq) {f : List Char} {n m : Nat} {l : List (Int × Int × Int)} (hf : IsFile f n m l) (hne : l ≠ [])
    (hlen : l.length < 2 ^ 31) {o : BitmapOpts} (hw : o.w < 0) (hh : o.h < 0) {q : ℚ} (hq : 0 < q) (hq2 : q ≤ 1000)
    (ho : o.mpix = .fin q) (h1 : (m : ℚ) ≤ q * 1000000 * n * (1 - 1 / 2 ^ 49))
    (h2 : (n : ℚ) ≤ q * 1000000 * m * (1 - 1 / 2 ^ 49)) :
    Ok (tool_bitmap_opts jk jw M o f) (fun img => ∃ w h : Nat, 1 ≤ w ∧ w ≤ m ∧ 1 ≤ h ∧ h ≤ n ∧
      (w : ℚ) * h ≤ q * 1000000 * (1 + 1 / 2 ^ 48) ∧
      (w : ℚ) * n ≤ (h + 1) * m * (1 + 1 / 2 ^ 50) ∧ (h : ℚ) * m ≤ (w + 1) * n * (1 + 1 / 2 ^ 50) ∧
      ((n : ℚ) * m < q * 1000000 * (1 - 1 / 2 ^ 49) → w = m ∧ h = n) ∧ Drawn o.mode l n m w h img) := by
  have hnm : 1 ≤ n ∧ 1 ≤ m := by
    obtain ⟨e, he⟩ := List.exists_mem_of_ne_nil l hne
    have := hf.row e he
    have := hf.col e he
    omega
  obtain ⟨w, h, d, a1, a2, a3, a4, a5, a6, a7, a8, -⟩ :=
    bitmap_dims_spec hS hnm.1 hnm.2 hf.n_lt hf.m_lt hq hq2 hw hh
  have hx : bitmap_mpix o = .ok (.fin q) := by
    unfold bitmap_mpix
    rw [if_neg (by rintro ⟨-, h | h⟩ <;> omega), if_neg, ho]
    rintro ⟨h, -⟩
    rw [ho] at h
    simp only [Dbl.lt, decide_eq_true_eq] at h
    linarith
  have hlt : w * h < 2 ^ 31 := by
    have : (w : ℚ) * h < 2 ^ 31 := by
      refine lt_of_le_of_lt a3 ?_
      have : q * 1000000 * (1 + 1 / 2 ^ 48) ≤ 1000 * 1000000 * (1 + 1 / 2 ^ 48) := by gcongr
      refine lt_of_le_of_lt this ?_
      norm_num
    exact_mod_cast this
  exact (bitmap_draw jk jw hM hf hne hlen hx d (a8 h2) a1 (a7 h1) a2 hlt).mono fun img hi =>
    ⟨w, h, a8 h2, a1, a7 h1, a2, a3, a4, a5, a6, hi⟩

/-- C62 (partial), without option. For every file with at least one entry of a matrix such that no side is a million
times the other: the image has at most a million pixels, it is never larger than the matrix, it is the matrix itself
when the matrix has less than a million positions, and its proportions are those of the matrix up to one row or column
of pixels.  Missing: elongated matrices (`C62_elongated`). -/
theorem C62_default_partial (jk : Junk) (jw : Nat → W) {M : LibM} {lg ex sq : ℚ → ℚ} (hM : M.Good lg ex)
    (hS : M.Sqrt sq) {f : List Char} {n m : Nat} {l : List (Int × Int × Int)} (hf : IsFile f n m l) (hne : l ≠ [])
    (hlen : l.length < 2 ^ 31) (mode : Nat) (h1 : m < 1000000 * n) (h2 : n < 1000000 * m) :
    Ok (tool_bitmap_opts jk jw M ⟨-1, -1, mode, .fin (-1)⟩ f) (fun img => ∃ w h : Nat, 1 ≤ w ∧ w ≤ m ∧ 1 ≤ h ∧ h ≤ n ∧
      w * h ≤ 1000000 ∧ w * n ≤ (h + 1) * m + 1 ∧ h * m ≤ (w + 1) * n + 1 ∧
      (n * m < 1000000 → w = m ∧ h = n) ∧ Drawn mode l n m w h img) := by
  have hnm : 1 ≤ n ∧ 1 ≤ m := by
    obtain ⟨e, he⟩ := List.exists_mem_of_ne_nil l hne
    have := hf.row e he
    have := hf.col e he
    omega
  have hn := hf.n_lt
  have hm := hf.m_lt
  obtain ⟨w, h, d, a1, a2, a3, a4, a5, a6, a7, a8, -⟩ :=
    bitmap_dims_spec hS hnm.1 hnm.2 hn hm (q := 1) (by norm_num) (by norm_num)
      (o := ⟨-1, -1, mode, .fin (-1)⟩) (by show (-1 : Int) < 0; decide)
      (by show (-1 : Int) < 0; decide)
  have hx : bitmap_mpix ⟨-1, -1, mode, .fin (-1)⟩ = .ok (.fin 1) := by
    unfold bitmap_mpix
    rw [if_neg (by rintro ⟨-, h | h⟩ <;> exact absurd h (by show ¬ (0 : Int) < -1; decide)), if_pos]
    exact ⟨by show decide ((-1 : ℚ) < 0) = true; decide +kernel, by show (-1 : Int) < 0; decide,
      by show (-1 : Int) < 0; decide⟩
  have side : ∀ {a b : Nat}, a < 2 ^ 31 → a < 1000000 * b → (a : ℚ) ≤ 1 * 1000000 * b * (1 - 1 / 2 ^ 49) := by
    intro a b ha hab
    by_cases hb : b < 4096
    · have h1 : (a : ℚ) + 1 ≤ 1000000 * b := by exact_mod_cast hab
      have h2 : (b : ℚ) < 4096 := by exact_mod_cast hb
      norm_num
      linarith
    · have h1 : (a : ℚ) < 2147483648 := by exact_mod_cast (by omega : a < 2147483648)
      have h2 : (4096 : ℚ) ≤ b := by exact_mod_cast (by omega : 4096 ≤ b)
      norm_num
      linarith
  have b1 := a7 (side hm h1)
  have b2 := a8 (side hn h2)
  have b3 : w * h ≤ 1000000 := by
    have : (w : ℚ) * h < 1000001 := lt_of_le_of_lt a3 (by norm_num)
    have : w * h < 1000001 := by exact_mod_cast this
    omega
  have prop : ∀ {w h n m : Nat}, h ≤ 1000000 → m < 2 ^ 31 → (w : ℚ) * n ≤ (h + 1) * m * (1 + 1 / 2 ^ 50) →
      w * n ≤ (h + 1) * m + 1 := by
    intro w h n m hh hm hp
    have h1 : (h : ℚ) + 1 ≤ 1000001 := by exact_mod_cast (by omega : h + 1 ≤ 1000001)
    have h2 : (m : ℚ) ≤ 2147483648 := by exact_mod_cast (by omega : m ≤ 2147483648)
    have h3 : ((h : ℚ) + 1) * m ≤ 1000001 * 2147483648 := by gcongr
    have h4 : (w : ℚ) * n < (h + 1) * m + 2 := by
      norm_num at hp h3 ⊢
      linarith
    have h5 : w * n < (h + 1) * m + 2 := by exact_mod_cast h4
    omega
  have hw' : w ≤ 1000000 := le_trans (Nat.le_mul_of_pos_right w b1) b3
  have hh' : h ≤ 1000000 := le_trans (Nat.le_mul_of_pos_left h b2) b3
  refine (bitmap_draw jk jw hM hf hne hlen hx d b2 a1 b1 a2 (by omega)).mono fun img hi =>
    ⟨w, h, b2, a1, b1, a2, b3, prop hh' hm a4, prop hw' hn a5, fun hs => a6 ?_, hi⟩
  have : (n : ℚ) * m + 1 ≤ 1000000 := by exact_mod_cast hs
  norm_num
  linarith

/-- The second half of `bitmap_size`. -/
private def bitmap_size2 (n m : Nat) (w h : Int) : C (Int × Int) :=
  (if w > 0 ∧ h < 0 then (cdiv w m >>= fun k => i32 (n * k)) else .ok h) >>= fun h' => .ok (min w m, min h' n)

private theorem bitmap_size_eq (n m : Nat) (w h : Int) : bitmap_size n m w h =
    (if w < 0 ∧ h > 0 then (cdiv h n >>= fun k => i32 (m * k)) else .ok w) >>= fun w' => bitmap_size2 n m w' h := by
  have tail : ∀ w', (do
      let h' ← if w' > 0 ∧ h < 0 then do
          let k ← cdiv w' m
          i32 (n * k)
        else .ok h
      .ok (min w' m, min h' n) : C (Int × Int)) = bitmap_size2 n m w' h := by
    intro w'
    unfold bitmap_size2
    split_ifs
    · rcases cdiv w' m with _ | k <;> rfl
    · rfl
  unfold bitmap_size
  split_ifs
  · simp only [tail]
    rcases cdiv h n with _ | k
    · rfl
    · rfl
  · exact tail w

/-- C62 (partial), `--width W --height H`, both positive: the size is the one asked for, or that of the matrix.
Missing: images of `2^31` pixels or more (`C45_overflow`). -/
theorem C62_size_partial (jk : Junk) (jw : Nat → W) {M : LibM} {lg ex : ℚ → ℚ} (hM : M.Good lg ex)
    {f : List Char} {n m : Nat} {l : List (Int × Int × Int)} (hf : IsFile f n m l) (hne : l ≠ [])
    (hlen : l.length < 2 ^ 31) (mode : Nat) {w h : Nat} (hw : 1 ≤ w) (hh : 1 ≤ h) (hwh : min w m * min h n < 2 ^ 31) :
    Ok (tool_bitmap_opts jk jw M ⟨w, h, mode, .fin (-1)⟩ f) (Drawn mode l n m (min w m) (min h n)) := by
  have hnm : 1 ≤ n ∧ 1 ≤ m := by
    obtain ⟨e, he⟩ := List.exists_mem_of_ne_nil l hne
    have := hf.row e he
    have := hf.col e he
    omega
  refine bitmap_draw jk jw hM hf hne hlen (mpix := .fin (-1)) (o := ⟨w, h, mode, .fin (-1)⟩) ?_ ?_ (by omega)
    (by omega) (by omega) (by omega) hwh
  · unfold bitmap_mpix
    rw [if_neg, if_neg]
    · rintro ⟨-, h, -⟩
      have : (w : Int) < 0 := h
      omega
    · rintro ⟨h, -⟩
      exact absurd h (by show ¬ decide ((0 : ℚ) < -1) = true; decide +kernel)
  · unfold bitmap_dims
    rw [if_neg, if_pos (by show decide ((-1 : ℚ) < 0) = true; decide +kernel)]
    · show bitmap_size n m w h = _
      rw [bitmap_size_eq, if_neg (by omega)]
      show (bitmap_size2 _ _ _ _) = _
      unfold bitmap_size2
      rw [if_neg (by omega)]
      show Except.ok _ = _
      push_cast
      rfl
    · rintro ⟨h, -⟩
      exact absurd h (by show ¬ decide ((0 : ℚ) < -1) = true; decide +kernel)

/-- An image without rows or without columns of a matrix with entries is an access out of bounds. -/
theorem pnm_cells_zero (jk : Junk) {A : Csr} (hA : A.WF) (hz : 0 < A.p.g A.n) {x y : Int} (hxy : x = 0 ∨ y = 0) :
    pnm_cells jk A x y = .error .ub := by
  have hm : 0 < A.m := by have := hA.j_lt 0 hz; omega
  have hxy0 : x * y = 0 := by rcases hxy with h | h <;> simp [h]
  have key : WpE (fun e => e = .ub) (pnm_cells jk A x y) (fun _ => False) := by
    unfold pnm_cells
    rw [hxy0, WpE_bind, show i32 0 = .ok 0 from rfl, WpE_ok, if_neg (by omega), WpE_bind]
    show WpE _ (.ok (mkArr 0 jk.int)) _
    rw [WpE_ok]
    unfold pnm_count
    refine WpE.mono (WpE_forRange (I := fun i (w : Array Int) => w.size = 0 ∧ A.p.g i = 0) (Nat.zero_le _)
      ⟨by simp, hA.p_zero⟩ ?_) ?_
    · rintro i w - hi ⟨hw, hp⟩
      rw [WpE_bind, show cdiv ((i : Int) * y) A.n = .ok (Int.tdiv ((i : Int) * y) A.n) by
        unfold cdiv; rw [if_neg (by omega)], WpE_ok, WpE_bind]
      refine WpE.mono (Ok.wpe (Q := fun a => a = 0) ?_) ?_
      · rw [Ok_rd]
        exact ⟨by have := hA.p_size; omega, hp⟩
      rintro a rfl
      rw [WpE_bind]
      refine WpE.mono (Ok.wpe (Q := fun b => b = A.p.g (i + 1)) ?_) ?_
      · rw [Ok_rd]
        exact ⟨by have := hA.p_size; omega, rfl⟩
      rintro b rfl
      refine WpE.mono (WpE_forRange (I := fun px (w : Array Int) => w.size = 0 ∧ px = 0) (Nat.zero_le _)
        ⟨hw, rfl⟩ ?_) ?_
      · rintro px w - hpx ⟨hw, rfl⟩
        have hle := hA.row_le hi
        rw [WpE_bind]
        refine WpE.mono (Ok.wpe (Q := fun j => True) ?_) ?_
        · rw [Ok_rd]
          exact ⟨by have := hA.p_nnz; omega, trivial⟩
        rintro j -
        rw [WpE_bind, show cdiv ((j : Int) * x) A.m = .ok (Int.tdiv ((j : Int) * x) A.m) by
          unfold cdiv; rw [if_neg (by omega)], WpE_ok, WpE_bind]
        show WpE _ (rdI w _) _
        unfold rdI idx
        split_ifs
        · simp [WpE, bind, Except.bind, rd, hw]
        · simp [WpE, bind, Except.bind]
      · rintro w ⟨h1, h2⟩
        exact ⟨h1, h2⟩
    · rintro w ⟨-, h⟩
      omega
  cases hc : pnm_cells jk A x y with
  | ok f => rw [hc] at key; exact key.elim
  | error e => rw [hc] at key; rw [show e = .ub from key]

theorem bitmap_zero (jk : Junk) (jw : Nat → W) {M : LibM} {f : List Char}
    {n m : Nat} {l : List (Int × Int × Int)} (hf : IsFile f n m l) (hne : l ≠ [])
    {o : BitmapOpts} {mpix : Dbl} {w h : Int} (h1 : bitmap_mpix o = .ok mpix)
    (h2 : bitmap_dims M n m o mpix = .ok (w, h)) (hw : w = 0 ∨ h = 0) :
    tool_bitmap_opts jk jw M o f = .error .ub := by
  rw [tool_bitmap_opts_eq]
  obtain ⟨A, eA, hA⟩ := Ok_iff.mp (load_pattern jk jw hf hne)
  rw [eA]
  show (bitmap_mpix o >>= _) = _
  rw [h1]
  have hpos := hA.nnz_pos hf hne
  show (bitmap_dims M A.n A.m o mpix >>= _) = _
  rw [hA.n_eq, hA.m_eq, h2]
  show (if o.mode = 2 then save_pgm jk M A w h else save_pbm jk A w h) = _
  have hc : pnm_cells jk A (min w A.m) (min h A.n) = .error .ub := by
    apply pnm_cells_zero jk hA.wf hpos.1
    rcases hw with rfl | rfl
    · left; omega
    · right; omega
  split_ifs
  · unfold save_pgm
    simp only [hc]
    rfl
  · unfold save_pbm
    simp only [hc]
    rfl

/-- C62 (defect). Without option, for every file with an entry of a matrix with more than a million columns for each
row: an access out of bounds. -/
theorem C62_elongated (jk : Junk) (jw : Nat → W) {M : LibM} {sq : ℚ → ℚ} (hS : M.Sqrt sq) {f : List Char} {n m : Nat}
    {l : List (Int × Int × Int)} (hf : IsFile f n m l) (hne : l ≠ []) (mode : Nat) (h : 1000000 * n < m) :
    tool_bitmap_opts jk jw M ⟨-1, -1, mode, .fin (-1)⟩ f = .error .ub := by
  have hnm : 1 ≤ n ∧ 1 ≤ m := by
    obtain ⟨e, he⟩ := List.exists_mem_of_ne_nil l hne
    have := hf.row e he
    have := hf.col e he
    omega
  have hm := hf.m_lt
  obtain ⟨w, h', d, -, -, -, -, -, -, -, -, a9⟩ :=
    bitmap_dims_spec hS hnm.1 hnm.2 hf.n_lt hf.m_lt (q := 1) (by norm_num) (by norm_num)
      (o := ⟨-1, -1, mode, .fin (-1)⟩) (by show (-1 : Int) < 0; decide) (by show (-1 : Int) < 0; decide)
  refine bitmap_zero jk jw hf hne (mpix := .fin 1) ?_ d (.inr ?_)
  · unfold bitmap_mpix
    rw [if_neg (by rintro ⟨-, h | h⟩ <;> exact absurd h (by show ¬ (0 : Int) < -1; decide)), if_pos]
    exact ⟨by show decide ((-1 : ℚ) < 0) = true; decide +kernel, by show (-1 : Int) < 0; decide,
      by show (-1 : Int) < 0; decide⟩
  · have h1 : 1000000 * (n : ℚ) + 1 ≤ m := by exact_mod_cast h
    have h2 : (m : ℚ) ≤ 2147483648 := by exact_mod_cast (by omega : m ≤ 2147483648)
    have := a9 (by norm_num; linarith)
    rw [this]; rfl

/-- C62 (defect). With `--width W` alone and less than the number of columns, the height is zero: an access out of
bounds, for every file with an entry. -/
theorem C62_width (jk : Junk) (jw : Nat → W) {M : LibM} {f : List Char} {n m : Nat}
    {l : List (Int × Int × Int)} (hf : IsFile f n m l) (hne : l ≠ []) (mode : Nat) {w : Nat} (hw : 1 ≤ w) (h : w < m) :
    tool_bitmap_opts jk jw M ⟨w, -1, mode, .fin (-1)⟩ f = .error .ub := by
  refine bitmap_zero jk jw hf hne (mpix := .fin (-1)) (w := w) (h := 0) ?_ ?_ (.inr rfl)
  · unfold bitmap_mpix
    rw [if_neg, if_neg]
    · rintro ⟨-, h, -⟩
      have : (w : Int) < 0 := h
      omega
    · rintro ⟨h, -⟩
      exact absurd h (by show ¬ decide ((0 : ℚ) < -1) = true; decide +kernel)
  · unfold bitmap_dims
    rw [if_neg, if_pos (by show decide ((-1 : ℚ) < 0) = true; decide +kernel)]
    · show bitmap_size n m w (-1) = _
      rw [bitmap_size_eq, if_neg (by omega)]
      show (bitmap_size2 _ _ _ _) = _
      unfold bitmap_size2
      rw [if_pos (by omega)]
      have : cdiv (w : Int) m = .ok 0 := by
        unfold cdiv
        rw [if_neg (by omega), Int.tdiv_eq_zero_of_lt (by omega) (by omega)]
      have h0 : ((.ok 0 : C Int) >>= fun k => i32 ((n : Int) * k)) = .ok 0 := by
        simp only [bind, Except.bind, mul_zero]
        rfl
      rw [this, h0]
      show Except.ok _ = _
      rw [min_eq_left (by omega), min_eq_left (by omega)]
    · rintro ⟨h, -⟩
      exact absurd h (by show ¬ decide ((0 : ℚ) < -1) = true; decide +kernel)

/-- C62 (defect). With `--height H` alone and less than the number of rows, the width is zero: an access out of
bounds, for every file with an entry. -/
theorem C62_height (jk : Junk) (jw : Nat → W) {M : LibM} {f : List Char} {n m : Nat}
    {l : List (Int × Int × Int)} (hf : IsFile f n m l) (hne : l ≠ []) (mode : Nat) {h : Nat} (hh : 1 ≤ h) (hn : h < n) :
    tool_bitmap_opts jk jw M ⟨-1, h, mode, .fin (-1)⟩ f = .error .ub := by
  refine bitmap_zero jk jw hf hne (mpix := .fin (-1)) (w := 0) (h := h) ?_ ?_ (.inl rfl)
  · unfold bitmap_mpix
    rw [if_neg, if_neg]
    · rintro ⟨-, -, h'⟩
      have : (h : Int) < 0 := h'
      omega
    · rintro ⟨h, -⟩
      exact absurd h (by show ¬ decide ((0 : ℚ) < -1) = true; decide +kernel)
  · unfold bitmap_dims
    rw [if_neg, if_pos (by show decide ((-1 : ℚ) < 0) = true; decide +kernel)]
    · show bitmap_size n m (-1) h = _
      rw [bitmap_size_eq]
      have : cdiv (h : Int) n = .ok 0 := by
        unfold cdiv
        rw [if_neg (by omega), Int.tdiv_eq_zero_of_lt (by omega) (by omega)]
      have h0 : ((.ok 0 : C Int) >>= fun k => i32 ((m : Int) * k)) = .ok 0 := by
        simp only [bind, Except.bind, mul_zero]
        rfl
      rw [if_pos (by omega), this, h0]
      show (bitmap_size2 n m 0 h) = _
      unfold bitmap_size2
      rw [if_neg (by omega)]
      show Except.ok _ = _
      rw [min_eq_left (by omega), min_eq_left (by omega)]
    · rintro ⟨h, -⟩
      exact absurd h (by show ¬ decide ((0 : ℚ) < -1) = true; decide +kernel)

/-- C62. `--mpixels` together with `--width` or `--height` is refused. -/
theorem C62_exclusive (jk : Junk) (jw : Nat → W) {M : LibM} {f : List Char} {n m : Nat}
    {l : List (Int × Int × Int)} (hf : IsFile f n m l) (hne : l ≠ []) {o : BitmapOpts} {q : ℚ} (hq : 0 < q)
    (ho : o.mpix = .fin q) (h : 0 < o.w ∨ 0 < o.h) :
    tool_bitmap_opts jk jw M o f = .error .exitErr := by
  rw [tool_bitmap_opts_eq]
  obtain ⟨A, eA, hA⟩ := Ok_iff.mp (load_pattern jk jw hf hne)
  rw [eA]
  show (bitmap_mpix o >>= _) = _
  unfold bitmap_mpix
  rw [if_pos]
  · rfl
  · rw [ho]
    exact ⟨by simp [Dbl.lt, hq], h⟩

attribute [local irreducible] tool_bitmap_opts Drawn exSms

/-- The hypotheses are met: `exSms` is drawn at full size without option, one pixel per row when a width of 1 and a
height of 2 are asked for. -/
example : Ok (tool_bitmap_opts default exJw exLibM ⟨-1, -1, 1, .fin (-1)⟩ exSms)
      (Drawn 1 [(1, 2, -9), (2, 3, 14), (2, 1, 1)] 2 3 3 2) ∧
    Ok (tool_bitmap_opts default exJw exLibM ⟨1, 2, 2, .fin (-1)⟩ exSms)
      (Drawn 2 [(1, 2, -9), (2, 3, 14), (2, 1, 1)] 2 3 1 2) := by
  constructor
  · refine (C62_default_partial default exJw exLibM_good exLibM_sqrt exSms_file (by decide) (by decide) 1 (by decide)
      (by decide)).mono ?_
    rintro img ⟨w, h, -, -, -, -, -, -, -, h1, h2⟩
    obtain ⟨rfl, rfl⟩ := h1 (by decide)
    exact h2
  · exact C62_size_partial default exJw exLibM_good exSms_file (by decide) (by decide) 2 (by decide) (by decide)
      (by decide)

/-- The hypotheses of `C62_mpixels_partial` are met. -/
example : Ok (tool_bitmap_opts default exJw exLibM ⟨-1, -1, 2, .fin (1 / 2)⟩ exSms)
      (Drawn 2 [(1, 2, -9), (2, 3, 14), (2, 1, 1)] 2 3 3 2) := by
  refine (C62_mpixels_partial default exJw exLibM_good exLibM_sqrt exSms_file (by decide) (by decide)
    (q := 1 / 2) (by show (-1 : Int) < 0; decide) (by show (-1 : Int) < 0; decide) (by norm_num) (by norm_num) rfl
    (by norm_num) (by norm_num)).mono ?_
  rintro img ⟨w, h, -, -, -, -, -, -, -, h1, h2⟩
  obtain ⟨rfl, rfl⟩ := h1 (by norm_num)
  exact h2

/-- The hypotheses of the negations are met. -/
example : tool_bitmap_opts default exJw exLibM ⟨2, -1, 1, .fin (-1)⟩ exSms = .error .ub ∧
    tool_bitmap_opts default exJw exLibM ⟨-1, 1, 1, .fin (-1)⟩ exSms = .error .ub ∧
    tool_bitmap_opts default exJw exLibM ⟨2, 2, 1, .fin 3⟩ exSms = .error .exitErr :=
  ⟨C62_width default exJw exSms_file (by decide) 1 (w := 2) (by decide) (by decide),
    C62_height default exJw exSms_file (by decide) 1 (h := 1) (by decide) (by decide),
    C62_exclusive default exJw exSms_file (by decide) (q := 3) (by norm_num) rfl (.inl (by decide))⟩

/-- A matrix with one row and more than a million columns. -/
def exLong : List Char := "1 1000001 M\n1 1 1\n0 0 0\n".toList

theorem exLong_file : IsFile exLong 1 1000001 [(1, 1, 1)] := by
  refine ⟨.inl ?_, by decide, by decide, by decide, by decide, by decide⟩
  refine ⟨"1 1000001 M".toList, ["1 1 1".toList], "0 0 0".toList, [],
    ⟨⟨by decide, by decide, by decide⟩, [], [' '], [' '], [], by simp [Blank], by simp [Blank],
      by simp [Blank], by simp, by decide +kernel⟩, .cons ?_ .nil, ?_, by simp, by decide +kernel⟩
  all_goals exact ⟨⟨by decide, by decide, by decide⟩, [], [' '], [' '], [], by simp [Blank], by simp [Blank],
    by simp [Blank], by simp, by simp, by simp, by decide +kernel⟩

example : tool_bitmap_opts default exJw exLibM ⟨-1, -1, 1, .fin (-1)⟩ exLong = .error .ub :=
  C62_elongated default exJw exLibM_sqrt exLong_file (by decide) 1 (by decide)

end Spasm
