import Verif.Props.Canonical
import Verif.Spec.Columns

/-!
C88: the columns of the pivots.  `fileCol` is specified in Spec/Columns.lean.
-/

namespace Spasm

open Sha Finset

theorem FileRref.toEchelon {q r m : ℕ} {l : List (Int × Int × Int)} {c : Nat → Nat} (h : FileRref q r m l c) :
    FileEchelon q r m l c :=
  ⟨h.lt, h.one, fun i k hik hk => h.zero i k (by omega) (by omega) hk⟩

/-- A relation between columns holds in the row space. -/
theorem relation_rows {q n m : ℕ} {l : List (Int × Int × Int)} {r : Nat} {c : Nat → Nat} (hc : ∀ i, i < r → c i < m)
    {x : Fin r → ZMod q} (hx : ∑ i : Fin r, x i • fileCol q n l (c i) = 0) {w : Fin m → ZMod q} (hw : w ∈ fileRows q n m l) :
    ∑ i : Fin r, x i * w ⟨c i, hc i i.isLt⟩ = 0 := by
  induction hw using Submodule.span_induction with
  | mem w hw =>
    obtain ⟨a, rfl⟩ := hw
    have := congrFun hx a
    rw [Finset.sum_apply] at this
    exact this
  | zero => simp
  | add u v _ _ hu hv =>
    simp only [Pi.add_apply, mul_add, sum_add_distrib, hu, hv, add_zero]
  | smul a u _ hu =>
    have : ∀ i : Fin r, x i * (a • u) ⟨c i, hc i i.isLt⟩ = a * (x i * u ⟨c i, hc i i.isLt⟩) := fun i => by
      rw [Pi.smul_apply, smul_eq_mul]; ring
    rw [sum_congr rfl fun i _ => this i, ← mul_sum, hu, mul_zero]

/-- The columns of the pivots are independent. -/
theorem FileEchelon.indep {q n m r : ℕ} {l l1 : List (Int × Int × Int)} {c : Nat → Nat} (h : FileEchelon q r m l1 c)
    (hrow : fileRows q r m l1 ≤ fileRows q n m l) :
    LinearIndependent (ZMod q) (fun i : Fin r => fileCol q n l (c i)) := by
  rw [Fintype.linearIndependent_iff]
  intro x hx
  have key : ∀ k : Fin r, ∑ i : Fin r, x i * fileEntry q l1 k (c i) = 0 := fun k =>
    relation_rows h.lt hx (hrow (Submodule.subset_span ⟨k, rfl⟩))
  have : ∀ d, ∀ k : Fin r, r - 1 - k < d → x k = 0 := by
    intro d
    induction d with
    | zero => intro k hk; omega
    | succ d ih =>
      intro k hk
      have e := key k
      rw [Finset.sum_eq_single k ?_ (fun h => absurd (mem_univ k) h), h.one k k.isLt, mul_one] at e
      · exact e
      · intro i _ hik
        rcases Nat.lt_or_ge i k with hlt | hge
        · rw [h.zero i k hlt k.isLt, mul_zero]
        · have : (i : Nat) ≠ k := fun e => hik (Fin.ext e)
          have hi := i.isLt
          rw [ih i (by omega), zero_mul]
  exact fun k => this r k (by have := k.isLt; omega)

/-- The columns of the pivots span the columns. -/
theorem FileEchelon.span {q n m r : ℕ} [Fact q.Prime] {l l1 : List (Int × Int × Int)} {c : Nat → Nat}
    (h : FileEchelon q r m l1 c) (hrow : fileRows q r m l1 ≤ fileRows q n m l) (hr : r = (fileMat q n m l).rank) :
    Submodule.span (ZMod q) (Set.range fun i : Fin r => fileCol q n l (c i))
      = Submodule.span (ZMod q) (Set.range fun j : Fin m => fileCol q n l j) := by
  apply Submodule.eq_of_le_of_finrank_eq
  · rw [Submodule.span_le]
    rintro _ ⟨i, rfl⟩
    exact Submodule.subset_span ⟨⟨c i, h.lt i i.isLt⟩, rfl⟩
  · rw [finrank_span_eq_card (h.indep hrow), Fintype.card_fin, hr, Matrix.rank_eq_finrank_span_cols]
    rfl

/-- Rows in this form that generate the relations between some vectors. -/
theorem FileFree.relations {q k w s : ℕ} {l1 : List (Int × Int × Int)} {d : Nat → Nat} (h2 : FileFree q k w l1 d)
    {E : Nat → Nat → ZMod q}
    (hr : ∀ x : Fin w → ZMod q, x ∈ fileRows q k w l1 ↔ ∀ a, a < s → ∑ j : Fin w, x j * E a j = 0) [Fact q.Prime] :
    (∀ i a, i < k → a < s → E a (d i) = ∑ j ∈ (range w).filter (fun j => ∀ t, t < k → d t ≠ j),
      fileEntry q l1 i j * E a j) ∧
    ∀ x : Nat → ZMod q, (∀ i, i < k → x (d i) = 0) → (∀ a, a < s → ∑ j ∈ range w, x j * E a j = 0) →
      ∀ j, j < w → x j = 0 := by
  refine ⟨fun i a hi ha => ?_, fun x hx0 hx1 j hj => ?_⟩
  · have h0 : ∑ j : Fin w, fileEntry q l1 i j * E a j = 0 :=
      (hr (fileMat q k w l1 ⟨i, hi⟩)).mp (Submodule.subset_span ⟨_, rfl⟩) a ha
    rw [Fin.sum_univ_eq_sum_range (fun j => fileEntry q l1 i j * E a j) w,
      ← sum_filter_add_sum_filter_not _ (fun j => ∀ t, t < k → d t ≠ j)] at h0
    rw [sum_eq_single (s := (range w).filter fun j => ¬ ∀ t, t < k → d t ≠ j) (d i), h2.one i hi] at h0
    · linear_combination -h0
    · intro j hj hji
      obtain ⟨-, hj⟩ := mem_filter.mp hj
      push Not at hj
      obtain ⟨t, ht, rfl⟩ := hj
      rw [h2.zero t i (fun e => hji (by rw [e])) ht hi, zero_mul]
    · intro hni
      exact absurd (mem_filter.mpr ⟨mem_range.mpr (h2.lt i hi), fun h => h i hi rfl⟩) hni
  · have hmem : (fun j : Fin w => x j) ∈ fileRows q k w (Spasm.opposed l1) := by
      rw [fileRows_opposed, hr]
      intro a ha
      exact (Fin.sum_univ_eq_sum_range (fun j => x j * E a j) w).trans (hx1 a ha)
    have e := congrFun (h2.opposed.expand hmem) ⟨j, hj⟩
    rw [Finset.sum_apply] at e
    refine e.trans (Finset.sum_eq_zero fun t _ => ?_)
    show x (d t) * _ = 0
    rw [hx0 t t.isLt, zero_mul]

section
variable {q : ℕ} [Fact q.Prime] (hq : q ≤ 0xfffffffb) {f : List Char} {n m : Nat} {l : List (Int × Int × Int)}
  (hf : IsFile f n m l) (hc : NoCancel q l) (jk : Junk) (jw : Nat → W) (env : Env) (opts : Opts)
  (hx : Exact jk q env opts)
include hq hf hc hx

/-- C88 (`echelonize`). The columns of the matrix on which the file written has its pivots are independent, and generate all
the columns of the matrix. -/
theorem C88_echelonize : Ok (tool_echelonize jk jw env opts f q) (fun g => ∃ r l1 c, IsFile g r m l1 ∧ FileEchelon q r m l1 c ∧
    LinearIndependent (ZMod q) (fun i : Fin r => fileCol q n l (c i)) ∧
    Submodule.span (ZMod q) (Set.range fun i : Fin r => fileCol q n l (c i))
      = Submodule.span (ZMod q) (Set.range fun j : Fin m => fileCol q n l j)) := by
  refine (echelonize_exact jk jw env opts hq hf hc hx).mono ?_
  rintro g ⟨r, l1, c, h1, -, h3, h4, h5⟩
  exact ⟨r, l1, c, h1, h4, h4.indep h5.le, h4.span h5.le h3⟩

/-- C88 (`echelonize --rref`). The same; moreover the file written gives the coordinates of all columns of the matrix on
those of the pivots: the matrix is the product of its columns of pivots by the matrix written. -/
theorem C88_rref {g : List Char} (hg : RrefTool jk jw env opts f q g) : ∃ r l1 c, IsFile g r m l1 ∧ FileRref q r m l1 c ∧
    LinearIndependent (ZMod q) (fun i : Fin r => fileCol q n l (c i)) ∧
    Submodule.span (ZMod q) (Set.range fun i : Fin r => fileCol q n l (c i))
      = Submodule.span (ZMod q) (Set.range fun j : Fin m => fileCol q n l j) ∧
    ∀ a j, a < n → j < m → fileEntry q l a j = ∑ i : Fin r, fileEntry q l a (c i) * fileEntry q l1 i j := by
  obtain ⟨r, l1, c, h1, -, h3, h4, h5⟩ := rref_exact jk jw env opts hq hf hc hx hg
  refine ⟨r, l1, c, h1, h4, h4.toEchelon.indep h5.le, h4.toEchelon.span h5.le h3, fun a j ha hj => ?_⟩
  have e := h4.expand (v := fileMat q n m l ⟨a, ha⟩) (by rw [h5]; exact Submodule.subset_span ⟨_, rfl⟩)
  have e2 := congrFun e ⟨j, hj⟩
  rw [Finset.sum_apply] at e2
  exact e2

/-- C88 (`kernel`). Each row written gives a relation between the columns of the matrix: that of the free column as a
combination of the columns that are not free; and the columns that are not free are independent: the only relation between
them is zero. -/
theorem C88_kernel {g : List Char} (hg : KernelTool jk jw env opts f q false g) : ∃ k l1 d, IsFile g k m l1 ∧
    FileFree q k m l1 d ∧
    (∀ i a, i < k → a < n → fileEntry q l a (d i) = ∑ j ∈ (range m).filter (fun j => ∀ t, t < k → d t ≠ j),
      fileEntry q l1 i j * fileEntry q l a j) ∧
    ∀ x : Nat → ZMod q, (∀ i, i < k → x (d i) = 0) → (∀ a, a < n → ∑ j ∈ range m, x j * fileEntry q l a j = 0) →
      ∀ j, j < m → x j = 0 := by
  obtain ⟨k, l1, d, h1, h2⟩ := kernel_shape (left := false) hq hf hc jk jw env opts hx (fun _ h => h) hf.m_lt hg
  obtain ⟨k0, l0, h3, -, -, -, h6⟩ := kernel_exact jk jw env opts hq hf hc hx hg
  obtain ⟨rfl, -, -, a⟩ := h1.unique h3
  have e : fileMat q k m l1 = fileMat q k m l0 := by
    ext i j
    exact a q (Fact.out : q.Prime).two_le hq i j
  refine ⟨k, l1, d, h1, h2, h2.relations fun x => ?_⟩
  have h6 : fileRows q k m l1 = LinearMap.ker (fileMat q n m l).mulVecLin := by
    rw [← h6]; unfold fileRows; rw [e]
  rw [h6, LinearMap.mem_ker]
  constructor
  · intro h a ha
    exact (sum_congr rfl fun j _ => mul_comm _ _).trans (congrFun h ⟨a, ha⟩)
  · intro h
    ext a
    exact (sum_congr rfl fun j _ => mul_comm _ _).trans (h a a.isLt)

/-- C88 (`kernel --left`). The same for the rows of the matrix. -/
theorem C88_left {g : List Char} (hg : KernelTool jk jw env opts f q true g) : ∃ k l1 d, IsFile g k n l1 ∧
    FileFree q k n l1 d ∧
    (∀ i b, i < k → b < m → fileEntry q l (d i) b = ∑ j ∈ (range n).filter (fun j => ∀ t, t < k → d t ≠ j),
      fileEntry q l1 i j * fileEntry q l j b) ∧
    ∀ x : Nat → ZMod q, (∀ i, i < k → x (d i) = 0) → (∀ b, b < m → ∑ j ∈ range n, x j * fileEntry q l j b = 0) →
      ∀ j, j < n → x j = 0 := by
  obtain ⟨k, l1, d, h1, h2⟩ := kernel_shape (left := true) hq hf hc jk jw env opts hx (fun _ h => h) hf.n_lt hg
  obtain ⟨k0, l0, h3, -, -, -, h6⟩ := left_exact jk jw env opts hq hf hc hx hg
  obtain ⟨rfl, -, -, a⟩ := h1.unique h3
  have e : fileMat q k n l1 = fileMat q k n l0 := by
    ext i j
    exact a q (Fact.out : q.Prime).two_le hq i j
  refine ⟨k, l1, d, h1, h2, h2.relations (E := fun b j => fileEntry q l j b) fun x => ?_⟩
  have h6 : x ∈ fileRows q k n l1 ↔ Matrix.vecMul x (fileMat q n m l) = 0 := by
    rw [← h6]; unfold fileRows; rw [e]
  rw [h6]
  constructor
  · intro h b hb
    exact congrFun h ⟨b, hb⟩
  · intro h
    ext b
    exact h b b.isLt

end

/-- C88 (other methods). With any method that completes, even if the search for pivots is ended early, the columns of the
matrix on which the file written has its pivots are independent. -/
theorem C88_independent {q : ℕ} [Fact q.Prime] (hq : q ≤ 0xfffffffb) {f : List Char} {n m : Nat}
    {l : List (Int × Int × Int)} (hf : IsFile f n m l) (hc : NoCancel q l) (jk : Junk) (jw : Nat → W) (env : Env)
    (opts : Opts) (henv : env.Possible q) (hb : 0 < opts.block) (hnull : opts.max_round ≠ 0 ∨ jk.null0 = false)
    (hL : opts.L = false) (hcm : opts.complete = false)
    (hfin : opts.gplu = true ∨ (opts.dense = true ∧ env.full = true) ∨ (opts.tall = true ∧ env.skinny = true))
    (hw : opts.tall = true → ∀ k, k ≤ min n m → |env.weight| * 2 ^ k < 2 ^ 31) :
    WpE (fun e => opts.tall = true ∧ e = .fuel) (tool_echelonize jk jw env opts f q) (fun g =>
      ∃ r l1 c, IsFile g r m l1 ∧ FileEchelon q r m l1 c ∧
        LinearIndependent (ZMod q) (fun i : Fin r => fileCol q n l (c i))) := by
  refine (C53_echelonize_partial jk jw env opts hq hf hc henv hb hnull hL hcm hfin hw).mono ?_
  rintro g ⟨r, l1, c, h1, -, h3, h4, -⟩
  exact ⟨r, l1, c, h1, h3, h3.indep h4⟩

/-- The hypotheses of `C88_independent` are met, with the low-rank method. -/
example := C88_independent (q := 7) (by norm_num) exSms_file (exSms_noCancel 7) default exJw exDenseEnv
  { exDenseOpts with tall := true } exFull_possible (by decide) (.inl (by decide)) rfl rfl (.inl rfl)
  (fun _ => exDenseEnv_weight)

/-- The hypotheses are met, and there are such runs of `echelonize --rref` and of `kernel`. -/
example : IsFile exSms 2 3 exSmsList ∧ NoCancel 7 exSmsList ∧ Exact default 7 exDenseEnv exDenseOpts ∧
    (∃ g, RrefTool default exJw exDenseEnv exDenseOpts exSms ((7 : ℕ) : Int) g) ∧
    ∀ left, ∃ g, KernelTool default exJw exDenseEnv exDenseOpts exSms ((7 : ℕ) : Int) left g := by
  have : Fact (Nat.Prime 7) := ⟨by norm_num⟩
  exact ⟨exSms_file, exSms_noCancel 7, exExact,
    rref_run (q := 7) (by norm_num) exSms_file (exSms_noCancel 7) default exJw exDenseEnv exDenseOpts exExact,
    kernel_run (q := 7) (by norm_num) exSms_file (exSms_noCancel 7) default exJw exDenseEnv exDenseOpts exExact⟩

end Spasm
