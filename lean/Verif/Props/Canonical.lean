import Verif.Props.StructuralRank
import Verif.Proofs.Repro

/-!
C84: what `echelonize --rref` writes is determined, up to the order of the rows, by the row space and the columns of the
pivots; the same programs on different files, with different options and schedules, can differ only by these.

`FileRref` and `fileRows` are specified in Spec/File.lean; `Exact` in Props/Compose.lean.
-/

namespace Spasm

open Sha

/-- A combination of the rows of a reduced echelon form is determined by its values on the columns of the pivots. -/
theorem FileRref.expand {q r m : ℕ} {l : List (Int × Int × Int)} {c : Nat → Nat} (h : FileRref q r m l c)
    {v : Fin m → ZMod q} (hv : v ∈ fileRows q r m l) :
    v = ∑ k : Fin r, v ⟨c k, h.lt k k.2⟩ • fileMat q r m l k := by
  induction hv using Submodule.span_induction with
  | mem x hx =>
    obtain ⟨i, rfl⟩ := hx
    rw [Finset.sum_eq_single i]
    · have : fileMat q r m l i ⟨c i, h.lt i i.2⟩ = 1 := h.one i i.2
      rw [this, one_smul]
    · intro k _ hk
      have : fileMat q r m l i ⟨c k, h.lt k k.2⟩ = 0 := h.zero k i (fun e => hk (Fin.ext e)) k.2 i.2
      rw [this, zero_smul]
    · intro hi
      exact absurd (Finset.mem_univ i) hi
  | zero => simp
  | add x y _ _ hx hy =>
    conv_lhs => rw [hx, hy]
    rw [← Finset.sum_add_distrib]
    exact Finset.sum_congr rfl fun k _ => (add_smul _ _ _).symm
  | smul a x _ hx =>
    conv_lhs => rw [hx]
    rw [Finset.smul_sum]
    exact Finset.sum_congr rfl fun k _ => smul_smul _ _ _

/-- Rows with the same pivot are equal, if all the pivots of the second form are pivots of the first one. -/
theorem FileRref.row_eq {q r r' m : ℕ} [Fact q.Prime] {l l' : List (Int × Int × Int)} {c c' : Nat → Nat} (h : FileRref q r m l c)
    (h' : FileRref q r' m l' c') (hrow : fileRows q r m l = fileRows q r' m l')
    (hp : ∀ i, i < r → ∃ k, k < r' ∧ c' k = c i) {i k : Nat} (hi : i < r) (hk : k < r') (hik : c i = c' k) :
    ∀ j, j < m → fileEntry q l i j = fileEntry q l' k j := by
  have e := h.expand (v := fileMat q r' m l' ⟨k, hk⟩) (by rw [hrow]; exact Submodule.subset_span ⟨_, rfl⟩)
  rw [Finset.sum_eq_single ⟨i, hi⟩] at e
  · have h1 : fileMat q r' m l' ⟨k, hk⟩ ⟨c i, h.lt i hi⟩ = 1 := by
      have := h'.one k hk
      rw [← hik] at this
      exact this
    simp only [h1, one_smul] at e
    intro j hj
    exact (congrFun e ⟨j, hj⟩).symm
  · intro t _ ht
    obtain ⟨s, hs, es⟩ := hp t t.2
    have hne : s ≠ k := by
      rintro rfl
      refine ht (Fin.ext ?_)
      by_contra hti
      have h1 := h.one i hi
      have h2 := h.zero i t (fun e => hti e.symm) hi t.2
      have h3 := h.one t t.2
      rw [← es, ← hik] at h3
      rw [h3] at h2
      exact one_ne_zero h2
    have : fileMat q r' m l' ⟨k, hk⟩ ⟨c t, h.lt t t.2⟩ = 0 := by
      have := h'.zero s k hne hs hk
      rw [es] at this
      exact this
    rw [this, zero_smul]
  · intro hn
    exact absurd (Finset.mem_univ _) hn

/-- The columns of the pivots are distinct. -/
theorem FileRref.inj {q r m : ℕ} [Fact q.Prime] {l : List (Int × Int × Int)} {c : Nat → Nat} (h : FileRref q r m l c)
    {i k : Nat} (hi : i < r) (hk : k < r) (e : c i = c k) : i = k := by
  by_contra hik
  have h1 := h.zero i k hik hi hk
  rw [e, h.one k hk] at h1
  exact one_ne_zero h1

/-- The rows of the two forms are the same, up to their order. -/
theorem FileRref.same_rows {q r m : ℕ} [Fact q.Prime] {l l' : List (Int × Int × Int)} {c c' : Nat → Nat}
    (h : FileRref q r m l c) (h' : FileRref q r m l' c') (hrow : fileRows q r m l = fileRows q r m l')
    (hp : ∀ j, (∃ i, i < r ∧ c i = j) ↔ ∃ i, i < r ∧ c' i = j) : ∃ σ, IsPerm σ r ∧
      ∀ i j, i < r → j < m → fileEntry q l i j = fileEntry q l' (σ i) j := by
  have hp' : ∀ i, i < r → ∃ k, k < r ∧ c' k = c i := fun i hi => (hp (c i)).mp ⟨i, hi, rfl⟩
  have hs : ∀ i, ∃ k, i < r → k < r ∧ c' k = c i := fun i => by
    by_cases hi : i < r
    · obtain ⟨k, hk⟩ := hp' i hi
      exact ⟨k, fun _ => hk⟩
    · exact ⟨0, fun h => absurd h hi⟩
  choose σ hσ using hs
  refine ⟨σ, ⟨fun i hi => (hσ i hi).1, fun i k hi hk e => h.inj hi hk ?_⟩, fun i j hi hj => ?_⟩
  · rw [← (hσ i hi).2, ← (hσ k hk).2, e]
  · exact h.row_eq h' hrow hp' hi (hσ i hi).1 (hσ i hi).2.symm j hj

/-- The entries of the opposite matrix. -/
def opposed (l : List (Int × Int × Int)) : List (Int × Int × Int) := l.map fun e => (e.1, e.2.1, -e.2.2)

theorem fileEntry_opposed (q : ℕ) (l : List (Int × Int × Int)) (i j : Nat) :
    fileEntry q (opposed l) i j = - fileEntry q l i j := by
  unfold fileEntry opposed
  induction l with
  | nil => simp
  | cons e l ih =>
    simp only [List.map_cons, List.sum_cons] at ih ⊢
    rw [ih, neg_add]
    congr 1
    split <;> simp

theorem fileRows_opposed (q n m : ℕ) (l : List (Int × Int × Int)) : fileRows q n m (opposed l) = fileRows q n m l := by
  have h : ∀ i, fileMat q n m (opposed l) i = - fileMat q n m l i := fun i => by
    funext j
    exact fileEntry_opposed q l i j
  unfold fileRows
  apply le_antisymm <;> rw [Submodule.span_le] <;> rintro _ ⟨i, rfl⟩
  · rw [h i]
    exact Submodule.neg_mem _ (Submodule.subset_span ⟨i, rfl⟩)
  · rw [← neg_neg (fileMat q n m l i), ← h i]
    exact Submodule.neg_mem _ (Submodule.subset_span ⟨i, rfl⟩)

/-- One row for each free column: it has -1 on its free column, and zero on the free columns of the other rows. -/
structure FileFree (q k m : ℕ) (l : List (Int × Int × Int)) (d : Nat → Nat) : Prop where
  lt : ∀ i, i < k → d i < m
  one : ∀ i, i < k → fileEntry q l i (d i) = -1
  zero : ∀ i t, i ≠ t → i < k → t < k → fileEntry q l t (d i) = 0

theorem FileFree.opposed {q k m : ℕ} {l : List (Int × Int × Int)} {d : Nat → Nat} (h : FileFree q k m l d) :
    FileRref q k m (opposed l) d :=
  ⟨h.lt, fun i hi => by rw [fileEntry_opposed, h.one i hi, neg_neg],
    fun i t hit hi ht => by rw [fileEntry_opposed, h.zero i t hit hi ht, neg_zero]⟩

theorem FileFree.same_rows {q k m : ℕ} [Fact q.Prime] {l l' : List (Int × Int × Int)} {d d' : Nat → Nat}
    (h : FileFree q k m l d) (h' : FileFree q k m l' d') (hrow : fileRows q k m l = fileRows q k m l')
    (hp : ∀ j, (∃ i, i < k ∧ d i = j) ↔ ∃ i, i < k ∧ d' i = j) : ∃ σ, IsPerm σ k ∧
      ∀ i j, i < k → j < m → fileEntry q l i j = fileEntry q l' (σ i) j := by
  obtain ⟨σ, h1, h2⟩ := h.opposed.same_rows h'.opposed (by rw [fileRows_opposed, fileRows_opposed, hrow]) hp
  refine ⟨σ, h1, fun i j hi hj => ?_⟩
  have := h2 i j hi hj
  rwa [fileEntry_opposed, fileEntry_opposed, neg_inj] at this

/-- The same, when the spaces are known for other readings of the files. -/
theorem free_same {q : ℕ} [Fact q.Prime] (hq : q ≤ 0xfffffffb) {g g' : List Char} {k k' k0 m : Nat}
    {l1 l1' l0 l0' : List (Int × Int × Int)} {d d' : Nat → Nat} (h1 : IsFile g k m l1) (h1' : IsFile g' k' m l1')
    (h2 : FileFree q k m l1 d) (h2' : FileFree q k' m l1' d') (h3 : IsFile g k0 m l0) (h3' : IsFile g' k0 m l0')
    (h4 : fileRows q k0 m l0 = fileRows q k0 m l0') :
    ∃ k l1 l1' d d', IsFile g k m l1 ∧ IsFile g' k m l1' ∧ FileFree q k m l1 d ∧ FileFree q k m l1' d' ∧
      ((∀ j, (∃ i, i < k ∧ d i = j) ↔ ∃ i, i < k ∧ d' i = j) → ∃ σ, IsPerm σ k ∧
        ∀ i j, i < k → j < m → fileEntry q l1 i j = fileEntry q l1' (σ i) j) := by
  obtain ⟨rfl, -, -, a⟩ := h1.unique h3
  obtain ⟨rfl, -, -, a'⟩ := h1'.unique h3'
  have q2 := (Fact.out : q.Prime).two_le
  have e : fileMat q k' m l1 = fileMat q k' m l0 := by
    ext i j
    exact a q q2 hq i j
  have e' : fileMat q k' m l1' = fileMat q k' m l0' := by
    ext i j
    exact a' q q2 hq i j
  refine ⟨_, l1, l1', d, d', h1, h1', h2, h2', fun hp => h2.same_rows h2' ?_ hp⟩
  unfold fileRows at h4 ⊢
  rw [e, e', h4]

section
variable {q : ℕ} [Fact q.Prime] (hq : q ≤ 0xfffffffb) {f f' : List Char} {n n' m : Nat}
  {l l' : List (Int × Int × Int)} (hf : IsFile f n m l) (hf' : IsFile f' n' m l') (hc : NoCancel q l)
  (hc' : NoCancel q l') (hrow : fileRows q n m l = fileRows q n' m l')
  (jk jk' : Junk) (jw jw' : Nat → W) (env env' : Env) (opts opts' : Opts)
  (hx : Exact jk q env opts) (hx' : Exact jk' q env' opts')
include hq hf hc hx

/-- C84. On files with the same row space, whatever the options, the schedules and the numeric decisions, two runs of
`echelonize --rref` that choose the same columns of pivots write the same rows, up to their order. -/
theorem C84_rref {g g' : List Char} (hf' : IsFile f' n' m l') (hc' : NoCancel q l')
    (hrow : fileRows q n m l = fileRows q n' m l') (hx' : Exact jk' q env' opts')
    (hg : RrefTool jk jw env opts f q g) (hg' : RrefTool jk' jw' env' opts' f' q g') :
    ∃ r l1 l1' c c', IsFile g r m l1 ∧ IsFile g' r m l1' ∧ FileRref q r m l1 c ∧ FileRref q r m l1' c' ∧
      ((∀ j, (∃ i, i < r ∧ c i = j) ↔ ∃ i, i < r ∧ c' i = j) → ∃ σ, IsPerm σ r ∧
        ∀ i j, i < r → j < m → fileEntry q l1 i j = fileEntry q l1' (σ i) j) := by
  obtain ⟨r, l1, c, h1, -, h3, h4, h5⟩ := rref_exact jk jw env opts hq hf hc hx hg
  obtain ⟨r', l1', c', h1', -, h3', h4', h5'⟩ := rref_exact jk' jw' env' opts' hq hf' hc' hx' hg'
  have : r = r' := by rw [h3, h3', rank_rows hrow]
  subst this
  refine ⟨r, l1, l1', c, c', h1, h1', h4, h4', fun hp => ?_⟩
  exact h4.same_rows h4' (by rw [h5, h5', hrow]) hp

/-- C84 (full rank). If the rank is the number of columns, then `echelonize --rref` writes the rows of the identity matrix,
in some order. -/
theorem C84_full (hfull : (fileMat q n m l).rank = m) {g : List Char} (hg : RrefTool jk jw env opts f q g) :
    ∃ l1 c, IsFile g m m l1 ∧ IsPerm c m ∧ ∀ i j, i < m → j < m → fileEntry q l1 i j = if j = c i then 1 else 0 := by
  obtain ⟨r, l1, c, h1, -, h3, h4, -⟩ := rref_exact jk jw env opts hq hf hc hx hg
  have : r = m := by rw [h3, hfull]
  subst this
  have hp : IsPerm c r := ⟨h4.lt, fun i k hi hk e => h4.inj hi hk e⟩
  refine ⟨l1, c, h1, hp, fun i j hi hj => ?_⟩
  obtain ⟨k, hk, rfl⟩ := hp.surj hj
  by_cases hki : k = i
  · subst hki
    rw [if_pos rfl, h4.one k hk]
  · rw [if_neg fun e => hki (hp.2 k i hk hi e), h4.zero k i hki hk hi]

/-- The rows written by `kernel`. -/
theorem kernel_shape {left : Bool} {n' m' : Nat} {l0 : List (Int × Int × Int)}
    (hl : ∀ A, (if left = true then FileCsr q m n (flipped l) A else FileCsr q n m l A) → FileCsr q n' m' l0 A)
    (hm' : m' < 2 ^ 31) {g : List Char} (hg : KernelTool jk jw env opts f q left g) :
    ∃ k l1 d, IsFile g k m' l1 ∧ FileFree q k m' l1 d := by
  obtain ⟨fact, K, e, hK, hs⟩ := hg
  have h1 : Ok (kernel_input jk jw env opts f q left) (fun fact => Echelon q fact.U fact.qinv ∧ fact.U.m = m') := by
    refine WpE.ok (kernel_load jk jw env opts hq hf hc left fun A hA => ?_)
    have hA := hl A hA
    refine (C27_dense jk q env opts A hx.possible hA.wfv hA.nodup hA.nozero hx.block hx.null hx.noL hx.incomplete
      hx.noTall hx.dense hx.full).wpe.mono ?_
    rintro fact ⟨g1, g2, -⟩
    exact ⟨g1, by rw [g2, hA.m_eq]⟩
  rw [e, Ok_ok] at h1
  obtain ⟨he, hm⟩ := h1
  have h2 := (kernel_saved jk fact he (by omega)).2 K hK
  rw [hs, Ok_ok] at h2
  obtain ⟨l1, i1, i2, i3⟩ := h2
  obtain ⟨d, d1, d2, -, d4⟩ := kernel_free jk he hK
  rw [hm] at i1
  refine ⟨K.n, l1, d, i1, fun i hi => by have := (d1 i hi).1; omega, fun i hi => ?_, fun i t hit hi ht => ?_⟩
  · rw [← i2.entry i _ hi, d4 i hi _ (d1 i hi).1 (d1 i hi).2, if_pos rfl]
  · rw [← i2.entry t _ ht, d4 t ht _ (d1 i hi).1 (d1 i hi).2, if_neg fun e => hit (d2 i t hi ht e)]

/-- C84 (kernel). On files with the same row space, two runs of `kernel` that chose the same free columns (those without
pivots) write the same rows, up to their order: there is one for each free column, it has -1 there and zero on the other
free columns. -/
theorem C84_kernel {g g' : List Char} (hf' : IsFile f' n' m l') (hc' : NoCancel q l')
    (hrow : fileRows q n m l = fileRows q n' m l') (hx' : Exact jk' q env' opts')
    (hg : KernelTool jk jw env opts f q false g) (hg' : KernelTool jk' jw' env' opts' f' q false g') :
    ∃ k l1 l1' d d', IsFile g k m l1 ∧ IsFile g' k m l1' ∧ FileFree q k m l1 d ∧ FileFree q k m l1' d' ∧
      ((∀ j, (∃ i, i < k ∧ d i = j) ↔ ∃ i, i < k ∧ d' i = j) → ∃ σ, IsPerm σ k ∧
        ∀ i j, i < k → j < m → fileEntry q l1 i j = fileEntry q l1' (σ i) j) := by
  obtain ⟨k, l1, d, h1, h2⟩ := kernel_shape (left := false) hq hf hc jk jw env opts hx (fun _ h => h) hf.m_lt hg
  obtain ⟨k', l1', d', h1', h2'⟩ := kernel_shape (left := false) hq hf' hc' jk' jw' env' opts' hx' (fun _ h => h) hf'.m_lt hg'
  obtain ⟨k0, l0, l0', h3, h3', h4⟩ := C82_kernel hq hf hf' hc hc' hrow jk jk' jw jw' env env' opts opts' hx hx' hg hg'
  exact free_same hq h1 h1' h2 h2' h3 h3' h4

/-- C84 (kernel --left). The same, for files with the same matrix. -/
theorem C84_left {g g' : List Char} {l' : List (Int × Int × Int)} (hf' : IsFile f' n m l') (hc' : NoCancel q l')
    (hmat : fileMat q n m l = fileMat q n m l') (hx' : Exact jk' q env' opts')
    (hg : KernelTool jk jw env opts f q true g) (hg' : KernelTool jk' jw' env' opts' f' q true g') :
    ∃ k l1 l1' d d', IsFile g k n l1 ∧ IsFile g' k n l1' ∧ FileFree q k n l1 d ∧ FileFree q k n l1' d' ∧
      ((∀ j, (∃ i, i < k ∧ d i = j) ↔ ∃ i, i < k ∧ d' i = j) → ∃ σ, IsPerm σ k ∧
        ∀ i j, i < k → j < n → fileEntry q l1 i j = fileEntry q l1' (σ i) j) := by
  obtain ⟨k, l1, d, h1, h2⟩ := kernel_shape (left := true) hq hf hc jk jw env opts hx (fun _ h => h) hf.n_lt hg
  obtain ⟨k', l1', d', h1', h2'⟩ := kernel_shape (left := true) hq hf' hc' jk' jw' env' opts' hx' (fun _ h => h) hf'.n_lt hg'
  obtain ⟨k0, l0, l0', h3, h3', h4⟩ := C82_left hq hf hf' hc hc' hmat jk jk' jw jw' env env' opts opts' hx hx' hg hg'
  exact free_same hq h1 h1' h2 h2' h3 h3' h4

/-- The program writes some file, to which the theorems apply. -/
theorem rref_run : ∃ g, RrefTool jk jw env opts f q g := by
  obtain ⟨h, -⟩ := C53_rref jk jw env opts hq hf hc hx.possible hx.block hx.null hx.noL hx.incomplete hx.noTall hx.dense
    hx.full
  obtain ⟨fact, e, -, ⟨R, rq, k⟩, s⟩ := Ok_iff.mp h
  obtain ⟨g, t⟩ := s R rq k
  exact ⟨g, fact, R, rq, e, k, t⟩

/-- So do `kernel` and `kernel --left`. -/
theorem kernel_run (left : Bool) : ∃ g, KernelTool jk jw env opts f q left g := by
  cases left with
  | false =>
    obtain ⟨h, -⟩ := C52_kernel jk jw env opts hq hf hc hx.possible hx.block hx.null hx.noL hx.incomplete hx.noTall
      hx.dense hx.full
    obtain ⟨fact, e, -, ⟨K, k⟩, s⟩ := Ok_iff.mp h
    obtain ⟨g, t⟩ := s K k
    exact ⟨g, fact, K, e, k, t⟩
  | true =>
    obtain ⟨h, -⟩ := C52_left jk jw env opts hq hf hc hx.possible hx.block hx.null hx.noL hx.incomplete hx.noTall
      hx.dense hx.full
    obtain ⟨fact, e, -, ⟨K, k⟩, s⟩ := Ok_iff.mp h
    obtain ⟨g, t⟩ := s K k
    exact ⟨g, fact, K, e, k, t⟩

end

section
attribute [local irreducible] RrefTool KernelTool exSms exLargeFile

/-- Two runs on the same file. -/
example : ∃ g g', RrefTool default exJw exDenseEnv exDenseOpts exSms ((7 : ℕ) : Int) g ∧
    RrefTool default exJw exDenseEnv exDenseOpts exSms ((7 : ℕ) : Int) g' ∧
    ∃ r l1 l1' c c', IsFile g r 3 l1 ∧ IsFile g' r 3 l1' ∧ FileRref 7 r 3 l1 c ∧ FileRref 7 r 3 l1' c' ∧
      ((∀ j, (∃ i, i < r ∧ c i = j) ↔ ∃ i, i < r ∧ c' i = j) → ∃ σ, IsPerm σ r ∧
        ∀ i j, i < r → j < 3 → fileEntry 7 l1 i j = fileEntry 7 l1' (σ i) j) := by
  have : Fact (Nat.Prime 7) := ⟨by norm_num⟩
  obtain ⟨g, hg⟩ := rref_run (q := 7) (by norm_num) exSms_file (exSms_noCancel 7) default exJw _ _ exExact
  exact ⟨g, g, hg, hg, C84_rref (q := 7) (by norm_num) exSms_file (exSms_noCancel 7) default default exJw exJw _ _ _ _
    exExact exSms_file (exSms_noCancel 7) rfl exExact hg hg⟩

example : ∃ g g', KernelTool default exJw exDenseEnv exDenseOpts exSms ((7 : ℕ) : Int) false g ∧
    KernelTool default exJw exDenseEnv exDenseOpts exSms ((7 : ℕ) : Int) true g' ∧
    (∃ k l1 d, IsFile g k 3 l1 ∧ FileFree 7 k 3 l1 d) ∧ ∃ k l1 d, IsFile g' k 2 l1 ∧ FileFree 7 k 2 l1 d := by
  have : Fact (Nat.Prime 7) := ⟨by norm_num⟩
  obtain ⟨g, hg⟩ := kernel_run (q := 7) (by norm_num) exSms_file (exSms_noCancel 7) default exJw _ _ exExact false
  obtain ⟨g', hg'⟩ := kernel_run (q := 7) (by norm_num) exSms_file (exSms_noCancel 7) default exJw _ _ exExact true
  obtain ⟨k, l1, _, d, _, a1, -, a2, -⟩ := C84_kernel (q := 7) (by norm_num) exSms_file (exSms_noCancel 7) default
    default exJw exJw _ _ _ _ exExact exSms_file (exSms_noCancel 7) rfl exExact hg hg
  obtain ⟨k', l1', _, d', _, b1, -, b2, -⟩ := C84_left (q := 7) (by norm_num) exSms_file (exSms_noCancel 7) default
    default exJw exJw _ _ _ _ exExact exSms_file (exSms_noCancel 7) rfl exExact hg' hg'
  exact ⟨g, g', hg, hg', ⟨k, l1, d, a1, a2⟩, ⟨k', l1', d', b1, b2⟩⟩

/-- A file whose matrix has full rank. -/
example : ∃ g l1 c, RrefTool default exJw exDenseEnv exDenseOpts exLargeFile ((7 : ℕ) : Int) g ∧ IsFile g 1 1 l1 ∧
    IsPerm c 1 ∧ ∀ i j, i < 1 → j < 1 → fileEntry 7 l1 i j = if j = c i then 1 else 0 := by
  have hd : Distinct [(1, 1, 42013)] := by unfold Distinct; decide
  have hv : fileEntry 7 [(1, 1, 42013)] 0 0 ≠ 0 := by decide
  have : Fact (Nat.Prime 7) := ⟨by norm_num⟩
  obtain ⟨g, hg⟩ := rref_run (q := 7) (by norm_num) exLargeFile_file hd.noCancel default exJw _ _ exExact
  obtain ⟨l1, c, h⟩ := C84_full (q := 7) (by norm_num) exLargeFile_file hd.noCancel default exJw _ _ exExact
    (fileMat_single hv) hg
  exact ⟨g, l1, c, hg, h⟩

end

end Spasm
