import Verif.Model.ToolsLin
import Verif.Proofs.FileRows
import Verif.Proofs.LoadHash
import Verif.Proofs.AppendEnd
import Verif.Props.Echelonize
import Verif.Props.Solve
import Verif.Props.ToolDm

/-
Properties C51 to C54: what the programs of /repo/tools that echelonize a matrix print and write, from the file they
read to the file they write.
-/

namespace Spasm

open Sha Finset

theorem prime_range {q : ℕ} [h : Fact q.Prime] (hq : q ≤ 0xfffffffb) : 2 ≤ q ∧ q ≤ 0xfffffffb :=
  ⟨h.out.two_le, hq⟩

section
variable (jk : Junk) (jw : Nat → W) (h0 : Nat → B) (env : Env) (opts : Opts) {q : ℕ} [Fact q.Prime]
  (hq : q ≤ 0xfffffffb) {f : List Char} {n m : Nat} {l : List (Int × Int × Int)} (hf : IsFile f n m l)
  (hc : NoCancel q l)

include hq hf hc

/-- The matrix of the program `rank`. -/
theorem rank_input_spec (allow : Bool) : Ok (rank_input jk jw h0 f q allow) (fun r =>
    (if allow = true ∧ n < m then FileCsr q m n (flipped l) r.1 else FileCsr q n m l r.1) ∧ r.2.size = 32) := by
  unfold rank_input
  rw [Ok_bind]
  refine (load_file_hash jk jw (prime_range hq) hf (md := mkArr 32 h0) (by simp)).mono ?_
  rintro ⟨T, hash⟩ ⟨hT, md, rfl, hmd⟩
  rw [Ok_bind]
  by_cases ha : allow = true ∧ n < m
  · rw [if_pos (show allow = true ∧ T.n < T.m by rw [hT.n_eq, hT.m_eq]; exact ha)]
    refine (compress_file jk hT.transpose hc.flipped).mono fun A hA => ?_
    refine (Ok_ok ..).mpr ⟨?_, hmd⟩
    rw [if_pos ha]; exact hA
  · rw [if_neg (show ¬ (allow = true ∧ T.n < T.m) by rw [hT.n_eq, hT.m_eq]; exact ha)]
    refine (compress_file jk hT hc).mono fun A hA => ?_
    refine (Ok_ok ..).mpr ⟨?_, hmd⟩
    rw [if_neg ha]; exact hA

/-- In short. -/
theorem rank_input_short (allow : Bool) : Ok (rank_input jk jw h0 f q allow) (fun r =>
    r.1.WFV q ∧ r.1.NoDup ∧ r.1.NoZero ∧ (r.1.toMat q).rank = (fileMat q n m l).rank ∧
      min r.1.n r.1.m = min n m ∧ r.2.size = 32 ∧ (FileCsr q m n (flipped l) r.1 ∨ FileCsr q n m l r.1)) := by
  refine (rank_input_spec jk jw h0 hq hf hc allow).mono ?_
  rintro ⟨A, hash⟩ ⟨h1, h2⟩
  split at h1
  · refine ⟨h1.wfv, h1.nodup, h1.nozero, ?_, ?_, h2, .inl h1⟩
    · rw [h1.rank, fileMat_flipped, Matrix.rank_transpose]
    · rw [h1.n_eq, h1.m_eq, min_comm]
  · exact ⟨h1.wfv, h1.nodup, h1.nozero, h1.rank, by rw [h1.n_eq, h1.m_eq], h2, .inr h1⟩

variable (henv : env.Possible q) (hb : 0 < opts.block) (hnull : opts.max_round ≠ 0 ∨ jk.null0 = false)
  (hL : opts.L = false) (hcm : opts.complete = false)
include henv hb hnull hL hcm

/-! ### C51 -/

/-- C51 (no overestimation). Whatever the options, the schedule, the random numbers and the heuristic decisions,
the program `rank`, when it ends, prints a number which is at most the rank of the matrix described by the file; the
only other outcome is that the low-rank method does not stop. -/
theorem C51_sound (allow : Bool) (hw : opts.tall = true → ∀ k, k ≤ min n m → |env.weight| * 2 ^ k < 2 ^ 31) :
    WpE (fun e => e = .fuel) (tool_rank jk jw h0 env opts f q allow) (fun r => r ≤ (fileMat q n m l).rank) := by
  unfold tool_rank
  rw [WpE_bind]
  refine (rank_input_short jk jw h0 hq hf hc allow).wpe.mono ?_
  rintro ⟨A, hash⟩ ⟨h1, h2, h3, h4, h5, -, -⟩
  simp only at h1 h2 h3 h4 h5
  rw [← h5] at hw
  rw [WpE_bind]
  refine (C27_sound jk q env opts A henv h1 h2 h3 hb hnull hL hcm hw).mono ?_
  rintro fact ⟨-, -, g1, -, g2⟩
  rw [WpE_ok, ← g1, ← h4]
  exact g2

/-- C51 (dense method). With the dense method, and without the low-rank method, the program prints the rank of the
matrix. -/
theorem C51_rank (allow : Bool) (ht : opts.tall = false) (hd : opts.dense = true) (hfu : env.full = true) :
    Ok (tool_rank jk jw h0 env opts f q allow) (fun r => r = (fileMat q n m l).rank) := by
  unfold tool_rank
  rw [Ok_bind]
  refine (rank_input_short jk jw h0 hq hf hc allow).mono ?_
  rintro ⟨A, hash⟩ ⟨h1, h2, h3, h4, h5, -, -⟩
  simp only at h1 h2 h3 h4 h5
  rw [Ok_bind]
  refine (C27_dense jk q env opts A henv h1 h2 h3 hb hnull hL hcm ht hd hfu).mono ?_
  rintro fact ⟨-, -, g1, g2, -⟩
  rw [Ok_ok, g1, ← h4]
  exact g2

/-- C51 (partial). The number printed is the rank, unless the search for pivots was ended early, on the basis of a
number of rows or of random tests (whose probability of error is bounded in `C27_test`). -/
theorem C51_rank_partial (allow : Bool)
    (hfin : opts.gplu = true ∨ (opts.dense = true ∧ env.full = true) ∨ (opts.tall = true ∧ env.skinny = true))
    (hw : opts.tall = true → ∀ k, k ≤ min n m → |env.weight| * 2 ^ k < 2 ^ 31) :
    WpE (fun e => opts.tall = true ∧ e = .fuel) (tool_rank jk jw h0 env opts f q allow) (fun r =>
      r = (fileMat q n m l).rank ∨ ∃ A U : Csr, (FileCsr q m n (flipped l) A ∨ FileCsr q n m l A) ∧ r = U.n ∧
        Early q env opts A U) := by
  unfold tool_rank
  rw [WpE_bind]
  refine (rank_input_short jk jw h0 hq hf hc allow).wpe.mono ?_
  rintro ⟨A, hash⟩ ⟨h1, h2, h3, h4, h5, -, h6⟩
  simp only at h1 h2 h3 h4 h5 h6
  rw [← h5] at hw
  rw [WpE_bind]
  refine ((C27_rank_partial jk q env opts A henv h1 h2 h3 hb hnull hL hcm hfin hw).and
    (C27_sound jk q env opts A henv h1 h2 h3 hb hnull hL hcm hw)).mono ?_
  rintro fact ⟨g, -, -, g1, -⟩
  rw [WpE_ok, ← g1, ← h4]
  rcases g with g | g
  · exact .inl g.1
  · exact .inr ⟨A, fact.U, h6, g1, g⟩

/-! ### C52 -/

omit henv hb hnull hL hcm in
/-- The matrix of the program `kernel`. -/
theorem kernel_load (left : Bool) {E : Err → Prop} {Q : Lu → Prop}
    (h : ∀ A, (if left = true then FileCsr q m n (flipped l) A else FileCsr q n m l A) →
      WpE E (echelonize jk env opts A) Q) :
    WpE E (kernel_input jk jw env opts f q left) Q := by
  unfold kernel_input
  rw [WpE_bind]
  refine (load_file jk jw (prime_range hq) hf (hash := none) (by rintro _ h; cases h)).wpe.mono ?_
  rintro ⟨T, hash⟩ hT
  rw [WpE_bind]
  cases left with
  | true => exact (compress_file jk hT.transpose hc.flipped).wpe.mono fun A hA => h A hA
  | false => exact (compress_file jk hT hc).wpe.mono fun A hA => h A hA

omit hq hf hc henv hb hnull hL hcm [Fact q.Prime] in
/-- The kernel of an echelonized matrix is computed and saved. -/
theorem kernel_saved (fact : Lu) (he : Echelon q fact.U fact.qinv) (hm : fact.U.m < 2 ^ 31) :
    (∃ K, KernelRun jk fact.U fact.qinv K) ∧ ∀ K, KernelRun jk fact.U fact.qinv K →
      Ok (csr_save K) (fun g => ∃ l', IsFile g K.n fact.U.m l' ∧ Same q K.n K.m l' K ∧ IsKernel q fact.U K) := by
  constructor
  · have hrows : ∑ t, ((fun _ : Fin 1 => List.range fact.U.m) t : Multiset Nat) = Multiset.range fact.U.m := by
      simp [Multiset.range]
    obtain ⟨Ut, K0, utq, jobs, h1, h2, h3⟩ := C18_safe jk q fact.U fact.qinv he 1 _ hrows
    obtain ⟨-, -, s, h4, h5⟩ := h3 _ .init
    exact ⟨_, 1, _, jobs, Ut, K0, utq, s, hrows, h1, h2, h4, h5, rfl⟩
  · intro K hK
    obtain ⟨h1, -, -, h2⟩ := C18_result jk q fact.U fact.qinv he K hK
    have e1 := h2.n_eq
    have e2 := h2.m_eq
    refine (save_same h1 (by omega) (by omega)).mono ?_
    rintro g ⟨l', g1, g2⟩
    rw [e2] at g1
    exact ⟨l', g1, g2, h2⟩

/-- The general case, from which all the others follow. -/
theorem kernel_general (left : Bool) {n' m' : Nat} {l0 : List (Int × Int × Int)}
    (hl : ∀ A, (if left = true then FileCsr q m n (flipped l) A else FileCsr q n m l A) → FileCsr q n' m' l0 A)
    (hm' : m' < 2 ^ 31) (hn' : min n' m' = min n m)
    (hw : opts.tall = true → ∀ k, k ≤ min n m → |env.weight| * 2 ^ k < 2 ^ 31) :
    WpE (fun e => e = .fuel) (kernel_input jk jw env opts f q left) (fun fact =>
      Echelon q fact.U fact.qinv ∧ (∃ K, KernelRun jk fact.U fact.qinv K) ∧
      ∀ K, KernelRun jk fact.U fact.qinv K → ∃ g k l', csr_save K = .ok g ∧ IsFile g k m' l' ∧ k + fact.U.n = m' ∧
        LinearIndependent (ZMod q) (fun i => fileMat q k m' l' i) ∧
        LinearMap.ker (fileMat q n' m' l0).mulVecLin ≤ fileRows q k m' l' ∧
        ((fact.r = (fileMat q n' m' l0).rank ∨ (∃ A, FileCsr q n' m' l0 A ∧ fact.U.rowSpace q = A.rowSpace q)) →
          k + (fileMat q n' m' l0).rank = m' ∧
          LinearMap.ker (fileMat q n' m' l0).mulVecLin = fileRows q k m' l')) := by
  refine kernel_load jk jw env opts hq hf hc left fun A hA => ?_
  have hA := hl A hA
  have hw' : opts.tall = true → ∀ k, k ≤ min A.n A.m → |env.weight| * 2 ^ k < 2 ^ 31 := by
    rw [hA.n_eq, hA.m_eq, hn']; exact hw
  refine (C27_sound jk q env opts A henv hA.wfv hA.nodup hA.nozero hb hnull hL hcm hw').mono ?_
  rintro fact ⟨g1, g2, g3, g4, -⟩
  have hm : fact.U.m = m' := by rw [g2, hA.m_eq]
  obtain ⟨k1, k2⟩ := kernel_saved jk fact g1 (by omega)
  refine ⟨g1, k1, fun K hK => ?_⟩
  obtain ⟨g, e, l', s1, s2, s3⟩ := Ok_iff.mp (k2 K hK)
  rw [hm] at s1
  have e1 := s3.n_eq
  rw [hm] at e1
  obtain ⟨i1, i2, i3⟩ := s3.file (n := n') (l := l0) hm s2
  have hle : (fact.U.rowSpace q).map (restr q m') ≤ fileRows q n' m' l0 := by
    rw [hA.same.rows]; exact Submodule.map_mono g4
  refine ⟨g, K.n, l', e, s1, e1, i1, i2 hle, fun hr => ?_⟩
  have hrs : fact.U.rowSpace q = A.rowSpace q := by
    rcases hr with hr | ⟨A', hA', hr⟩
    · have : FiniteDimensional (ZMod q) (A.rowSpace q) :=
        FiniteDimensional.span_of_finite (ZMod q) ((Set.finite_Iio A.n).image _)
      refine Submodule.eq_of_le_of_finrank_eq g4 ?_
      rw [g1.rank, finrank_rowSpace hA.wfv.toWF, hA.rank, ← hr, g3]
    · rw [hr]
      unfold Csr.rowSpace
      rw [hA.n_eq, hA'.n_eq]
      refine congrArg (Submodule.span (ZMod q)) (Set.image_congr fun i hi => ?_)
      funext j
      rw [hA.entry i j hi, hA'.entry i j hi]
  have hrk : fact.U.n = (fileMat q n' m' l0).rank := by
    rw [← hA.rank, ← finrank_rowSpace hA.wfv.toWF, ← hrs, g1.rank]
  exact ⟨by omega, i3 (by rw [hrs, hA.same.rows])⟩

/-- The two cases. -/
theorem kernel_dense (left : Bool) {n' m' : Nat} {l0 : List (Int × Int × Int)}
    (hl : ∀ A, (if left = true then FileCsr q m n (flipped l) A else FileCsr q n m l A) → FileCsr q n' m' l0 A)
    (hm' : m' < 2 ^ 31) (hn' : min n' m' = min n m) (ht : opts.tall = false) (hd : opts.dense = true)
    (hfu : env.full = true) :
    Ok (kernel_input jk jw env opts f q left) (fun fact => Echelon q fact.U fact.qinv ∧
      (∃ K, KernelRun jk fact.U fact.qinv K) ∧ ∀ K, KernelRun jk fact.U fact.qinv K → ∃ g, csr_save K = .ok g) ∧
    ∀ g, KernelTool jk jw env opts f q left g → ∃ k l', IsFile g k m' l' ∧ k + (fileMat q n' m' l0).rank = m' ∧
      LinearIndependent (ZMod q) (fun i => fileMat q k m' l' i) ∧
      fileRows q k m' l' = LinearMap.ker (fileMat q n' m' l0).mulVecLin := by
  have h1 := kernel_general jk jw env opts hq hf hc henv hb hnull hL hcm left hl hm' hn'
    (fun h => by rw [ht] at h; cases h)
  have h2 : Ok (kernel_input jk jw env opts f q left) (fun fact => fact.r = (fileMat q n' m' l0).rank) := by
    refine WpE.ok (kernel_load jk jw env opts hq hf hc left fun A hA => ?_)
    have hA := hl A hA
    refine (C27_dense jk q env opts A henv hA.wfv hA.nodup hA.nozero hb hnull hL hcm ht hd hfu).wpe.mono ?_
    rintro fact ⟨-, -, -, g, -⟩
    rw [g, hA.rank]
  obtain ⟨fact, e, hr⟩ := Ok_iff.mp h2
  rw [e, WpE_ok] at h1
  obtain ⟨g1, g2, g3⟩ := h1
  constructor
  · rw [e, Ok_ok]
    refine ⟨g1, g2, fun K hK => ?_⟩
    obtain ⟨g, _, _, h, -⟩ := g3 K hK
    exact ⟨g, h⟩
  · rintro g ⟨fact', K, e', hK, hg⟩
    rw [e] at e'
    cases e'
    obtain ⟨g', k, l', s1, s2, -, s3, -, s4⟩ := g3 K hK
    rw [hg] at s1
    cases s1
    obtain ⟨s5, s6⟩ := s4 (.inl hr)
    exact ⟨k, l', s2, s5, s3, s6.symm⟩

/-- C52. With the dense method, and without the low-rank method: the program `kernel` has no error, whatever the
threads (`C18_safe` applies to the echelon form it computes), and every file it may write describes a matrix whose
rows are a basis of the right kernel of the matrix of the file it reads. -/
theorem C52_kernel (ht : opts.tall = false) (hd : opts.dense = true) (hfu : env.full = true) :
    Ok (kernel_input jk jw env opts f q false) (fun fact => Echelon q fact.U fact.qinv ∧
      (∃ K, KernelRun jk fact.U fact.qinv K) ∧ ∀ K, KernelRun jk fact.U fact.qinv K → ∃ g, csr_save K = .ok g) ∧
    ∀ g, KernelTool jk jw env opts f q false g → ∃ k l', IsFile g k m l' ∧ k + (fileMat q n m l).rank = m ∧
      LinearIndependent (ZMod q) (fun i => fileMat q k m l' i) ∧
      fileRows q k m l' = LinearMap.ker (fileMat q n m l).mulVecLin :=
  kernel_dense jk jw env opts hq hf hc henv hb hnull hL hcm false (fun _ h => h) hf.m_lt rfl ht hd hfu

/-- C52 (left kernel). With the option `--left`, the rows that are written are a basis of the left kernel. -/
theorem C52_left (ht : opts.tall = false) (hd : opts.dense = true) (hfu : env.full = true) :
    Ok (kernel_input jk jw env opts f q true) (fun fact => Echelon q fact.U fact.qinv ∧
      (∃ K, KernelRun jk fact.U fact.qinv K) ∧ ∀ K, KernelRun jk fact.U fact.qinv K → ∃ g, csr_save K = .ok g) ∧
    ∀ g, KernelTool jk jw env opts f q true g → ∃ k l', IsFile g k n l' ∧ k + (fileMat q n m l).rank = n ∧
      LinearIndependent (ZMod q) (fun i => fileMat q k n l' i) ∧
      ∀ x, x ∈ fileRows q k n l' ↔ Matrix.vecMul x (fileMat q n m l) = 0 := by
  obtain ⟨h1, h2⟩ := kernel_dense jk jw env opts hq hf hc henv hb hnull hL hcm true (fun _ h => h) hf.n_lt
    (min_comm m n) ht hd hfu
  refine ⟨h1, fun g hg => ?_⟩
  obtain ⟨k, l', g1, g2, g3, g4⟩ := h2 g hg
  rw [fileMat_flipped, Matrix.rank_transpose] at g2
  refine ⟨k, l', g1, g2, g3, fun x => ?_⟩
  rw [g4, LinearMap.mem_ker, Matrix.mulVecLin_apply, fileMat_flipped, Matrix.mulVec_transpose]

/-- The general case, with the low-rank method and GPLU. -/
theorem kernel_partial (left : Bool) {n' m' : Nat} {l0 : List (Int × Int × Int)}
    (hl : ∀ A, (if left = true then FileCsr q m n (flipped l) A else FileCsr q n m l A) → FileCsr q n' m' l0 A)
    (hm' : m' < 2 ^ 31) (hn' : min n' m' = min n m)
    (hfin : opts.gplu = true ∨ (opts.dense = true ∧ env.full = true) ∨ (opts.tall = true ∧ env.skinny = true))
    (hw : opts.tall = true → ∀ k, k ≤ min n m → |env.weight| * 2 ^ k < 2 ^ 31) :
    WpE (fun e => opts.tall = true ∧ e = .fuel) (kernel_input jk jw env opts f q left) (fun fact =>
      Echelon q fact.U fact.qinv ∧ (∃ K, KernelRun jk fact.U fact.qinv K) ∧
      ∀ K, KernelRun jk fact.U fact.qinv K → ∃ g k l', csr_save K = .ok g ∧ IsFile g k m' l' ∧
        LinearIndependent (ZMod q) (fun i => fileMat q k m' l' i) ∧
        LinearMap.ker (fileMat q n' m' l0).mulVecLin ≤ fileRows q k m' l' ∧
        (fileRows q k m' l' = LinearMap.ker (fileMat q n' m' l0).mulVecLin ∨
          ∃ A, FileCsr q n' m' l0 A ∧ Early q env opts A fact.U)) := by
  have h1 := kernel_general jk jw env opts hq hf hc henv hb hnull hL hcm left hl hm' hn' hw
  have h2 : WpE (fun e => opts.tall = true ∧ e = .fuel) (kernel_input jk jw env opts f q left) (fun fact =>
      fact.r = (fileMat q n' m' l0).rank ∨ ∃ A, FileCsr q n' m' l0 A ∧ Early q env opts A fact.U) := by
    refine kernel_load jk jw env opts hq hf hc left fun A hA => ?_
    have hA : FileCsr q n' m' l0 A := hl A hA
    have hw' : opts.tall = true → ∀ k, k ≤ min A.n A.m → |env.weight| * 2 ^ k < 2 ^ 31 := by
      rw [hA.n_eq, hA.m_eq, hn']; exact hw
    refine (C27_rank_partial jk q env opts A henv hA.wfv hA.nodup hA.nozero hb hnull hL hcm hfin hw').mono ?_
    intro fact h
    rcases h with h | h
    · left; rw [h.1, hA.rank]
    · exact .inr ⟨A, hA, h⟩
  refine (h2.and h1).mono ?_
  rintro fact ⟨hr, g1, g2, g3⟩
  refine ⟨g1, g2, fun K hK => ?_⟩
  obtain ⟨g, k, l', s1, s2, -, s3, s4, s5⟩ := g3 K hK
  refine ⟨g, k, l', s1, s2, s3, s4, ?_⟩
  rcases hr with hr | hr
  · exact .inl (s5 (.inl hr)).2.symm
  · exact .inr hr

/-- C52 (partial). In general, the rows that are written are independent and their span contains the right kernel;
they are a basis of the right kernel unless the search for pivots was ended early. -/
theorem C52_kernel_partial
    (hfin : opts.gplu = true ∨ (opts.dense = true ∧ env.full = true) ∨ (opts.tall = true ∧ env.skinny = true))
    (hw : opts.tall = true → ∀ k, k ≤ min n m → |env.weight| * 2 ^ k < 2 ^ 31) :
    WpE (fun e => opts.tall = true ∧ e = .fuel) (kernel_input jk jw env opts f q false) (fun fact =>
      Echelon q fact.U fact.qinv ∧ (∃ K, KernelRun jk fact.U fact.qinv K) ∧
      ∀ K, KernelRun jk fact.U fact.qinv K → ∃ g k l', csr_save K = .ok g ∧ IsFile g k m l' ∧
        LinearIndependent (ZMod q) (fun i => fileMat q k m l' i) ∧
        LinearMap.ker (fileMat q n m l).mulVecLin ≤ fileRows q k m l' ∧
        (fileRows q k m l' = LinearMap.ker (fileMat q n m l).mulVecLin ∨
          ∃ A, FileCsr q n m l A ∧ Early q env opts A fact.U)) :=
  kernel_partial jk jw env opts hq hf hc henv hb hnull hL hcm false (fun _ h => h) hf.m_lt rfl hfin hw

/-- C52 (left kernel, partial). The same with `--left`, for the left kernel. -/
theorem C52_left_partial
    (hfin : opts.gplu = true ∨ (opts.dense = true ∧ env.full = true) ∨ (opts.tall = true ∧ env.skinny = true))
    (hw : opts.tall = true → ∀ k, k ≤ min n m → |env.weight| * 2 ^ k < 2 ^ 31) :
    WpE (fun e => opts.tall = true ∧ e = .fuel) (kernel_input jk jw env opts f q true) (fun fact =>
      Echelon q fact.U fact.qinv ∧ (∃ K, KernelRun jk fact.U fact.qinv K) ∧
      ∀ K, KernelRun jk fact.U fact.qinv K → ∃ g k l', csr_save K = .ok g ∧ IsFile g k n l' ∧
        LinearIndependent (ZMod q) (fun i => fileMat q k n l' i) ∧
        (∀ x, Matrix.vecMul x (fileMat q n m l) = 0 → x ∈ fileRows q k n l') ∧
        ((∀ x, x ∈ fileRows q k n l' ↔ Matrix.vecMul x (fileMat q n m l) = 0) ∨
          ∃ A, FileCsr q m n (flipped l) A ∧ Early q env opts A fact.U)) := by
  refine (kernel_partial jk jw env opts hq hf hc henv hb hnull hL hcm true (fun _ h => h) hf.n_lt (min_comm m n) hfin
    hw).mono ?_
  rintro fact ⟨g1, g2, g3⟩
  refine ⟨g1, g2, fun K hK => ?_⟩
  obtain ⟨g, k, l', s1, s2, s3, s4, s5⟩ := g3 K hK
  have key : ∀ x, x ∈ LinearMap.ker (fileMat q m n (flipped l)).mulVecLin ↔ Matrix.vecMul x (fileMat q n m l) = 0 := by
    intro x
    rw [LinearMap.mem_ker, Matrix.mulVecLin_apply, fileMat_flipped, Matrix.mulVec_transpose]
  refine ⟨g, k, l', s1, s2, s3, fun x hx => s4 ((key x).mpr hx), ?_⟩
  rcases s5 with s5 | s5
  · exact .inl fun x => by rw [s5, key]
  · exact .inr s5

/-! ### C53 -/

omit henv hb hnull hL hcm in
theorem echelonize_load {E : Err → Prop} {Q : Lu → Prop}
    (h : ∀ A, FileCsr q n m l A → WpE E (echelonize jk env opts A) Q) :
    WpE E (echelonize_input jk jw env opts f q) Q :=
  kernel_load jk jw env opts hq hf hc false h

omit henv hb hnull hL hcm hc hq in
/-- The file of an echelonized matrix. -/
theorem saved_echelon {A U : Csr} {qinv : Array Int} (hA : FileCsr q n m l A) (he : Echelon q U qinv) (hm : U.m = A.m)
    (hle : U.rowSpace q ≤ A.rowSpace q) :
    Ok (csr_save U) (fun g => ∃ l' c, IsFile g U.n m l' ∧ Same q U.n m l' U ∧ FileEchelon q U.n m l' c ∧
      (∀ i, i < U.n → c i = U.pivot i) ∧ fileRows q U.n m l' ≤ fileRows q n m l ∧
      (U.n = (fileMat q n m l).rank → fileRows q U.n m l' = fileRows q n m l)) := by
  have hmm : U.m = m := by rw [hm, hA.m_eq]
  have hml := hf.m_lt
  have hnl := hf.n_lt
  have hle' : U.n ≤ (A.toMat q).rank := by
    rw [← he.rank, ← finrank_rowSpace hA.wfv.toWF]
    have : FiniteDimensional (ZMod q) (A.rowSpace q) :=
      FiniteDimensional.span_of_finite (ZMod q) ((Set.finite_Iio A.n).image _)
    exact Submodule.finrank_mono hle
  have hn : U.n ≤ A.n := hle'.trans ((Matrix.rank_le_card_height _).trans (by simp))
  rw [hA.n_eq] at hn
  refine (save_same he.wfv (by omega) (by omega)).mono ?_
  rintro g ⟨l', g1, g2⟩
  rw [hmm] at g1 g2
  refine ⟨l', U.pivot, g1, g2, ⟨?_, ?_, ?_⟩, fun i _ => rfl, ?_, ?_⟩
  · intro i hi
    rw [← hmm]; exact he.pivot_lt hi
  · intro i hi
    rw [← g2.entry i _ hi]
    exact he.entry_pivot hi
  · intro i k hik hk
    rw [← g2.entry k _ hk]
    exact Csr.entry_eq_zero_of_not_inRow (he.tri i k hik hk)
  · rw [g2.rows, hA.same.rows]
    exact Submodule.map_mono hle
  · intro hr
    rw [g2.rows, hA.same.rows]
    congr 1
    have : FiniteDimensional (ZMod q) (A.rowSpace q) :=
      FiniteDimensional.span_of_finite (ZMod q) ((Set.finite_Iio A.n).image _)
    refine Submodule.eq_of_le_of_finrank_eq hle ?_
    rw [he.rank, finrank_rowSpace hA.wfv.toWF, hA.rank, hr]

/-- C53. With the dense method, and without the low-rank method: the program `echelonize` writes a file that
describes a matrix in echelon form, with as many rows as the rank and the same row space as the matrix it reads. -/
theorem C53_echelonize (ht : opts.tall = false) (hd : opts.dense = true) (hfu : env.full = true) :
    Ok (tool_echelonize jk jw env opts f q) (fun g => ∃ r l' c, IsFile g r m l' ∧ r = (fileMat q n m l).rank ∧
      FileEchelon q r m l' c ∧ fileRows q r m l' = fileRows q n m l) := by
  unfold tool_echelonize
  rw [Ok_bind]
  refine WpE.ok (echelonize_load jk jw env opts hq hf hc fun A hA => ?_)
  refine (C27_dense jk q env opts A henv hA.wfv hA.nodup hA.nozero hb hnull hL hcm ht hd hfu).wpe.mono ?_
  rintro fact ⟨g1, g2, g3, g4, g5⟩
  refine (saved_echelon hf hA g1 g2 g5.le).mono ?_
  rintro g ⟨l', c, s1, -, s2, -, -, s3⟩
  have hr : fact.U.n = (fileMat q n m l).rank := by rw [g3, g4, hA.rank]
  exact ⟨_, l', c, s1, hr, s2, s3 hr⟩

/-- C53 (partial). In general, the matrix that is written is in echelon form, with rows in the row space of the matrix
that is read, which they span unless the search for pivots was ended early. -/
theorem C53_echelonize_partial
    (hfin : opts.gplu = true ∨ (opts.dense = true ∧ env.full = true) ∨ (opts.tall = true ∧ env.skinny = true))
    (hw : opts.tall = true → ∀ k, k ≤ min n m → |env.weight| * 2 ^ k < 2 ^ 31) :
    WpE (fun e => opts.tall = true ∧ e = .fuel) (tool_echelonize jk jw env opts f q) (fun g =>
      ∃ r l' c, IsFile g r m l' ∧ r ≤ (fileMat q n m l).rank ∧ FileEchelon q r m l' c ∧
        fileRows q r m l' ≤ fileRows q n m l ∧ ((r = (fileMat q n m l).rank ∧ fileRows q r m l' = fileRows q n m l) ∨
          ∃ A U, FileCsr q n m l A ∧ Same q r m l' U ∧ Early q env opts A U)) := by
  unfold tool_echelonize
  rw [WpE_bind]
  refine echelonize_load jk jw env opts hq hf hc fun A hA => ?_
  have hw' : opts.tall = true → ∀ k, k ≤ min A.n A.m → |env.weight| * 2 ^ k < 2 ^ 31 := by
    rw [hA.n_eq, hA.m_eq]; exact hw
  refine ((C27_rank_partial jk q env opts A henv hA.wfv hA.nodup hA.nozero hb hnull hL hcm hfin hw').and
    (C27_sound jk q env opts A henv hA.wfv hA.nodup hA.nozero hb hnull hL hcm hw')).mono ?_
  rintro fact ⟨g0, g1, g2, g3, g4, g5⟩
  refine (saved_echelon hf hA g1 g2 g4).wpe.mono ?_
  rintro g ⟨l', c, s1, s2, s3, -, s4, s5⟩
  refine ⟨_, l', c, s1, by rw [← hA.rank, ← g3]; exact g5, s3, s4, ?_⟩
  rcases g0 with g0 | g0
  · have hr : fact.U.n = (fileMat q n m l).rank := by rw [← g3, g0.1, hA.rank]
    exact .inl ⟨hr, s5 hr⟩
  · exact .inr ⟨A, fact.U, hA, s2, g0⟩

omit hq hf hc henv hb hnull hL hcm [Fact q.Prime] in
theorem IsRref.rowSpace {U R : Csr} {rq : Array Int} (h : IsRref q U R rq) (hU : U.WF) :
    R.rowSpace q = U.rowSpace q := by
  have hR := h.ech.wfv.toWF
  refine le_antisymm (spanOf_le fun i hi => ?_) (spanOf_le fun i hi => ?_)
  · rw [mem_rowSpace_iff hU]
    exact ⟨h.sub i hi, fun c hc => hR.entry_ge hi (by rw [h.m_eq]; exact hc)⟩
  · rw [mem_rowSpace_iff hR]
    exact ⟨h.sup i hi, fun c hc => hU.entry_ge hi (by rw [← h.m_eq]; exact hc)⟩

omit hq hc henv hb hnull hL hcm in
theorem rref_files {A : Csr} {fact : Lu} (hA : FileCsr q n m l A) (g1 : Echelon q fact.U fact.qinv)
    (g2 : fact.U.m = A.m) (g4 : fact.U.rowSpace q ≤ A.rowSpace q) :
    (∃ R rq, RrefRun jk fact.U fact.qinv (mkArr fact.U.m jk.int) R rq) ∧
    ∀ R rq, RrefRun jk fact.U fact.qinv (mkArr fact.U.m jk.int) R rq → Ok (csr_save R) (fun g =>
      ∃ l' c, IsFile g fact.U.n m l' ∧ Same q fact.U.n m l' R ∧ R.rowSpace q = fact.U.rowSpace q ∧
        FileRref q fact.U.n m l' c ∧ fileRows q fact.U.n m l' ≤ fileRows q n m l ∧
        (fact.U.n = (fileMat q n m l).rank → fileRows q fact.U.n m l' = fileRows q n m l)) := by
  constructor
  · have hrows : ∑ t, ((fun _ : Fin 1 => List.range fact.U.n) t : Multiset Nat) = Multiset.range fact.U.n := by
      simp [Multiset.range]
    obtain ⟨k, R0, jobs, a1, a2, a3, a4⟩ := C20_safe jk q fact.U fact.qinv (mkArr fact.U.m jk.int) g1 (by simp) 1 _
      hrows
    obtain ⟨-, -, ⟨s, a5, a6⟩, -⟩ := a4 _ .init
    obtain ⟨-, -, -, a7⟩ := a4 _ a5
    obtain ⟨rq, a8⟩ := a7 a6
    exact ⟨_, rq, 1, _, jobs, R0, k, s, hrows, a1, a2, a3, a5, a6, rfl, a8⟩
  · intro R rq hR
    obtain ⟨hr, -⟩ := C20_result jk q fact.U fact.qinv _ g1 (by simp) R rq hR
    have hsp := hr.rowSpace g1.wfv.toWF
    refine (saved_echelon hf hA hr.ech (by rw [hr.m_eq, g2]) (by rw [hsp]; exact g4)).mono ?_
    rintro g ⟨l', c, s1, s2, s3, s4, s5, s6⟩
    have hn := hr.n_eq
    rw [← hn]
    refine ⟨l', c, s1, s2, hsp, ⟨s3.lt, s3.one, fun i k hik hi hk => ?_⟩, s5, s6⟩
    rw [← s2.entry k _ hk, s4 i hi]
    exact Csr.entry_eq_zero_of_not_inRow (hr.reduced i k hi hk hik)

/-- C53 (reduced form). With the option `--rref`, the dense method, and without the low-rank method: no error, whatever
the threads (`C20_safe` applies), and every file that may be written describes the reduced echelon form (up to the
order of the rows and the choice of the pivotal columns) of the matrix that is read. -/
theorem C53_rref (ht : opts.tall = false) (hd : opts.dense = true) (hfu : env.full = true) :
    Ok (echelonize_input jk jw env opts f q) (fun fact => Echelon q fact.U fact.qinv ∧
      (∃ R rq, RrefRun jk fact.U fact.qinv (mkArr fact.U.m jk.int) R rq) ∧
      ∀ R rq, RrefRun jk fact.U fact.qinv (mkArr fact.U.m jk.int) R rq → ∃ g, csr_save R = .ok g) ∧
    ∀ g, RrefTool jk jw env opts f q g → ∃ r l' c, IsFile g r m l' ∧ r = (fileMat q n m l).rank ∧
      FileRref q r m l' c ∧ fileRows q r m l' = fileRows q n m l := by
  have h1 : Ok (echelonize_input jk jw env opts f q) (fun fact => ∃ A, FileCsr q n m l A ∧
      Echelon q fact.U fact.qinv ∧ fact.U.m = A.m ∧ fact.U.n = (fileMat q n m l).rank ∧
      fact.U.rowSpace q = A.rowSpace q) := by
    refine WpE.ok (echelonize_load jk jw env opts hq hf hc fun A hA => ?_)
    refine (C27_dense jk q env opts A henv hA.wfv hA.nodup hA.nozero hb hnull hL hcm ht hd hfu).wpe.mono ?_
    rintro fact ⟨g1, g2, g3, g4, g5⟩
    exact ⟨A, hA, g1, g2, by rw [g3, g4, hA.rank], g5⟩
  obtain ⟨fact, e, A, hA, g1, g2, g3, g4⟩ := Ok_iff.mp h1
  obtain ⟨k1, k2⟩ := rref_files jk hf hA g1 g2 g4.le
  constructor
  · rw [e, Ok_ok]
    refine ⟨g1, k1, fun R rq hR => ?_⟩
    obtain ⟨g, eg, -⟩ := Ok_iff.mp (k2 R rq hR)
    exact ⟨g, eg⟩
  · rintro g ⟨fact', R, rq, e', hR, hg⟩
    rw [e] at e'
    cases e'
    have := k2 R rq hR
    rw [hg, Ok_ok] at this
    obtain ⟨l', c, s1, -, -, s3, -, s4⟩ := this
    exact ⟨_, l', c, s1, g3, s3, s4 g3⟩

/-- C53 (reduced form, partial). In general, with `--rref`: the matrix that is written is in reduced echelon form, with
rows in the row space of the matrix that is read, which they span unless the search for pivots was ended early. -/
theorem C53_rref_partial
    (hfin : opts.gplu = true ∨ (opts.dense = true ∧ env.full = true) ∨ (opts.tall = true ∧ env.skinny = true))
    (hw : opts.tall = true → ∀ k, k ≤ min n m → |env.weight| * 2 ^ k < 2 ^ 31) :
    WpE (fun e => opts.tall = true ∧ e = .fuel) (echelonize_input jk jw env opts f q) (fun fact =>
      Echelon q fact.U fact.qinv ∧ (∃ R rq, RrefRun jk fact.U fact.qinv (mkArr fact.U.m jk.int) R rq) ∧
      ∀ R rq, RrefRun jk fact.U fact.qinv (mkArr fact.U.m jk.int) R rq → Ok (csr_save R) (fun g =>
        ∃ r l' c, IsFile g r m l' ∧ r ≤ (fileMat q n m l).rank ∧ FileRref q r m l' c ∧
          fileRows q r m l' ≤ fileRows q n m l ∧
          ((r = (fileMat q n m l).rank ∧ fileRows q r m l' = fileRows q n m l) ∨
            ∃ A U, FileCsr q n m l A ∧ Same q r m l' R ∧ R.rowSpace q = U.rowSpace q ∧ Early q env opts A U))) := by
  refine echelonize_load jk jw env opts hq hf hc fun A hA => ?_
  have hw' : opts.tall = true → ∀ k, k ≤ min A.n A.m → |env.weight| * 2 ^ k < 2 ^ 31 := by
    rw [hA.n_eq, hA.m_eq]; exact hw
  refine ((C27_rank_partial jk q env opts A henv hA.wfv hA.nodup hA.nozero hb hnull hL hcm hfin hw').and
    (C27_sound jk q env opts A henv hA.wfv hA.nodup hA.nozero hb hnull hL hcm hw')).mono ?_
  rintro fact ⟨g0, g1, g2, g3, g4, g5⟩
  obtain ⟨k1, k2⟩ := rref_files jk hf hA g1 g2 g4
  refine ⟨g1, k1, fun R rq hR => (k2 R rq hR).mono ?_⟩
  rintro g ⟨l', c, s1, s2, s3, s4, s5, s6⟩
  refine ⟨_, l', c, s1, by rw [← hA.rank, ← g3]; exact g5, s4, s5, ?_⟩
  rcases g0 with g0 | g0
  · have hr : fact.U.n = (fileMat q n m l).rank := by rw [← g3, g0.1, hA.rank]
    exact .inl ⟨hr, s6 hr⟩
  · exact .inr ⟨A, fact.U, hA, s2, s3, g0⟩

end

/-! ### C54 -/

theorem fmtD_dec (i : Nat) : fmtD (i : Int) = dec (i : Int) := (dec_eq i).symm

section
variable (jk : Junk) (jw : Nat → W) (h0 : Nat → B) (env : Env) (opts : Opts) {q : ℕ} [Fact q.Prime]
  (hq : q ≤ 0xfffffffb) {f : List Char} {n m : Nat} {l : List (Int × Int × Int)} (hf : IsFile f n m l)
  (hc : NoCancel q l) {g : List Char} {k m2 : Nat} {l2 : List (Int × Int × Int)} (hg : IsFile g k m2 l2)
  (hc2 : NoCancel q l2)
  (henv : env.Possible q) (hb : 0 < opts.block) (hnull : opts.max_round ≠ 0 ∨ jk.null0 = false)
  (hpv : opts.complete = false → opts.dense = true → NoSchur env opts)
  (hfin : opts.gplu = true ∨ (opts.dense = true ∧ env.full = true))

include hq hf hc hg hc2 henv hb hnull hpv hfin

theorem solve_input_spec : Ok (solve_input jk jw h0 env opts f g q) (fun r => ∃ A L, FileCsr q n m l A ∧
    FileCsr q k m2 l2 r.2 ∧ r.1.L = some L ∧ IsFact q A L r.1.U r.1.qinv r.1.p r.1.complete) := by
  unfold solve_input
  rw [Ok_bind]
  refine (load_file_hash jk jw (prime_range hq) hf (md := mkArr 32 h0) (by simp)).mono ?_
  rintro ⟨T, hash⟩ ⟨hT, md, rfl, hmd⟩
  rw [Ok_bind]
  refine (compress_file jk hT hc).mono fun A hA => ?_
  rw [Ok_bind]
  refine (load_file_hash jk jw (prime_range hq) hg hmd).mono ?_
  rintro ⟨T2, hash2⟩ ⟨hT2, -⟩
  rw [Ok_bind]
  refine (compress_file jk hT2 hc2).mono fun B hB => ?_
  rw [Ok_bind]
  refine (C28_lu_partial jk q env { opts with L := true } A henv hA.wfv hA.nodup hA.nozero hb hnull rfl hpv
    hfin).mono ?_
  rintro fact ⟨-, -, -, h1, -, L, h2, h3⟩
  rw [Ok_ok]
  refine ⟨A, L, hA, hB, h2, ?_⟩
  rw [h1]
  exact h3

omit hq hf hc hg hc2 henv hb hnull hpv hfin in
/-- Every run on a right-hand side with the right number of columns. -/
theorem gesv_run {A B L : Csr} {fact : Lu} (hA : FileCsr q n m l A) (hB : FileCsr q k m2 l2 B) (hm : m ≤ m2) (hL : fact.L = some L)
    (hF : IsFact q A L fact.U fact.qinv fact.p fact.complete) {X : Csr} {ok : Nat → Bool}
    (h : GesvRun jk fact B X ok) :
    X.WFV q ∧ X.n = k ∧ X.m = n ∧ ∀ i, i < k → (ok i = true ↔ Solvable q n m l l2 i) ∧
      (ok i = true → Matrix.vecMul (fun j : Fin n => X.entry q i j) (fileMat q n m l) =
        fun c : Fin m => fileEntry q l2 i c) := by
  obtain ⟨L', T, rows, oks, items, s, e1, e2, e3, e4, e5, e6, e7⟩ := h
  rw [hL] at e1
  cases e1
  obtain ⟨c1, c2⟩ := C17_gesv jk q A B L fact hL hF hB.wfv (by rw [hA.m_eq, hB.m_eq]; exact hm) T rows e2
  obtain ⟨-, -, c3⟩ := c2 oks items e3 s e4
  have c4 := c3 e5
  rw [e6, Ok_ok] at c4
  obtain ⟨x1, x2, x3, -, -, x4⟩ := c4
  refine ⟨x1, by rw [x2, hB.n_eq], by rw [x3, hA.n_eq], fun i hi => ?_⟩
  have hmem : i ∈ ∑ t, (rows t : Multiset Nat) := by
    rw [e2, Multiset.mem_range, hB.n_eq]; exact hi
  obtain ⟨t, ht⟩ := (mem_sum_coe rows i).mp hmem
  have c5 := c1 t
  rw [e3 t, Ok_ok] at c5
  rw [← c5] at ht
  obtain ⟨⟨i', b⟩, hb, rfl⟩ := List.mem_map.mp ht
  simp only at *
  obtain ⟨y1, y2⟩ := x4 t i' b hb
  rw [e7 t i' b hb]
  obtain ⟨-, -, -, rfl, rfl, hAe⟩ := hA
  have hM : A.toMat q = fileMat q A.n A.m l := by
    ext i j
    exact hAe i j i.isLt
  have hR : (fun c : Fin A.m => B.entry q i' c) = fun c : Fin A.m => fileEntry q l2 i' c := by
    funext c
    exact hB.entry i' c hi
  rw [hM, hR] at y1 y2
  exact ⟨y1, y2⟩

/-- The general case: the columns of the right-hand side after the last column of the matrix are ignored. -/
theorem solve_general (hm : m ≤ m2) :
    Ok (solve_input jk jw h0 env opts f g q) (fun r => (∃ X ok, GesvRun jk r.1 r.2 X ok) ∧
      ∀ X ok, GesvRun jk r.1 r.2 X ok → ∃ t, csr_save X = .ok t) ∧
    ∀ w t, SolveTool jk jw h0 env opts f g q w t → ∃ l3, IsFile t k n l3 ∧
      w = warnings k (Solvable q n m l l2) ∧
      ∀ i, (hi : i < k) → Solvable q n m l l2 i →
        Matrix.vecMul (fileMat q k n l3 ⟨i, hi⟩) (fileMat q n m l) = fun c : Fin m => fileEntry q l2 i c := by
  obtain ⟨⟨fact, B⟩, e, A, L, hA, hB, hL, hF⟩ := Ok_iff.mp
    (solve_input_spec jk jw h0 env opts hq hf hc hg hc2 henv hb hnull hpv hfin)
  simp only at hB hL hF
  have key : ∀ X ok, GesvRun jk fact B X ok → Ok (csr_save X) (fun t => ∃ l3, IsFile t k n l3 ∧
      solve_warnings B.n ok = warnings k (Solvable q n m l l2) ∧
      ∀ i, (hi : i < k) → Solvable q n m l l2 i →
        Matrix.vecMul (fileMat q k n l3 ⟨i, hi⟩) (fileMat q n m l) = fun c : Fin m => fileEntry q l2 i c) := by
    intro X ok h
    obtain ⟨x1, x2, x3, x4⟩ := gesv_run jk hA hB hm hL hF h
    have hkl := hg.n_lt
    have hnl := hf.n_lt
    refine (save_same x1 (by omega) (by omega)).mono ?_
    rintro t ⟨l3, t1, t2⟩
    rw [x2, x3] at t1 t2
    refine ⟨l3, t1, ?_, fun i hi hs => ?_⟩
    · unfold solve_warnings warnings
      rw [hB.n_eq]
      refine List.flatMap_congr fun i hi => ?_
      have hi := List.mem_range.mp hi
      rw [fmtD_dec]
      by_cases hs : Solvable q n m l l2 i
      · rw [if_pos hs, if_neg (by rw [(x4 i hi).1.mpr hs]; simp)]
      · rw [if_neg hs, if_pos (by
          rw [← Bool.not_eq_true]
          exact fun h => hs ((x4 i hi).1.mp h))]
    · rw [← (x4 i hi).2 ((x4 i hi).1.mpr hs)]
      congr 1
      funext j
      exact (t2.entry i j hi).symm
  constructor
  · rw [e, Ok_ok]
    constructor
    · have hrows : ∑ t, ((fun _ : Fin 1 => List.range B.n) t : Multiset Nat) = Multiset.range B.n := by
        simp [Multiset.range]
      obtain ⟨c1, c2⟩ := C17_gesv jk q A B L fact hL hF hB.wfv (by rw [hA.m_eq, hB.m_eq]; exact hm) 1 _ hrows
      have c1' := fun t => Ok_iff.mp (c1 t)
      choose r hr1 hr2 using c1'
      have c3 := c2 (fun t => (r t).1) (fun t => (r t).2) (fun t => hr1 t)
      obtain ⟨s, s1, s2⟩ := areach_end fun s hs => ⟨(c3 s hs).1, (c3 s hs).2.1⟩
      obtain ⟨X, hX, -⟩ := Ok_iff.mp ((c3 s s1).2.2 s2)
      refine ⟨X, fun i => decide ((i, true) ∈ (r 0).1), L, 1, _, _, _, s, hL, hrows, hr1, s1, s2, hX, ?_⟩
      intro t i b hb
      have ht : t = 0 := Subsingleton.elim _ _
      subst ht
      have hnd : ((r 0).1.map (·.1)).Nodup := by rw [hr2 0]; exact List.nodup_range
      cases b with
      | true => exact decide_eq_true hb
      | false =>
        refine decide_eq_false fun h => ?_
        have := List.inj_on_of_nodup_map hnd hb h rfl
        simp at this
    · intro X ok h
      obtain ⟨t, et, -⟩ := Ok_iff.mp (key X ok h)
      exact ⟨t, et⟩
  · rintro w t ⟨fact', B', X, ok, e', h, rfl, ht⟩
    rw [e] at e'
    cases e'
    have := key X ok h
    rw [ht, Ok_ok] at this
    exact this

/-- C54 (defect). With a right-hand side that has fewer columns than the matrix, every thread with a row to process
reads after the end of a buffer. -/
theorem C54_narrow (hm : m2 < m) :
    Ok (solve_input jk jw h0 env opts f g q) (fun r => ∀ rows, rows ≠ [] → (∀ i ∈ rows, i < k) →
      gesv_thread jk r.1 r.2 n rows = .error .ub) := by
  refine (solve_input_spec jk jw h0 env opts hq hf hc hg hc2 henv hb hnull hpv hfin).mono ?_
  rintro ⟨fact, B⟩ ⟨A, L, hA, hB, hL, hF⟩ rows hne hlt
  simp only at hB hL hF ⊢
  have := C17_narrow jk q A B L fact hL hF hB.wfv (by rw [hA.m_eq, hB.m_eq]; exact hm) rows hne
    (by rw [hB.n_eq]; exact hlt)
  rwa [hF.L_n, hA.n_eq] at this

end

/-- C54. The program `solve`, with a right-hand side that has the right number of columns: no error, whatever the threads
(`C17_gesv` applies); every file that may be written describes a matrix, with one row for each row of the right-hand
side, which is a solution of the system whenever there is one; and there is a warning for each of the other rows. -/
theorem C54_solve_partial (jk : Junk) (jw : Nat → W) (h0 : Nat → B) (env : Env) (opts : Opts) {q : ℕ} [Fact q.Prime]
    (hq : q ≤ 0xfffffffb) {f : List Char} {n m : Nat} {l : List (Int × Int × Int)} (hf : IsFile f n m l)
    (hc : NoCancel q l) {g : List Char} {k : Nat} {l2 : List (Int × Int × Int)} (hg : IsFile g k m l2)
    (hc2 : NoCancel q l2)
    (henv : env.Possible q) (hb : 0 < opts.block) (hnull : opts.max_round ≠ 0 ∨ jk.null0 = false)
    (hpv : opts.complete = false → opts.dense = true → NoSchur env opts)
    (hfin : opts.gplu = true ∨ (opts.dense = true ∧ env.full = true)) :
    Ok (solve_input jk jw h0 env opts f g q) (fun r => (∃ X ok, GesvRun jk r.1 r.2 X ok) ∧
      ∀ X ok, GesvRun jk r.1 r.2 X ok → ∃ t, csr_save X = .ok t) ∧
    ∀ w t, SolveTool jk jw h0 env opts f g q w t → ∃ l3, IsFile t k n l3 ∧
      w = warnings k (Solvable q n m l l2) ∧
      ∀ i, (hi : i < k) → Solvable q n m l l2 i →
        Matrix.vecMul (fileMat q k n l3 ⟨i, hi⟩) (fileMat q n m l) = fun c : Fin m => fileEntry q l2 i c :=
  solve_general jk jw h0 env opts hq hf hc hg hc2 henv hb hnull hpv hfin (le_refl m)

/-! ### The program `transpose` -/

/-- C43 (transposition). The program `transpose` writes a file that describes the transposed matrix. -/
theorem C43_transpose (jk : Junk) (jw : Nat → W) {f : List Char} {n m : Nat} {l : List (Int × Int × Int)}
    (hf : IsFile f n m l) (hc : NoCancel 42013 l) :
    Ok (tool_transpose jk jw f) (fun g => ∃ l', IsFile g m n l' ∧
      fileMat 42013 m n l' = (fileMat 42013 n m l).transpose) := by
  unfold tool_transpose
  rw [Ok_bind]
  refine (load_file jk jw (q := 42013) (by decide) hf (hash := none) (by rintro _ h; cases h)).mono ?_
  rintro ⟨T, hash⟩ hT
  rw [Ok_bind]
  refine (compress_file jk hT hc).mono fun A hA => ?_
  rw [Ok_bind]
  refine ((C04_transpose jk A hA.wfv.toWF true).and (transpose_spec jk hA.wfv.toWF true)).mono ?_
  rintro B ⟨⟨b1, b2, b3, -, -, b4, b6, -, b5⟩, -, -, -, -, -, -, b7, -⟩
  have hml := hf.m_lt
  have hnl := hf.n_lt
  rw [hA.m_eq] at b2
  rw [hA.n_eq] at b3
  have hw : B.WFV 42013 := by
    cases hx : A.x with
    | some x => exact b5 42013 rfl (by rw [hx]; rfl) hA.wfv
    | none =>
      have h0 : B.p.g B.n = 0 := by
        rw [b6]
        by_contra h
        have := hA.wfv.has_x (by omega)
        rw [hx] at this; cases this
      exact ⟨b1, b7 _ hA.wfv.good, fun h => by omega, fun k hk => by omega⟩
  refine (save_same hw (by omega) (by omega)).mono ?_
  rintro g ⟨l', g1, g2⟩
  rw [b2, b3] at g1 g2
  refine ⟨l', g1, ?_⟩
  ext i j
  simp only [Matrix.transpose_apply, fileMat]
  rw [← g2.entry i j i.isLt, b4 rfl 42013 j i (by rw [hA.n_eq]; exact j.isLt) (by rw [hA.m_eq]; exact i.isLt),
    hA.entry j i j.isLt]

/-! ### Concrete cases -/

theorem exSms_noCancel (q : ℕ) : NoCancel q [(1, 2, -9), (2, 3, 14), (2, 1, 1)] :=
  Distinct.noCancel (by unfold Distinct; decide)

theorem exFull_possible : (exFull.pick default exFf).Possible 7 :=
  C27_env _ _ exFull exChoices_draw _ exFf_correct

/-- A right-hand side with two rows, the first one of which is in the row space (modulo 7) of the matrix of `exSms`. -/
def exRhs : List Char := "2 3 M\n1 1 3\n1 2 1\n2 3 1\n0 0 0\n".toList

theorem exRhs_file : IsFile exRhs 2 3 [(1, 1, 3), (1, 2, 1), (2, 3, 1)] := by
  refine ⟨.inl ?_, by decide, by decide, by decide, by decide, by decide⟩
  have key : ∀ (b : List Char) (x y z : Int), Short b → b = dec x ++ [' '] ++ dec y ++ [' '] ++ dec z →
      EntryLine b (x, y, z) := by
    intro b x y z hb e
    exact ⟨hb, [], [' '], [' '], [], by simp [Blank], by simp [Blank], by simp [Blank], by simp, by simp, by simp,
      by simpa using e⟩
  refine ⟨"2 3 M".toList, ["1 1 3".toList, "1 2 1".toList, "2 3 1".toList], "0 0 0".toList, [],
    ⟨⟨by decide, by decide, by decide⟩, [], [' '], [' '], [], by simp [Blank], by simp [Blank],
      by simp [Blank], by simp, by decide +kernel⟩, ?_, ?_, by simp, by decide +kernel⟩
  · exact .cons (key _ _ _ _ ⟨by decide, by decide, by decide⟩ (by decide +kernel))
      (.cons (key _ _ _ _ ⟨by decide, by decide, by decide⟩ (by decide +kernel))
        (.cons (key _ _ _ _ ⟨by decide, by decide, by decide⟩ (by decide +kernel)) .nil))
  · exact key _ _ _ _ ⟨by decide, by decide, by decide⟩ (by decide +kernel)

/-- A matrix with more rows than columns. -/
def exTallFile : List Char := "3 2 M\n1 1 3\n2 2 1\n3 1 1\n0 0 0\n".toList

theorem exTallFile_file : IsFile exTallFile 3 2 [(1, 1, 3), (2, 2, 1), (3, 1, 1)] := by
  refine ⟨.inl ?_, by decide, by decide, by decide, by decide, by decide⟩
  have key : ∀ (b : List Char) (x y z : Int), Short b → b = dec x ++ [' '] ++ dec y ++ [' '] ++ dec z →
      EntryLine b (x, y, z) := by
    intro b x y z hb e
    exact ⟨hb, [], [' '], [' '], [], by simp [Blank], by simp [Blank], by simp [Blank], by simp, by simp, by simp,
      by simpa using e⟩
  refine ⟨"3 2 M".toList, ["1 1 3".toList, "2 2 1".toList, "3 1 1".toList], "0 0 0".toList, [],
    ⟨⟨by decide, by decide, by decide⟩, [], [' '], [' '], [], by simp [Blank], by simp [Blank],
      by simp [Blank], by simp, by decide +kernel⟩, ?_, ?_, by simp, by decide +kernel⟩
  · exact .cons (key _ _ _ _ ⟨by decide, by decide, by decide⟩ (by decide +kernel))
      (.cons (key _ _ _ _ ⟨by decide, by decide, by decide⟩ (by decide +kernel))
        (.cons (key _ _ _ _ ⟨by decide, by decide, by decide⟩ (by decide +kernel)) .nil))
  · exact key _ _ _ _ ⟨by decide, by decide, by decide⟩ (by decide +kernel)

theorem exTallFile_noCancel : NoCancel 7 [(1, 1, 3), (2, 2, 1), (3, 1, 1)] :=
  Distinct.noCancel (by unfold Distinct; decide)

/-- A right-hand side with one column. -/
def exNarrow : List Char := "1 1 M\n1 1 1\n0 0 0\n".toList

theorem exNarrow_file : IsFile exNarrow 1 1 [(1, 1, 1)] := by
  refine ⟨.inl ?_, by decide, by decide, by decide, by decide, by decide⟩
  refine ⟨"1 1 M".toList, ["1 1 1".toList], "0 0 0".toList, [],
    ⟨⟨by decide, by decide, by decide⟩, [], [' '], [' '], [], by simp [Blank], by simp [Blank],
      by simp [Blank], by simp, by decide +kernel⟩, .cons ?_ .nil, ?_, by simp, by decide +kernel⟩
  all_goals exact ⟨⟨by decide, by decide, by decide⟩, [], [' '], [' '], [], by simp [Blank], by simp [Blank],
    by simp [Blank], by simp, by simp, by simp, by decide +kernel⟩

theorem exNarrow_noCancel : NoCancel 7 [(1, 1, 1)] := Distinct.noCancel (by unfold Distinct; decide)

theorem exRhs_noCancel : NoCancel 7 [(1, 1, 3), (1, 2, 1), (2, 3, 1)] := Distinct.noCancel (by unfold Distinct; decide)

/-- The entries of `exSms`. -/
def exSmsList : List (Int × Int × Int) := [(1, 2, -9), (2, 3, 14), (2, 1, 1)]

/-- The dense method. -/
def exDenseOpts : Opts := { exThree with dense := true }

/-- The heuristic decisions, with a correct FFPACK. -/
noncomputable def exDenseEnv : Env := exFull.pick default exFf

theorem exDenseEnv_weight : ∀ k, k ≤ min 2 3 → |exDenseEnv.weight| * 2 ^ k < 2 ^ 31 := by
  have : exDenseEnv.weight = 1 := rfl
  rw [this]; decide

section
attribute [local irreducible] WpE Ok tool_rank KernelTool RrefTool SolveTool kernel_input echelonize_input
  tool_echelonize solve_input tool_transpose exSms exRhs exNarrow

example : WpE (fun e => e = .fuel) (tool_rank default exJw default exDenseEnv { exDenseOpts with tall := true } exSms
    ((7 : ℕ) : Int) true) (fun r => r ≤ (fileMat 7 2 3 exSmsList).rank) :=
  C51_sound (q := 7) default exJw default exDenseEnv { exDenseOpts with tall := true } (by norm_num) exSms_file
    (exSms_noCancel 7) exFull_possible (by decide) (.inl (by decide)) rfl rfl true (fun _ => exDenseEnv_weight)

example : Ok (tool_rank default exJw default exDenseEnv exDenseOpts exSms ((7 : ℕ) : Int) true)
    (fun r => r = (fileMat 7 2 3 exSmsList).rank) :=
  C51_rank (q := 7) default exJw default exDenseEnv exDenseOpts (by norm_num) exSms_file
    (exSms_noCancel 7) exFull_possible (by decide) (.inl (by decide)) rfl rfl true rfl rfl rfl

example := C51_rank_partial (q := 7) default exJw default exDenseEnv { exDenseOpts with tall := true } (by norm_num) exSms_file
  (exSms_noCancel 7) exFull_possible (by decide) (.inl (by decide)) rfl rfl true (.inl rfl) (fun _ => exDenseEnv_weight)

example := C52_kernel (q := 7) default exJw exDenseEnv exDenseOpts (by norm_num) exSms_file
  (exSms_noCancel 7) exFull_possible (by decide) (.inl (by decide)) rfl rfl rfl rfl rfl

example := C52_left (q := 7) default exJw exDenseEnv exDenseOpts (by norm_num) exSms_file
  (exSms_noCancel 7) exFull_possible (by decide) (.inl (by decide)) rfl rfl rfl rfl rfl

example := C52_kernel_partial (q := 7) default exJw exDenseEnv { exDenseOpts with tall := true } (by norm_num) exSms_file
  (exSms_noCancel 7) exFull_possible (by decide) (.inl (by decide)) rfl rfl (.inl rfl) (fun _ => exDenseEnv_weight)

example := C52_left_partial (q := 7) default exJw exDenseEnv { exDenseOpts with tall := true } (by norm_num) exSms_file
  (exSms_noCancel 7) exFull_possible (by decide) (.inl (by decide)) rfl rfl (.inl rfl) (fun _ => exDenseEnv_weight)

example : Ok (tool_echelonize default exJw exDenseEnv exDenseOpts exSms ((7 : ℕ) : Int)) (fun g => ∃ r l' c,
    IsFile g r 3 l' ∧ r = (fileMat 7 2 3 exSmsList).rank ∧ FileEchelon 7 r 3 l' c ∧
      fileRows 7 r 3 l' = fileRows 7 2 3 exSmsList) :=
  C53_echelonize (q := 7) default exJw exDenseEnv exDenseOpts (by norm_num) exSms_file
    (exSms_noCancel 7) exFull_possible (by decide) (.inl (by decide)) rfl rfl rfl rfl rfl

example := C53_echelonize_partial (q := 7) default exJw exDenseEnv { exDenseOpts with tall := true } (by norm_num) exSms_file
  (exSms_noCancel 7) exFull_possible (by decide) (.inl (by decide)) rfl rfl (.inl rfl) (fun _ => exDenseEnv_weight)

example := C53_rref_partial (q := 7) default exJw exDenseEnv { exDenseOpts with tall := true } (by norm_num) exSms_file
  (exSms_noCancel 7) exFull_possible (by decide) (.inl (by decide)) rfl rfl (.inl rfl) (fun _ => exDenseEnv_weight)

example := C53_rref (q := 7) default exJw exDenseEnv exDenseOpts (by norm_num) exSms_file
  (exSms_noCancel 7) exFull_possible (by decide) (.inl (by decide)) rfl rfl rfl rfl rfl

/-- With GPLU. -/
example := C54_solve_partial (q := 7) default exJw default exDenseEnv exThree (by norm_num) exSms_file (exSms_noCancel 7) exRhs_file
  exRhs_noCancel exFull_possible (by decide) (.inl (by decide)) (fun _ h => by cases h) (.inl rfl)

/-- The only row is given to the first of two threads. -/
example : Ok (solve_input default exJw default exDenseEnv exThree exSms exNarrow ((7 : ℕ) : Int)) (fun r =>
    gesv_thread default r.1 r.2 2 [0] = .error .ub) :=
  (C54_narrow (q := 7) default exJw default exDenseEnv exThree (by norm_num) exSms_file (exSms_noCancel 7) exNarrow_file
    exNarrow_noCancel exFull_possible (by decide) (.inl (by decide)) (fun _ h => by cases h) (.inl rfl)
    (by decide)).mono fun _ h => h [0] (by simp) (by simp)

example : Ok (tool_transpose default exJw exSms) (fun g => ∃ l', IsFile g 3 2 l' ∧
    fileMat 42013 3 2 l' = (fileMat 42013 2 3 exSmsList).transpose) :=
  C43_transpose default exJw exSms_file (exSms_noCancel 42013)

end

/-- The first row of `exRhs` is a combination of the rows of `exSms`, and the second one is not. -/
example : Solvable 7 2 3 exSmsList [(1, 1, 3), (1, 2, 1), (2, 3, 1)] 0 ∧
    ¬ Solvable 7 2 3 exSmsList [(1, 1, 3), (1, 2, 1), (2, 3, 1)] 1 := by
  constructor
  · exact ⟨![3, 3], by decide +kernel⟩
  · rintro ⟨y, hy⟩
    have h := congrFun hy 2
    simp only [Matrix.vecMul, dotProduct, Fin.sum_univ_two] at h
    rw [show fileMat 7 2 3 exSmsList 0 2 = 0 by decide +kernel, show fileMat 7 2 3 exSmsList 1 2 = 0 by decide +kernel,
      mul_zero, mul_zero, add_zero] at h
    revert h
    decide +kernel

example : tool_transpose default exJw exSms = .ok "3 2 M\n1 2 1\n2 1 -9\n3 2 14\n0 0 0\n".toList := by decide +kernel

end Spasm
