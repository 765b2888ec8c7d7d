import Verif.Proofs.FileUnique
import Verif.Props.ToolsLin

/-
Property C78: the programs of /repo/tools can be chained.  What one of them writes can be read by the others, with the
expected result.
-/

namespace Spasm

open Sha

/-- The settings in which the echelonization is exact: the dense method is enabled and chosen, the low-rank method is
disabled.  (`env` gives the heuristic decisions, the random numbers, the schedule and the dense library.) -/
structure Exact (jk : Junk) (q : ℕ) (env : Env) (opts : Opts) : Prop where
  possible : env.Possible q
  block : 0 < opts.block
  null : opts.max_round ≠ 0 ∨ jk.null0 = false
  noL : opts.L = false
  incomplete : opts.complete = false
  noTall : opts.tall = false
  dense : opts.dense = true
  full : env.full = true

/-- A matrix without repeated columns nor explicit zeros is written as such. -/
theorem save_clean {q : ℕ} {B : Csr} (hB : B.WFV q) (hd : B.NoDup) (hz : B.NoZero) (hn : B.n < 2 ^ 31)
    (hm : B.m < 2 ^ 31) {g : List Char} (hg : csr_save B = .ok g) :
    ∃ l, IsFile g B.n B.m l ∧ Distinct l ∧ ∀ e ∈ l, (e.2.2 : ZMod q) ≠ 0 := by
  have := save_file_wfv hB hn hm
  rw [hg, Ok_ok] at this
  refine ⟨_, this.1, distinct_lst hB.toWF hd, ?_⟩
  intro e he
  unfold fromOne Csr.lst at he
  simp only [List.map_flatMap, List.mem_flatMap, List.map_map, List.mem_map, List.mem_range, Function.comp_apply] at he
  obtain ⟨i, hi, a, ha, rfl⟩ := he
  have hne := (noZero_iff hB.toWF).mp hz i hi a ha
  obtain ⟨k, k1, k2, rfl⟩ := Csr.mem_seg.mp ha
  intro h0
  exact hne ((small_eq_zero_iff hB.good.two_le (hB.small k (hB.toWF.row_lt hi k2))).mp h0)

theorem FileCsr.rank_lt {q : ℕ} [Fact q.Prime] {f : List Char} {n m : Nat} {l : List (Int × Int × Int)}
    (hf : IsFile f n m l) {r : Nat} (h : r ≤ (fileMat q n m l).rank) : r < 2 ^ 31 := by
  have := hf.n_lt
  have : (fileMat q n m l).rank ≤ n := (Matrix.rank_le_card_height _).trans (by simp)
  omega

section
variable (jk : Junk) (jw : Nat → W) (env : Env) (opts : Opts) {q : ℕ} [Fact q.Prime]
  (hq : q ≤ 0xfffffffb) {f : List Char} {n m : Nat} {l : List (Int × Int × Int)} (hf : IsFile f n m l)
  (hc : NoCancel q l) (henv : env.Possible q) (hb : 0 < opts.block) (hnull : opts.max_round ≠ 0 ∨ jk.null0 = false)
  (hL : opts.L = false) (hcm : opts.complete = false)
include hq hf hc henv hb hnull hL hcm

theorem kernel_clean (left : Bool) {fact : Lu} (h : kernel_input jk jw env opts f q left = .ok fact) :
    Echelon q fact.U fact.qinv ∧ fact.U.n < 2 ^ 31 ∧ fact.U.m = (if left = true then n else m) ∧ fact.U.NoDup ∧
      fact.U.NoZero := by
  have key := kernel_load jk jw env opts hq hf hc left (E := fun _ => True)
    (Q := fun fact => Echelon q fact.U fact.qinv ∧ fact.U.n < 2 ^ 31 ∧ fact.U.m = (if left = true then n else m) ∧
      fact.U.NoDup ∧ fact.U.NoZero) ?_
  · rw [h, WpE_ok] at key
    exact key
  · intro A hA
    obtain ⟨a1, a2, a3, a4, a5⟩ : A.WFV q ∧ A.NoDup ∧ A.NoZero ∧ A.m = (if left = true then n else m) ∧
        (A.toMat q).rank = (fileMat q n m l).rank := by
      cases left with
      | true =>
        refine ⟨hA.wfv, hA.nodup, hA.nozero, hA.m_eq, ?_⟩
        rw [hA.rank, fileMat_flipped, Matrix.rank_transpose]
      | false => exact ⟨hA.wfv, hA.nodup, hA.nozero, hA.m_eq, hA.rank⟩
    cases he : echelonize jk env opts A with
    | error e => trivial
    | ok fact =>
      rw [WpE_ok]
      obtain ⟨g1, g2, g3, -, g5⟩ := C27_returned jk q env opts A henv a1 a2 a3 hb hnull hL hcm fact he
      have e : opts.norm.L = false := by simp [Opts.norm, hL, hcm]
      obtain ⟨c1, c2⟩ := C27_clean jk q env opts A henv a1 a2 a3 hb hnull (fun h => by rw [e] at h; cases h) fact he
      rw [a5, g3] at g5
      exact ⟨g1, FileCsr.rank_lt hf g5, by rw [g2, a4], c1, c2 e⟩

/-- C78 (clean files, `echelonize`). Whatever the options, in the file that is written no position is given twice and
no value is zero. -/
theorem C78_clean_echelonize {g : List Char} (hg : tool_echelonize jk jw env opts f q = .ok g) :
    ∃ r l', IsFile g r m l' ∧ Distinct l' ∧ ∀ e ∈ l', (e.2.2 : ZMod q) ≠ 0 := by
  unfold tool_echelonize at hg
  cases h : echelonize_input jk jw env opts f q with
  | error e => rw [h] at hg; cases hg
  | ok fact =>
    rw [h] at hg
    obtain ⟨h1, h2, h3, h4, h5⟩ := kernel_clean jk jw env opts hq hf hc henv hb hnull hL hcm false h
    have hml := hf.m_lt
    rw [if_neg (by decide)] at h3
    obtain ⟨l', s⟩ := save_clean h1.wfv h4 h5 h2 (by omega) hg
    rw [h3] at s
    exact ⟨_, l', s⟩

/-- C78 (clean files, `echelonize --rref`). -/
theorem C78_clean_rref {g : List Char} (hg : RrefTool jk jw env opts f q g) :
    ∃ r l', IsFile g r m l' ∧ Distinct l' ∧ ∀ e ∈ l', (e.2.2 : ZMod q) ≠ 0 := by
  obtain ⟨fact, R, rq, h, hR, hg⟩ := hg
  obtain ⟨h1, h2, h3, h4, h5⟩ := kernel_clean jk jw env opts hq hf hc henv hb hnull hL hcm false h
  have hml := hf.m_lt
  rw [if_neg (by decide)] at h3
  obtain ⟨hr, -⟩ := C20_result jk q fact.U fact.qinv _ h1 (by simp) R rq hR
  have e1 := hr.n_eq
  have e2 := hr.m_eq
  obtain ⟨l', s⟩ := save_clean hr.ech.wfv hr.nodup hr.nozero (by omega) (by omega) hg
  rw [e2, h3] at s
  exact ⟨_, l', s⟩

/-- C78 (clean files, `kernel`, with or without `--left`). -/
theorem C78_clean_kernel (left : Bool) {g : List Char} (hg : KernelTool jk jw env opts f q left g) :
    ∃ k l', IsFile g k (if left = true then n else m) l' ∧ Distinct l' ∧ ∀ e ∈ l', (e.2.2 : ZMod q) ≠ 0 := by
  obtain ⟨fact, K, h, hK, hg⟩ := hg
  obtain ⟨h1, h2, h3, h4, h5⟩ := kernel_clean jk jw env opts hq hf hc henv hb hnull hL hcm left h
  have hml := hf.m_lt
  have hnl := hf.n_lt
  obtain ⟨k1, k2, k3, k4⟩ := C18_result jk q fact.U fact.qinv h1 K hK
  have e1 := k4.n_eq
  have e2 := k4.m_eq
  have hm : fact.U.m < 2 ^ 31 := by rw [h3]; split_ifs <;> assumption
  obtain ⟨l', s⟩ := save_clean k1 k2 k3 (by omega) (by omega) hg
  rw [e2, h3] at s
  exact ⟨_, l', s⟩

end

/-- C78 (clean files, `solve`). -/
theorem C78_clean_solve (jk : Junk) (jw : Nat → W) (h0 : Nat → B) (env : Env) (opts : Opts) {q : ℕ} [Fact q.Prime]
    (hq : q ≤ 0xfffffffb) {f g : List Char} {n m k m2 : Nat} {l l2 : List (Int × Int × Int)} (hf : IsFile f n m l)
    (hc : NoCancel q l) (hg : IsFile g k m2 l2) (hc2 : NoCancel q l2) (henv : env.Possible q) (hb : 0 < opts.block)
    (hnull : opts.max_round ≠ 0 ∨ jk.null0 = false)
    (hpv : opts.complete = false → opts.dense = true → NoSchur env opts)
    (hfin : opts.gplu = true ∨ (opts.dense = true ∧ env.full = true)) (hm : m ≤ m2) {w t : List Char}
    (ht : SolveTool jk jw h0 env opts f g q w t) :
    ∃ l', IsFile t k n l' ∧ Distinct l' ∧ ∀ e ∈ l', (e.2.2 : ZMod q) ≠ 0 := by
  obtain ⟨⟨fact, B⟩, e, A, L, hA, hB, hL, hF⟩ := Ok_iff.mp
    (solve_input_spec jk jw h0 env opts hq hf hc hg hc2 henv hb hnull hpv hfin)
  obtain ⟨fact', B', X, ok, e', h, -, ht⟩ := ht
  rw [e] at e'
  cases e'
  simp only at hB hL hF
  obtain ⟨L', T, rows, oks, items, s, e1, e2, e3, e4, e5, e6, e7⟩ := h
  rw [hL] at e1
  cases e1
  obtain ⟨-, c2⟩ := C17_gesv jk q A B L fact hL hF hB.wfv (by rw [hA.m_eq, hB.m_eq]; exact hm) T rows e2
  obtain ⟨-, -, c3⟩ := c2 oks items e3 s e4
  have c4 := c3 e5
  rw [e6, Ok_ok] at c4
  obtain ⟨x1, x2, x3, x4, x5, -⟩ := c4
  have hkl := hg.n_lt
  have hnl := hf.n_lt
  rw [hB.n_eq] at x2
  rw [hA.n_eq] at x3
  obtain ⟨l', s⟩ := save_clean x1 x4 x5 (by omega) (by omega) ht
  rw [x2, x3] at s
  exact ⟨l', s⟩

/-- Transposition of a matrix without repeated columns nor explicit zeros. -/
theorem transpose_clean (jk : Junk) {q : ℕ} {A : Csr} (hA : A.WFV q) (hd : A.NoDup) (hz : A.NoZero) :
    Ok (transpose jk A true) (fun B => B.WFV q ∧ B.n = A.m ∧ B.m = A.n ∧ B.NoDup ∧ B.NoZero) := by
  refine ((C04_transpose jk A hA.toWF true).and (transpose_spec jk hA.toWF true)).mono ?_
  rintro B ⟨⟨b1, b2, b3, b8, -, b4, b6, -, b5⟩, -, -, -, -, -, -, b7, -⟩
  have hw : B.WFV q := by
    cases hx : A.x with
    | some x => exact b5 q rfl (by rw [hx]; rfl) hA
    | none =>
      have h0 : B.p.g B.n = 0 := by
        rw [b6]
        by_contra h
        have := hA.has_x (by omega)
        rw [hx] at this; cases this
      exact ⟨b1, b7 _ hA.good, fun h => by omega, fun k hk => by omega⟩
  rw [nodup_row_iff] at hd
  rw [noZero_iff hA.toWF] at hz
  refine ⟨hw, b2, b3, ?_, ?_⟩
  · rw [nodup_row_iff]
    intro j hj
    rw [b8 j (by omega), List.map_flatMap, List.Nodup, List.pairwise_flatMap]
    constructor
    · intro i hi
      have hi := List.mem_range.mp hi
      have h1 := hd i hi
      rw [List.Nodup, List.pairwise_map] at h1
      rw [List.map_map, List.pairwise_map]
      refine (List.Pairwise.filter _ h1).imp_of_mem ?_
      intro a b ha hb hab
      have e1 := of_decide_eq_true (List.mem_filter.mp ha).2
      have e2 := of_decide_eq_true (List.mem_filter.mp hb).2
      exact absurd (e1.trans e2.symm) hab
    · refine (List.nodup_range (n := A.n)).imp ?_
      intro i k hik x hx y hy hxy
      rw [List.map_map, List.mem_map] at hx hy
      obtain ⟨a, -, rfl⟩ := hx
      obtain ⟨b, -, rfl⟩ := hy
      exact hik hxy
  · rw [noZero_iff hw.toWF]
    intro j hj e he
    rw [b8 j (by omega), List.mem_flatMap] at he
    obtain ⟨i, hi, he⟩ := he
    obtain ⟨a, ha, rfl⟩ := List.mem_map.mp he
    exact hz i (List.mem_range.mp hi) a (List.mem_filter.mp ha).1

/-- C78 (clean files, `transpose`). -/
theorem C78_clean_transpose (jk : Junk) (jw : Nat → W) {f : List Char} {n m : Nat} {l : List (Int × Int × Int)}
    (hf : IsFile f n m l) (hc : NoCancel 42013 l) {g : List Char} (hg : tool_transpose jk jw f = .ok g) :
    ∃ l', IsFile g m n l' ∧ Distinct l' ∧ ∀ e ∈ l', (e.2.2 : ZMod 42013) ≠ 0 := by
  have key : Ok (do
      let (T, _) ← triplet_load jk jw f 42013 none
      let A ← compress jk T
      transpose jk A true) (fun B => B.WFV 42013 ∧ B.n = m ∧ B.m = n ∧ B.NoDup ∧ B.NoZero) := by
    rw [Ok_bind]
    refine (load_file jk jw (q := 42013) (by decide) hf (hash := none) (by rintro _ h; cases h)).mono ?_
    rintro ⟨T, hash⟩ hT
    rw [Ok_bind]
    refine (compress_file jk hT hc).mono fun A hA => ?_
    refine (transpose_clean jk hA.wfv hA.nodup hA.nozero).mono ?_
    rintro B ⟨h1, h2, h3, h4, h5⟩
    exact ⟨h1, by rw [h2, hA.m_eq], by rw [h3, hA.n_eq], h4, h5⟩
  have e : tool_transpose jk jw f = (do
      let B ← (do
        let (T, _) ← triplet_load jk jw f 42013 none
        let A ← compress jk T
        transpose jk A true)
      csr_save B) := by
    unfold tool_transpose
    simp only [bind_assoc]
  obtain ⟨B, eB, h1, rfl, rfl, h4, h5⟩ := Ok_iff.mp key
  rw [e, eB] at hg
  exact save_clean h1 h4 h5 hf.m_lt hf.n_lt hg

theorem indep_rank {q : ℕ} [Fact q.Prime] {k m : Nat} {l : List (Int × Int × Int)}
    (h : LinearIndependent (ZMod q) (fun i => fileMat q k m l i)) : (fileMat q k m l).rank = k := by
  have := LinearIndependent.rank_matrix (M := fileMat q k m l) h
  rwa [Fintype.card_fin] at this

section
variable (jk : Junk) (jw : Nat → W) (env : Env) (opts : Opts) {q : ℕ} [Fact q.Prime]
  (hq : q ≤ 0xfffffffb) {f : List Char} {n m : Nat} {l : List (Int × Int × Int)} (hf : IsFile f n m l)
  (hc : NoCancel q l) (hx : Exact jk q env opts)
  (jk2 : Junk) (jw2 : Nat → W) (h0 : Nat → B) (env2 : Env) (opts2 : Opts) (hx2 : Exact jk2 q env2 opts2)
include hq hf hc hx

theorem echelonize_exact : Ok (tool_echelonize jk jw env opts f q) (fun g => ∃ r l' c, IsFile g r m l' ∧
    Distinct l' ∧ r = (fileMat q n m l).rank ∧ FileEchelon q r m l' c ∧ fileRows q r m l' = fileRows q n m l) := by
  obtain ⟨g, e, r, l', c, h1, h2, h3, h4⟩ := Ok_iff.mp (C53_echelonize jk jw env opts hq hf hc hx.possible hx.block
    hx.null hx.noL hx.incomplete hx.noTall hx.dense hx.full)
  obtain ⟨_, _, s1, s2, -⟩ := C78_clean_echelonize jk jw env opts hq hf hc hx.possible hx.block hx.null hx.noL
    hx.incomplete e
  exact Ok_iff.mpr ⟨g, e, r, l', c, h1, s1.distinct h1 s2, h2, h3, h4⟩

theorem rref_exact {g : List Char} (hg : RrefTool jk jw env opts f q g) : ∃ r l' c, IsFile g r m l' ∧
    Distinct l' ∧ r = (fileMat q n m l).rank ∧ FileRref q r m l' c ∧ fileRows q r m l' = fileRows q n m l := by
  obtain ⟨r, l', c, h1, h2, h3, h4⟩ := (C53_rref jk jw env opts hq hf hc hx.possible hx.block
    hx.null hx.noL hx.incomplete hx.noTall hx.dense hx.full).2 g hg
  obtain ⟨_, _, s1, s2, -⟩ := C78_clean_rref jk jw env opts hq hf hc hx.possible hx.block hx.null hx.noL
    hx.incomplete hg
  exact ⟨r, l', c, h1, s1.distinct h1 s2, h2, h3, h4⟩

theorem kernel_exact {g : List Char} (hg : KernelTool jk jw env opts f q false g) : ∃ k l', IsFile g k m l' ∧
    Distinct l' ∧ k + (fileMat q n m l).rank = m ∧ LinearIndependent (ZMod q) (fun i => fileMat q k m l' i) ∧
      fileRows q k m l' = LinearMap.ker (fileMat q n m l).mulVecLin := by
  obtain ⟨k, l', h1, h2, h3, h4⟩ := (C52_kernel jk jw env opts hq hf hc hx.possible hx.block
    hx.null hx.noL hx.incomplete hx.noTall hx.dense hx.full).2 g hg
  obtain ⟨_, _, s1, s2, -⟩ := C78_clean_kernel jk jw env opts hq hf hc hx.possible hx.block hx.null hx.noL
    hx.incomplete false hg
  exact ⟨k, l', h1, s1.distinct h1 s2, h2, h3, h4⟩

theorem left_exact {g : List Char} (hg : KernelTool jk jw env opts f q true g) : ∃ k l', IsFile g k n l' ∧
    Distinct l' ∧ k + (fileMat q n m l).rank = n ∧ LinearIndependent (ZMod q) (fun i => fileMat q k n l' i) ∧
      ∀ x, x ∈ fileRows q k n l' ↔ Matrix.vecMul x (fileMat q n m l) = 0 := by
  obtain ⟨k, l', h1, h2, h3, h4⟩ := (C52_left jk jw env opts hq hf hc hx.possible hx.block
    hx.null hx.noL hx.incomplete hx.noTall hx.dense hx.full).2 g hg
  obtain ⟨_, _, s1, s2, -⟩ := C78_clean_kernel jk jw env opts hq hf hc hx.possible hx.block hx.null hx.noL
    hx.incomplete true hg
  exact ⟨k, l', h1, s1.distinct h1 s2, h2, h3, h4⟩

theorem rank_exact (allow : Bool) :
    Ok (tool_rank jk jw h0 env opts f q allow) (fun r => r = (fileMat q n m l).rank) :=
  C51_rank jk jw h0 env opts hq hf hc hx.possible hx.block hx.null hx.noL hx.incomplete allow hx.noTall hx.dense hx.full

include hx2

/-- C78. `echelonize` then `rank`: the rank of the matrix. -/
theorem C78_echelonize_rank (allow : Bool) :
    Ok (do let g ← tool_echelonize jk jw env opts f q
           tool_rank jk2 jw2 h0 env2 opts2 g q allow) (fun r => r = (fileMat q n m l).rank) := by
  rw [Ok_bind]
  refine (echelonize_exact jk jw env opts hq hf hc hx).mono ?_
  rintro g ⟨r, l', c, h1, h2, h3, h4, h5⟩
  refine (rank_exact jk2 jw2 env2 opts2 hq h1 h2.noCancel hx2 h0 allow).mono ?_
  rintro _ rfl
  rw [Matrix.rank_eq_finrank_span_row, Matrix.rank_eq_finrank_span_row]
  exact congrArg (fun S : Submodule _ _ => Module.finrank (ZMod q) S) h5

/-- C78. `echelonize --rref` then `rank`: the rank of the matrix. -/
theorem C78_rref_rank (allow : Bool) {g : List Char} (hg : RrefTool jk jw env opts f q g) :
    Ok (tool_rank jk2 jw2 h0 env2 opts2 g q allow) (fun r => r = (fileMat q n m l).rank) := by
  obtain ⟨r, l', c, h1, h2, h3, h4, h5⟩ := rref_exact jk jw env opts hq hf hc hx hg
  refine (rank_exact jk2 jw2 env2 opts2 hq h1 h2.noCancel hx2 h0 allow).mono ?_
  rintro _ rfl
  rw [Matrix.rank_eq_finrank_span_row, Matrix.rank_eq_finrank_span_row]
  exact congrArg (fun S : Submodule _ _ => Module.finrank (ZMod q) S) h5

/-- C78. `kernel` then `rank`: the sum of the two ranks is the number of columns. -/
theorem C78_kernel_rank (allow : Bool) {g : List Char} (hg : KernelTool jk jw env opts f q false g) :
    Ok (tool_rank jk2 jw2 h0 env2 opts2 g q allow) (fun r => r + (fileMat q n m l).rank = m) := by
  obtain ⟨k, l', h1, h2, h3, h4, -⟩ := kernel_exact jk jw env opts hq hf hc hx hg
  refine (rank_exact jk2 jw2 env2 opts2 hq h1 h2.noCancel hx2 h0 allow).mono ?_
  rintro _ rfl
  rw [indep_rank h4]
  exact h3

/-- C78. `kernel --left` then `rank`: the sum of the two ranks is the number of rows. -/
theorem C78_left_rank (allow : Bool) {g : List Char} (hg : KernelTool jk jw env opts f q true g) :
    Ok (tool_rank jk2 jw2 h0 env2 opts2 g q allow) (fun r => r + (fileMat q n m l).rank = n) := by
  obtain ⟨k, l', h1, h2, h3, h4, -⟩ := left_exact jk jw env opts hq hf hc hx hg
  refine (rank_exact jk2 jw2 env2 opts2 hq h1 h2.noCancel hx2 h0 allow).mono ?_
  rintro _ rfl
  rw [indep_rank h4]
  exact h3

/-- C78. `echelonize` then `kernel`: a basis of the kernel of the matrix. -/
theorem C78_echelonize_kernel {g g2 : List Char} (hg : tool_echelonize jk jw env opts f q = .ok g)
    (hg2 : KernelTool jk2 jw2 env2 opts2 g q false g2) : ∃ k l', IsFile g2 k m l' ∧ k + (fileMat q n m l).rank = m ∧
      LinearIndependent (ZMod q) (fun i => fileMat q k m l' i) ∧
      fileRows q k m l' = LinearMap.ker (fileMat q n m l).mulVecLin := by
  have := echelonize_exact jk jw env opts hq hf hc hx
  rw [hg, Ok_ok] at this
  obtain ⟨r, l1, c, h1, h2, h3, h4, h5⟩ := this
  obtain ⟨k, l', g1, -, g3, g4, g5⟩ := kernel_exact jk2 jw2 env2 opts2 hq h1 h2.noCancel hx2 hg2
  have hr : (fileMat q r m l1).rank = (fileMat q n m l).rank := by
    rw [Matrix.rank_eq_finrank_span_row, Matrix.rank_eq_finrank_span_row]
    exact congrArg (fun S : Submodule _ _ => Module.finrank (ZMod q) S) h5
  exact ⟨k, l', g1, by rw [← hr]; exact g3, g4, g5.trans (ker_congr h5.symm)⟩

/-- C78. `kernel` twice: a basis of the row space of the matrix. -/
theorem C78_kernel_kernel {g g2 : List Char} (hg : KernelTool jk jw env opts f q false g)
    (hg2 : KernelTool jk2 jw2 env2 opts2 g q false g2) : ∃ k l', IsFile g2 k m l' ∧ k = (fileMat q n m l).rank ∧
      LinearIndependent (ZMod q) (fun i => fileMat q k m l' i) ∧ fileRows q k m l' = fileRows q n m l := by
  obtain ⟨k1, l1, h1, h2, h3, h4, h5⟩ := kernel_exact jk jw env opts hq hf hc hx hg
  obtain ⟨k, l', g1, -, g3, g4, g5⟩ := kernel_exact jk2 jw2 env2 opts2 hq h1 h2.noCancel hx2 hg2
  rw [indep_rank h4] at g3
  have hk : k = (fileMat q n m l).rank := by omega
  refine ⟨k, l', g1, hk, g4, ?_⟩
  -- the rows of the matrix are in the kernel of the kernel, with the same dimension
  symm
  refine Submodule.eq_of_le_of_finrank_eq ?_ ?_
  · rw [g5]
    refine Submodule.span_le.mpr ?_
    rintro _ ⟨i, rfl⟩
    rw [SetLike.mem_coe, LinearMap.mem_ker, Matrix.mulVecLin_apply]
    funext j
    have hj : fileMat q k1 m l1 j ∈ fileRows q k1 m l1 := Submodule.subset_span ⟨j, rfl⟩
    rw [h5, LinearMap.mem_ker, Matrix.mulVecLin_apply] at hj
    have := congrFun hj i
    show fileMat q k1 m l1 j ⬝ᵥ fileMat q n m l i = 0
    rw [dotProduct_comm]
    exact this
  · have e1 : Module.finrank (ZMod q) (fileRows q k m l') = k := by
      have := indep_rank g4
      rw [Matrix.rank_eq_finrank_span_row] at this
      exact this
    have e2 : Module.finrank (ZMod q) (fileRows q n m l) = (fileMat q n m l).rank := by
      rw [Matrix.rank_eq_finrank_span_row]; rfl
    rw [e1, e2, hk]

omit hx2 in
/-- C78. `echelonize` then `solve` with the echelon form as right-hand side: there is no warning, and the product of what
is written by the original matrix is the echelon form. -/
theorem C78_echelonize_solve (henv2 : env2.Possible q) (hb2 : 0 < opts2.block)
    (hnull2 : opts2.max_round ≠ 0 ∨ jk2.null0 = false)
    (hpv2 : opts2.complete = false → opts2.dense = true → NoSchur env2 opts2)
    (hfin2 : opts2.gplu = true ∨ (opts2.dense = true ∧ env2.full = true)) {g w t : List Char}
    (hg : tool_echelonize jk jw env opts f q = .ok g) (hs : SolveTool jk2 jw2 h0 env2 opts2 f g q w t) :
    w = [] ∧ ∃ r l1 l2, IsFile g r m l1 ∧ IsFile t r n l2 ∧
      fileMat q r n l2 * fileMat q n m l = fileMat q r m l1 := by
  have := echelonize_exact jk jw env opts hq hf hc hx
  rw [hg, Ok_ok] at this
  obtain ⟨r, l1, c, h1, h2, h3, h4, h5⟩ := this
  obtain ⟨-, key⟩ := C54_solve_partial jk2 jw2 h0 env2 opts2 hq hf hc h1 h2.noCancel henv2 hb2 hnull2 hpv2 hfin2
  obtain ⟨l2, t1, rfl, t3⟩ := key w t hs
  have hsol : ∀ i, i < r → Solvable q n m l l1 i := by
    intro i hi
    have : fileMat q r m l1 ⟨i, hi⟩ ∈ fileRows q n m l := by
      rw [← h5]; exact Submodule.subset_span ⟨⟨i, hi⟩, rfl⟩
    obtain ⟨y, hy⟩ := (Submodule.mem_span_range_iff_exists_fun (ZMod q)).mp this
    refine ⟨y, ?_⟩
    rw [Matrix.vecMul_eq_sum]
    exact hy
  refine ⟨?_, r, l1, l2, h1, t1, ?_⟩
  · unfold warnings
    rw [List.flatMap_eq_nil_iff]
    intro i hi
    rw [if_pos (hsol i (List.mem_range.mp hi))]
  · ext i j
    exact congrFun (t3 i i.isLt (hsol i i.isLt)) j

end

/-- C78. `transpose` twice: the same matrix (modulo 42013). -/
theorem C78_transpose_twice (jk jk2 : Junk) (jw jw2 : Nat → W) {f : List Char} {n m : Nat}
    {l : List (Int × Int × Int)} (hf : IsFile f n m l) (hc : NoCancel 42013 l) :
    Ok (do let g ← tool_transpose jk jw f
           tool_transpose jk2 jw2 g) (fun g => ∃ l', IsFile g n m l' ∧ Distinct l' ∧
      fileMat 42013 n m l' = fileMat 42013 n m l) := by
  rw [Ok_bind]
  obtain ⟨g, e, l1, h1, h2⟩ := Ok_iff.mp (C43_transpose jk jw hf hc)
  obtain ⟨_, s1, s2, -⟩ := C78_clean_transpose jk jw hf hc e
  have hd := s1.distinct h1 s2
  rw [e, Ok_ok]
  obtain ⟨g2, e2, l2, g1, g3⟩ := Ok_iff.mp (C43_transpose jk2 jw2 h1 hd.noCancel)
  obtain ⟨_, t1, t2, -⟩ := C78_clean_transpose jk2 jw2 h1 hd.noCancel e2
  exact Ok_iff.mpr ⟨g2, e2, l2, g1, t1.distinct g1 t2, by rw [g3, h2, Matrix.transpose_transpose]⟩

theorem prime_42013 : Fact (Nat.Prime 42013) := ⟨by norm_num⟩

/-- C78. `transpose` then `rank`: the rank of the matrix. -/
theorem C78_transpose_rank (jk jk2 : Junk) (jw jw2 : Nat → W) (h0 : Nat → B) (env : Env) (opts : Opts)
    (hx : Exact jk2 42013 env opts) {f : List Char} {n m : Nat} {l : List (Int × Int × Int)} (hf : IsFile f n m l)
    (hc : NoCancel 42013 l) (allow : Bool) :
    Ok (do let g ← tool_transpose jk jw f
           tool_rank jk2 jw2 h0 env opts g 42013 allow) (fun r => r = (fileMat 42013 n m l).rank) := by
  have := prime_42013
  rw [Ok_bind]
  obtain ⟨g, e, l1, h1, h2⟩ := Ok_iff.mp (C43_transpose jk jw hf hc)
  obtain ⟨_, s1, s2, -⟩ := C78_clean_transpose jk jw hf hc e
  rw [e, Ok_ok]
  refine (rank_exact (q := 42013) jk2 jw2 env opts (by norm_num) h1 (s1.distinct h1 s2).noCancel hx h0 allow).mono ?_
  rintro _ rfl
  rw [h2, Matrix.rank_transpose]

/-- C78. `kernel --left`, or `transpose` then `kernel`: the rows that are written span the same space. -/
theorem C78_transpose_kernel (jk jk1 jk2 : Junk) (jw jw1 jw2 : Nat → W) (env1 env2 : Env) (opts1 opts2 : Opts)
    (hx1 : Exact jk1 42013 env1 opts1) (hx2 : Exact jk2 42013 env2 opts2) {f : List Char} {n m : Nat}
    {l : List (Int × Int × Int)} (hf : IsFile f n m l) (hc : NoCancel 42013 l) {t g1 g2 : List Char}
    (ht : tool_transpose jk jw f = .ok t) (h1 : KernelTool jk1 jw1 env1 opts1 f 42013 true g1)
    (h2 : KernelTool jk2 jw2 env2 opts2 t 42013 false g2) : ∃ k l1 l2, IsFile g1 k n l1 ∧ IsFile g2 k n l2 ∧
      fileRows 42013 k n l1 = fileRows 42013 k n l2 := by
  have := prime_42013
  have hT := C43_transpose jk jw hf hc
  rw [ht, Ok_ok] at hT
  obtain ⟨l', t1, t2⟩ := hT
  obtain ⟨_, s1, s2, -⟩ := C78_clean_transpose jk jw hf hc ht
  obtain ⟨k, l1, a1, -, a3, -, a5⟩ := left_exact (q := 42013) jk1 jw1 env1 opts1 (by norm_num) hf hc hx1 h1
  obtain ⟨k2, l2, b1, -, b3, -, b5⟩ := kernel_exact (q := 42013) jk2 jw2 env2 opts2 (by norm_num) t1
    (s1.distinct t1 s2).noCancel hx2 h2
  rw [t2, Matrix.rank_transpose] at b3
  have hk : k2 = k := by omega
  subst hk
  refine ⟨k2, l1, l2, a1, b1, ?_⟩
  ext x
  rw [a5, b5, LinearMap.mem_ker, Matrix.mulVecLin_apply, t2, Matrix.mulVec_transpose]

/-! ### Concrete cases -/

theorem exExact : Exact default 7 exDenseEnv exDenseOpts :=
  ⟨exFull_possible, by decide, .inl (by decide), rfl, rfl, rfl, rfl, rfl⟩

/-- A correct library modulo 42013. -/
noncomputable def exFfP : Ffpack := (C30_library 42013 prime_42013.out).choose

noncomputable def exEnvP : Env := exFull.pick default exFfP

theorem exExactP : Exact default 42013 exEnvP exDenseOpts := by
  refine ⟨C27_env _ _ exFull (fun k i => ?_) _ (C30_library 42013 prime_42013.out).choose_spec, by decide,
    .inl (by decide), rfl, rfl, rfl, rfl, rfl⟩
  have := exChoices_draw k i
  unfold Small at this ⊢
  have e : exFull.draw = exChoices.draw := rfl
  rw [e]
  omega

section
attribute [local irreducible] WpE Ok tool_rank KernelTool RrefTool kernel_input echelonize_input
  tool_echelonize tool_transpose exSms

example : Ok (do let g ← tool_echelonize default exJw exDenseEnv exDenseOpts exSms ((7 : ℕ) : Int)
                 tool_rank default exJw default exDenseEnv exDenseOpts g ((7 : ℕ) : Int) true)
    (fun r => r = (fileMat 7 2 3 exSmsList).rank) :=
  C78_echelonize_rank (q := 7) default exJw exDenseEnv exDenseOpts (by norm_num) exSms_file (exSms_noCancel 7) exExact
    default exJw default exDenseEnv exDenseOpts exExact true

/-- The programs `kernel` and `echelonize --rref` write some file, to which the theorems apply. -/
example : (∃ g, KernelTool default exJw exDenseEnv exDenseOpts exSms ((7 : ℕ) : Int) false g) ∧
    (∃ g, KernelTool default exJw exDenseEnv exDenseOpts exSms ((7 : ℕ) : Int) true g) ∧
    (∃ g, RrefTool default exJw exDenseEnv exDenseOpts exSms ((7 : ℕ) : Int) g) := by
  obtain ⟨h1, -⟩ := C52_kernel (q := 7) default exJw exDenseEnv exDenseOpts (by norm_num) exSms_file
    (exSms_noCancel 7) exFull_possible (by decide) (.inl (by decide)) rfl rfl rfl rfl rfl
  obtain ⟨h2, -⟩ := C52_left (q := 7) default exJw exDenseEnv exDenseOpts (by norm_num) exSms_file
    (exSms_noCancel 7) exFull_possible (by decide) (.inl (by decide)) rfl rfl rfl rfl rfl
  obtain ⟨h3, -⟩ := C53_rref (q := 7) default exJw exDenseEnv exDenseOpts (by norm_num) exSms_file
    (exSms_noCancel 7) exFull_possible (by decide) (.inl (by decide)) rfl rfl rfl rfl rfl
  obtain ⟨fact1, e1, -, ⟨K1, k1⟩, s1⟩ := Ok_iff.mp h1
  obtain ⟨fact2, e2, -, ⟨K2, k2⟩, s2⟩ := Ok_iff.mp h2
  obtain ⟨fact3, e3, -, ⟨R3, rq3, k3⟩, s3⟩ := Ok_iff.mp h3
  obtain ⟨g1, t1⟩ := s1 K1 k1
  obtain ⟨g2, t2⟩ := s2 K2 k2
  obtain ⟨g3, t3⟩ := s3 R3 rq3 k3
  unfold KernelTool RrefTool
  exact ⟨⟨g1, fact1, K1, e1, k1, t1⟩, ⟨g2, fact2, K2, e2, k2, t2⟩, ⟨g3, fact3, R3, rq3, e3, k3, t3⟩⟩

example := fun g => C78_kernel_rank (q := 7) default exJw exDenseEnv exDenseOpts (by norm_num) exSms_file
  (exSms_noCancel 7) exExact default exJw default exDenseEnv exDenseOpts exExact true (g := g)

example := fun g g2 => C78_kernel_kernel (q := 7) default exJw exDenseEnv exDenseOpts (by norm_num) exSms_file
  (exSms_noCancel 7) exExact default exJw exDenseEnv exDenseOpts exExact (g := g) (g2 := g2)

example := fun g w t => C78_echelonize_solve (q := 7) default exJw exDenseEnv exDenseOpts (by norm_num) exSms_file
  (exSms_noCancel 7) exExact default exJw default exDenseEnv exThree exFull_possible (by decide) (.inl (by decide))
  (fun _ h => by cases h) (.inl rfl) (g := g) (w := w) (t := t)

example := fun w t => C78_clean_solve (q := 7) default exJw default exDenseEnv exThree (by norm_num) exSms_file
  (exSms_noCancel 7) exRhs_file exRhs_noCancel exFull_possible (by decide) (.inl (by decide)) (fun _ h => by cases h)
  (.inl rfl) (le_refl 3) (w := w) (t := t)

example : Ok (do let g ← tool_transpose default exJw exSms
                 tool_transpose default exJw g) (fun g => ∃ l', IsFile g 2 3 l' ∧ Distinct l' ∧
    fileMat 42013 2 3 l' = fileMat 42013 2 3 exSmsList) :=
  C78_transpose_twice default default exJw exJw exSms_file (exSms_noCancel 42013)

example : Ok (do let g ← tool_transpose default exJw exSms
                 tool_rank default exJw default exEnvP exDenseOpts g 42013 true)
    (fun r => r = (fileMat 42013 2 3 exSmsList).rank) :=
  C78_transpose_rank default default exJw exJw default exEnvP exDenseOpts exExactP exSms_file (exSms_noCancel 42013) true

end

end Spasm
