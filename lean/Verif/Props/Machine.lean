import Verif.Proofs.Machine
import Verif.Props.EchelonizeLimits

/-
C73: the whole library on a machine with store buffers, with the workspaces as they are in the code.

The full claim: C27 and C28 hold there.  Proved for matrices of at most 715827882 columns (with more, the size of the
workspaces overflows: `C73_limit`), and if the atomic updates drain the store buffers (otherwise C70_relaxed, C71_relaxed).
-/

namespace Spasm

open Finset Commit

/-- C73 (`spasm_schur`). The results are those of C21. -/
theorem C73_schur_partial (jk : Junk) (q : ℕ) (a : SchurIn) (h : SchurPre q a.A a.p a.n a.U a.qinv a.L a.p_in a.p_out)
    (hb : a.A.m ≤ 715827882) (o : SchurOut) :
    SchurRunMach jk a o ↔ SchurRun jk a.A a.p a.n a.U a.qinv a.size a.L a.p_in a.p_out o.S o.L o.p_out :=
  schur_mach_iff jk q a h hb o

/-- C73 (`spasm_kernel`). The results are those of C18. -/
theorem C73_kernel_partial (jk : Junk) (q : ℕ) (U : Csr) (qinv : Array Int) (h : Echelon q U qinv) (hb : U.n ≤ 715827882)
    (K : Csr) : KernelRunMach jk U qinv K ↔ KernelRun jk U qinv K := by
  rw [← C70_kernel_partial jk q U qinv h]
  have hp := kernel_pre_spec jk h
  have key : ∀ (T : Nat) (cols : Fin T → List Nat), ∑ t, (cols t : Multiset Nat) = Multiset.range U.m →
      ∀ Ut K0 utqinv, kernel_pre jk U qinv = .ok (Ut, K0, utqinv) → ∀ t js,
      kernel_thread_ws jk U.n U.m Ut qinv utqinv (cols t) = .ok js ↔
        kernel_thread jk U.n U.m Ut qinv utqinv (cols t) = .ok js := by
    intro T cols hc Ut K0 utqinv e t js
    have hm : Ut.m = U.n := by
      unfold kernel_pre at e
      obtain ⟨_, _, e⟩ := bind_ok_iff.mp e
      obtain ⟨Vt, e1, e⟩ := bind_ok_iff.mp e
      obtain ⟨_, _, e⟩ := bind_ok_iff.mp e
      obtain ⟨_, _, e⟩ := bind_ok_iff.mp e
      obtain ⟨_, _, e⟩ := bind_ok_iff.mp e
      cases e
      have ht := transpose_spec jk h.wfv.toWF true
      rw [e1, Ok_ok] at ht
      exact ht.2.2.1
    refine sim_ok_iff (kernel_thread_ws_sim hm (by omega)) ?_ js
    rw [e, Ok_ok] at hp
    have := hp.1 (cols t) ?_
    · obtain ⟨v, e, -⟩ := Ok_iff.mp this
      exact ⟨v, e⟩
    · intro j hj
      have : j ∈ ∑ t, (cols t : Multiset Nat) := (mem_sum_coe cols j).mpr ⟨t, hj⟩
      rw [hc] at this; exact Multiset.mem_range.mp this
  constructor
  · rintro ⟨T, cols, jobs, Ut, K0, utqinv, m, h1, h2, h3, h4⟩
    exact ⟨T, cols, jobs, Ut, K0, utqinv, m, h1, h2, fun t => (key T cols h1 _ _ _ h2 t _).mp (h3 t), h4⟩
  · rintro ⟨T, cols, jobs, Ut, K0, utqinv, m, h1, h2, h3, h4⟩
    exact ⟨T, cols, jobs, Ut, K0, utqinv, m, h1, h2, fun t => (key T cols h1 _ _ _ h2 t _).mpr (h3 t), h4⟩

/-- C73 (`spasm_rref`). The results are those of C20. -/
theorem C73_rref_partial (jk : Junk) (q : ℕ) (U : Csr) (qinv rq : Array Int) (h : Echelon q U qinv) (hb : U.m ≤ 715827882)
    (R : Csr) (rq' : Array Int) : RrefRunMach jk U qinv rq R rq' ↔ RrefRun jk U qinv rq R rq' := by
  rw [← C70_rref_partial jk q U qinv rq h]
  have key : ∀ (T : Nat) (rows : Fin T → List Nat), ∑ t, (rows t : Multiset Nat) = Multiset.range U.n → ∀ t js,
      rref_thread_ws jk U qinv (rows t) = .ok js ↔ rref_thread jk U qinv (rows t) = .ok js := by
    intro T rows hr t js
    refine sim_ok_iff (rref_thread_ws_sim (by omega)) ?_ js
    have := rref_thread_spec jk h (rows t) ?_
    · obtain ⟨v, e, -⟩ := Ok_iff.mp this
      exact ⟨v, e⟩
    · intro j hj
      have : j ∈ ∑ t, (rows t : Multiset Nat) := (mem_sum_coe rows j).mpr ⟨t, hj⟩
      rw [hr] at this; exact Multiset.mem_range.mp this
  constructor
  · rintro ⟨T, rows, jobs, R0, k, m, h1, h2, h3, h4, h5⟩
    exact ⟨T, rows, jobs, R0, k, m, h1, h2, h3, fun t => (key T rows h1 t _).mp (h4 t), h5⟩
  · rintro ⟨T, rows, jobs, R0, k, m, h1, h2, h3, h4, h5⟩
    exact ⟨T, rows, jobs, R0, k, m, h1, h2, h3, fun t => (key T rows h1 t _).mpr (h4 t), h5⟩

/-! ### spasm_echelonize -/

/-- There are environments that satisfy the assumptions, whatever the heuristic decisions and the random numbers. -/
theorem C73_env (jk : Junk) (q : ℕ) (e : Env) (hd : ∀ k i, Small q (e.draw k i)) (ff : Ffpack) (hff : ff.Correct q) :
    (e.pick jk ff).Machine q := by
  have h := C27_env jk q e hd ff hff
  refine ⟨fun k A pinv qinv => ?_, fun k a hb ha => ?_, fun k a hb ha => ?_, hff, hd⟩
  · simp only [Greedy.C71_outcome_partial]
    exact h.greedy k A pinv qinv
  · obtain ⟨jk', o, h1, h2⟩ := h.schur k a ha
    exact ⟨jk', o, h1, (schur_mach_iff jk' q a ha hb o).mpr h2⟩
  · obtain ⟨jk', o, h1, h2⟩ := h.dense k a ha
    exact ⟨jk', o, h1, (C69_dense jk' q a ha hb o).mpr h2⟩

section
variable (jk : Junk) (q : ℕ) [Fact q.Prime] (env : Env) (opts : Opts) (A : Csr) (henv : env.Machine q)
  (hA : A.WFV q) (hnd : A.NoDup) (hz : A.NoZero) (hm : A.m ≤ 715827882)

include henv hA hnd hz hm

/-- C73 (refinement). What the driver does on the machine is what it does in some environment of C27, with the same dense
library, random numbers and decisions. -/
theorem C73_refine_partial : ∃ env' : Env, env'.Possible q ∧
    ({ env' with greedy := env.greedy, schur := env.schur, dense := env.dense } = env) ∧
    mach_echelonize jk env opts A = echelonize jk env' opts A :=
  ⟨env.narrow, henv.narrow, rfl, mach_narrow jk henv hA hnd hz hm⟩

variable (hb : 0 < opts.block) (hnull : opts.max_round ≠ 0 ∨ jk.null0 = false)
include hb hnull

/-- C73 (complete factorizations). -/
theorem C73_complete_partial (hc : opts.complete = true)
    (hfin : opts.gplu = true ∨ (opts.dense = true ∧ env.full = true)) :
    Ok (mach_echelonize jk env opts A) (fun f => f.r = (A.toMat q).rank ∧ f.U.n = f.r ∧
      f.U.rowSpace q = A.rowSpace q ∧ f.complete = true ∧ (f.r = 0 ∨ f.p.isSome = true) ∧
      ∃ L, f.L = some L ∧ IsFact q A L f.U f.qinv f.p true) := by
  rw [mach_narrow jk henv hA hnd hz hm]
  exact C28_complete jk q env.narrow opts A henv.narrow hA hnd hz hb hnull hc hfin

/-- C73 (factorizations restricted to the pivotal rows). -/
theorem C73_lu_partial (hL : opts.L = true)
    (hpv : opts.complete = false → opts.dense = true → NoSchur env opts)
    (hfin : opts.gplu = true ∨ (opts.dense = true ∧ env.full = true)) :
    Ok (mach_echelonize jk env opts A) (fun f => f.r = (A.toMat q).rank ∧ f.U.n = f.r ∧
      f.U.rowSpace q = A.rowSpace q ∧ f.complete = opts.complete ∧ (f.r = 0 ∨ f.p.isSome = true) ∧
      ∃ L, f.L = some L ∧ IsFact q A L f.U f.qinv f.p opts.complete) := by
  rw [mach_narrow jk henv hA hnd hz hm]
  exact C28_lu_partial jk q env.narrow opts A henv.narrow hA hnd hz hb hnull hL hpv hfin

/-- C73 (soundness without `L`). Whatever is returned is in echelon form and contained in the row space. -/
theorem C73_returned_partial (hL : opts.L = false) (hc : opts.complete = false) (f : Lu)
    (hret : mach_echelonize jk env opts A = .ok f) : Echelon q f.U f.qinv ∧ f.U.m = A.m ∧
      f.r = f.U.n ∧ f.U.rowSpace q ≤ A.rowSpace q ∧ f.r ≤ (A.toMat q).rank := by
  rw [mach_narrow jk henv hA hnd hz hm] at hret
  exact C27_returned jk q env.narrow opts A henv.narrow hA hnd hz hb hnull hL hc f hret

/-- C73 (rank without `L`). -/
theorem C73_rank_partial (hL : opts.L = false) (hc : opts.complete = false)
    (hfin : opts.gplu = true ∨ (opts.dense = true ∧ env.full = true) ∨ (opts.tall = true ∧ env.skinny = true))
    (hw : opts.tall = true → ∀ k, k ≤ min A.n A.m → |env.weight| * 2 ^ k < 2 ^ 31) :
    WpE (fun e => opts.tall = true ∧ e = .fuel) (mach_echelonize jk env opts A) (fun f =>
      (f.r = (A.toMat q).rank ∧ f.U.rowSpace q = A.rowSpace q) ∨ Early q env opts A f.U) := by
  rw [mach_narrow jk henv hA hnd hz hm]
  exact C27_rank_partial jk q env.narrow opts A henv.narrow hA hnd hz hb hnull hL hc hfin hw

end

theorem mach_rest_ub (jk : Junk) (env : Env) (op : Opts) (A : Csr) (hw : ws_alloc jk A.m = .error .ub)
    (hg : op.gplu = true) (ht : op.tall = false) (hd : op.dense = false) (f : Lu) {k : Nat} (hk : nnz f.U = .ok k)
    (p : Array Nat) : mach_rest jk env op ⟨A, A.n, none, p, 0, f, 0⟩ = .error .ub := by
  have h : mach_finish jk env op ⟨A, A.n, none, mkArr A.n fun i => i, 0, f, 0⟩ = .error .ub := by
    unfold mach_finish
    simp only [hg, ht, hd, csub_ok (Nat.zero_le _), ok_bind_eq, Bool.false_eq_true, false_and, if_false, if_true,
      gplu_ws_ub hw hk]
  simp only [mach_rest, h, if_true, Nat.zero_ne_one, if_false]

/-- C73 (limit). With more columns, and GPLU on the initial matrix, the size of the workspace overflows. -/
theorem C73_limit (jk : Junk) (q : ℕ) (env : Env) (opts : Opts) (A : Csr) (hA : A.WFV q) (hm : 715827882 < A.m)
    (hr : opts.max_round = 0) (hg : opts.gplu = true) (ht : opts.tall = false) (hd : opts.dense = false) :
    mach_echelonize jk env opts A = .error .ub := by
  have hw : ws_alloc jk A.m = .error .ub := ws_alloc_ub (by omega)
  have hinit := echelonize_init_spec (opts := opts.norm) jk hA
  rw [Ok_iff] at hinit
  obtain ⟨f, ef, f1, -⟩ := hinit
  have e1 : opts.norm.max_round = 0 := hr
  unfold mach_echelonize
  simp only
  rw [ef, e1, ok_bind_eq, forBrk, Nat.sub_self, forBrkN, ok_bind_eq, ok_bind_eq]
  simp only
  rw [mach_rest_ub jk env opts.norm A hw hg (by simp [Opts.norm, ht]) hd f (nnz_ok f1.ech.wfv.toWF)]
  rfl

/-! ### Examples -/

example : Ok (mach_echelonize default (exChoices.pick default exFf) { exThree with complete := true } exP) (fun f =>
    f.r = (exP.toMat 7).rank ∧ ∃ L, f.L = some L ∧ IsFact 7 exP L f.U f.qinv f.p true) :=
  (C73_complete_partial default 7 _ { exThree with complete := true } exP (C73_env _ _ _ exChoices_draw _ exFf_correct)
    exP_wfv exP_nodup exP_nozero (by decide) (by decide) (.inl (by decide)) rfl (.inl rfl)).mono
    fun _ h => ⟨h.1, h.2.2.2.2.2⟩

example : WpE (fun e => true = true ∧ e = .fuel) (mach_echelonize default (exChoices.pick default exFf)
    { exThree with tall := true, dense := true } exP) (fun f =>
      (f.r = (exP.toMat 7).rank ∧ f.U.rowSpace 7 = exP.rowSpace 7) ∨
        Early 7 (exChoices.pick default exFf) { exThree with tall := true, dense := true } exP f.U) :=
  C73_rank_partial default 7 _ { exThree with tall := true, dense := true } exP
    (C73_env _ _ _ exChoices_draw _ exFf_correct)
    exP_wfv exP_nodup exP_nozero (by decide) (by decide) (.inl (by decide)) rfl rfl (.inl rfl) (fun _ => by decide)

example (jk : Junk) (S : Csr) (L : Option Triplet) (p_out : Array Nat) :
    SchurRunMach jk ⟨exFA, #[2, 0], 2, exU, exUqinv, 1, some exZ, some #[3, 0, 1], #[9, 9]⟩ ⟨S, L, p_out⟩ ↔
      SchurRun jk exFA #[2, 0] 2 exU exUqinv 1 (some exZ) (some #[3, 0, 1]) #[9, 9] S L p_out :=
  C73_schur_partial jk 7 _ exSchurPre (by decide) _

example (jk : Junk) (K R : Csr) (rq rq' : Array Int) :
    (KernelRunMach jk exU exUqinv K ↔ KernelRun jk exU exUqinv K) ∧
    (RrefRunMach jk exU exUqinv rq R rq' ↔ RrefRun jk exU exUqinv rq R rq') :=
  ⟨C73_kernel_partial jk 7 _ _ exU_echelon (by decide) _, C73_rref_partial jk 7 _ _ _ exU_echelon (by decide) _ _⟩

/-- A row of 715827883 columns. -/
example (jk : Junk) (env : Env) : (exLongRow 715827883).WFV 7 ∧
    mach_echelonize jk env { exThree with max_round := 0 } (exLongRow 715827883) = .error .ub := by
  have h : (exLongRow 715827883).WFV 7 := (exLongRow_echelon (by omega)).wfv
  refine ⟨h, C73_limit jk 7 env _ _ h ?_ rfl rfl rfl rfl⟩
  show 715827882 < 715827883
  norm_num

end Spasm
