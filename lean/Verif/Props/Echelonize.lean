import Verif.Proofs.Driver
import Verif.Proofs.CertSound
import Verif.Props.Transfer

/-
C27 and C28: spasm_echelonize.

The environment (`Env`) is arbitrary, up to `Env.Possible`: schedules of the threads, dense library, random
numbers, outcome of each comparison of floating-point numbers.

`hnull`: without rounds of structural pivots, `realloc(ptr, 0)` must not return NULL (see C30_empty).
`hw` (low-rank method): the weight of the random combinations can be doubled without overflow in each round
that finds a row.
-/

namespace Spasm

open Finset

section
variable (jk : Junk) (q : ℕ) [Fact q.Prime] (env : Env) (opts : Opts) (A : Csr) (henv : env.Possible q)
  (hA : A.WFV q) (hnd : A.NoDup) (hz : A.NoZero) (hb : 0 < opts.block)
  (hnull : opts.max_round ≠ 0 ∨ jk.null0 = false)

include henv hA hnd hz hb hnull

/-- C28, complete factorizations. Whatever the schedule, the random numbers and the heuristic decisions,
the function succeeds (no assertion fails, all accesses are within bounds, `L` included); it returns the
rank, an echelonized basis of the row space, and `A = L U`. -/
theorem C28_complete (hc : opts.complete = true)
    (hfin : opts.gplu = true ∨ (opts.dense = true ∧ env.full = true)) :
    Ok (echelonize jk env opts A) (fun f => f.r = (A.toMat q).rank ∧ f.U.n = f.r ∧
      f.U.rowSpace q = A.rowSpace q ∧ f.complete = true ∧ (f.r = 0 ∨ f.p.isSome = true) ∧
      ∃ L, f.L = some L ∧ IsFact q A L f.U f.qinv f.p true) := by
  have hL : opts.norm.L = true := by simp [Opts.norm, hc]
  have ht : opts.norm.tall = false := by simp [Opts.norm, hc]
  refine WpE.ok ((echelonize_spec (E := fun _ => False) jk (fun h => by rw [ht] at h; cases h) henv hA hnd hz
    hnull hb (fun h => by rw [ht] at h; cases h) (fun _ h => by rw [hc] at h; cases h)).mono ?_)
  intro f h
  obtain ⟨h1, h2⟩ : f.U.rowSpace q = A.rowSpace q ∧ ∀ L, f.L = some L → IsFact q A L f.U f.qinv f.p
      opts.norm.complete := by
    rcases h.out with h | ⟨h1, h2, -⟩ | ⟨h, -⟩
    · exact h
    · rcases hfin with h | h
      · rw [show opts.norm.gplu = opts.gplu from rfl, h] at h1; cases h1
      · exact absurd h h2
    · rw [hL] at h; cases h
  have hs := h.hasL
  rw [hL] at hs
  obtain ⟨L, hLe⟩ := Option.isSome_iff_exists.mp hs
  refine ⟨?_, h.r_eq.symm, h1, (h.compl hL).1.trans hc, h.r_eq ▸ (h.compl hL).2, L, hLe, by have := h2 L hLe; rwa [show opts.norm.complete = opts.complete from rfl, hc] at this⟩
  rw [h.r_eq, ← h.ech.rank, h1, finrank_rowSpace hA.toWF]

/-- C28, factorizations restricted to the pivotal rows. The full claim is the same as `C28_complete`, where
`A = L U` is restricted to the rows `fact->p`, for all options with `L`.  Excluded here: the dense method is
enabled and some Schur complement is computed (`hpv`), in which case the code may write out of bounds (see
`C28_pivotal`). -/
theorem C28_lu_partial (hL : opts.L = true)
    (hpv : opts.complete = false → opts.dense = true → NoSchur env opts)
    (hfin : opts.gplu = true ∨ (opts.dense = true ∧ env.full = true)) :
    Ok (echelonize jk env opts A) (fun f => f.r = (A.toMat q).rank ∧ f.U.n = f.r ∧
      f.U.rowSpace q = A.rowSpace q ∧ f.complete = opts.complete ∧ (f.r = 0 ∨ f.p.isSome = true) ∧
      ∃ L, f.L = some L ∧ IsFact q A L f.U f.qinv f.p opts.complete) := by
  have hL : opts.norm.L = true := by simp [Opts.norm, hL]
  have ht : opts.norm.tall = false := by
    have : opts.norm.tall = if opts.norm.L then false else opts.tall := rfl
    rw [this, hL]; rfl
  refine WpE.ok ((echelonize_spec (E := fun _ => False) jk (fun h => by rw [ht] at h; cases h) henv hA hnd hz
    hnull hb (fun h => by rw [ht] at h; cases h) (fun _ => hpv)).mono ?_)
  intro f h
  obtain ⟨h1, h2⟩ : f.U.rowSpace q = A.rowSpace q ∧ ∀ L, f.L = some L → IsFact q A L f.U f.qinv f.p
      opts.norm.complete := by
    rcases h.out with h | ⟨h1, h2, -⟩ | ⟨h, -⟩
    · exact h
    · rcases hfin with h | h
      · rw [show opts.norm.gplu = opts.gplu from rfl, h] at h1; cases h1
      · exact absurd h h2
    · rw [hL] at h; cases h
  have hs := h.hasL
  rw [hL] at hs
  obtain ⟨L, hLe⟩ := Option.isSome_iff_exists.mp hs
  refine ⟨?_, h.r_eq.symm, h1, (h.compl hL).1, h.r_eq ▸ (h.compl hL).2, L, hLe, h2 L hLe⟩
  rw [h.r_eq, ← h.ech.rank, h1, finrank_rowSpace hA.toWF]

/-- C27, one side, for all options without `L`: unless the low-rank method runs forever, the function
succeeds; `U` is in echelon form, with unit pivots located by `qinv`, its rows are linear combinations of the
rows of `A`, and the rank is never overestimated. -/
theorem C27_sound (hL : opts.L = false) (hc : opts.complete = false)
    (hw : opts.tall = true → ∀ k, k ≤ min A.n A.m → |env.weight| * 2 ^ k < 2 ^ 31) :
    WpE (fun e => e = .fuel) (echelonize jk env opts A) (fun f => Echelon q f.U f.qinv ∧ f.U.m = A.m ∧
      f.r = f.U.n ∧ f.U.rowSpace q ≤ A.rowSpace q ∧ f.r ≤ (A.toMat q).rank) := by
  have e : opts.norm = opts := by
    cases opts; simp_all [Opts.norm]
  have := echelonize_spec (E := fun e => e = .fuel) jk (fun _ => rfl) henv hA hnd hz hnull hb
    (fun h => .inr (hw (by rwa [e] at h))) (fun h => by rw [e, hL] at h; cases h)
  refine this.mono fun f h => ⟨h.ech, h.m_eq, h.r_eq, h.le, ?_⟩
  rw [h.r_eq, ← h.ech.rank, ← finrank_rowSpace hA.toWF]
  exact Submodule.finrank_mono h.le

/-- C27, one side, without any assumption on the weight of the random combinations: whatever is returned is
sound.  (The low-rank method may run forever, or double its weight until it overflows.) -/
theorem C27_returned (hL : opts.L = false) (hc : opts.complete = false) (f : Lu)
    (hret : echelonize jk env opts A = .ok f) : Echelon q f.U f.qinv ∧ f.U.m = A.m ∧
      f.r = f.U.n ∧ f.U.rowSpace q ≤ A.rowSpace q ∧ f.r ≤ (A.toMat q).rank := by
  have e : opts.norm = opts := by
    cases opts; simp_all [Opts.norm]
  have := (echelonize_spec (E := fun _ => True) jk (fun _ => trivial) henv hA hnd hz hnull hb
    (fun _ => .inl trivial) (fun h => by rw [e, hL] at h; cases h)).val hret
  refine ⟨this.ech, this.m_eq, this.r_eq, this.le, ?_⟩
  rw [this.r_eq, ← this.ech.rank, ← finrank_rowSpace hA.toWF]
  exact Submodule.finrank_mono this.le

/-- C27 with the dense method (and without the low-rank method): the function succeeds and returns the rank
and a basis of the row space. -/
theorem C27_dense (hL : opts.L = false) (hc : opts.complete = false) (ht : opts.tall = false)
    (hd : opts.dense = true) (hf : env.full = true) :
    Ok (echelonize jk env opts A) (fun f => Echelon q f.U f.qinv ∧ f.U.m = A.m ∧ f.U.n = f.r ∧
      f.r = (A.toMat q).rank ∧ f.U.rowSpace q = A.rowSpace q) := by
  have e : opts.norm = opts := by
    cases opts; simp_all [Opts.norm]
  refine WpE.ok ((echelonize_spec (E := fun _ => False) jk (fun h => by rw [e, ht] at h; cases h) henv hA hnd hz
    hnull hb (fun h => by rw [e, ht] at h; cases h) (fun h => by rw [e, hL] at h; cases h)).mono ?_)
  intro f h
  have h1 : f.U.rowSpace q = A.rowSpace q := by
    rcases h.out with h | ⟨-, h2, -⟩ | ⟨-, h | h, -⟩
    · exact h.1
    · exact absurd ⟨hd, hf⟩ h2
    · rw [e, ht] at h; cases h
    · exact absurd ⟨hd, hf⟩ h
  refine ⟨h.ech, h.m_eq, h.r_eq.symm, ?_, h1⟩
  rw [h.r_eq, ← h.ech.rank, h1, finrank_rowSpace hA.toWF]

/-- C27, clean output, for all options (with or without `L`): in the echelon form that is returned, no row has twice
the same column; and when `L` is not computed, there is no explicit zero.  (With `L`, the dense method stores the
entries of its echelon form without testing if they are zero: `C30_explicit_zero`.) -/
theorem C27_clean (hpv : opts.norm.L = true → opts.complete = false → opts.dense = true → NoSchur env opts) (f : Lu)
    (hret : echelonize jk env opts A = .ok f) : f.U.NoDup ∧ (opts.norm.L = false → f.U.NoZero) := by
  have := (echelonize_spec (E := fun _ => True) jk (fun _ => trivial) henv hA hnd hz hnull hb
    (fun _ => .inl trivial) hpv).val hret
  exact ⟨this.nodup, fun hL => (noZero_iff this.ech.wfv.toWF).mpr (this.nozero hL)⟩

/-- C27, for all options without `L` that enable a finishing method. The full claim: the rank and a basis of
the row space are returned.  Proved unless the search was ended early: all the random combinations of the
remaining rows that were drawn belong to the row space of `U` (unlikely unless they all do: `C27_test`; but
the low-rank method may forget some rows: `C27_lowrank`), or a Schur complement was computed and `U` has at
least as many rows as the current matrix, and half as many as `A` (which does not mean that nothing remains:
`C27_premature`). -/
theorem C27_rank_partial (hL : opts.L = false) (hc : opts.complete = false)
    (hfin : opts.gplu = true ∨ (opts.dense = true ∧ env.full = true) ∨ (opts.tall = true ∧ env.skinny = true))
    (hw : opts.tall = true → ∀ k, k ≤ min A.n A.m → |env.weight| * 2 ^ k < 2 ^ 31) :
    WpE (fun e => opts.tall = true ∧ e = .fuel) (echelonize jk env opts A) (fun f =>
      (f.r = (A.toMat q).rank ∧ f.U.rowSpace q = A.rowSpace q) ∨ Early q env opts A f.U) := by
  have e : opts.norm = opts := by
    cases opts; simp_all [Opts.norm]
  have := echelonize_spec (E := fun e => opts.tall = true ∧ e = .fuel) jk (fun h => ⟨by rwa [e] at h, rfl⟩) henv hA hnd hz hnull hb
    (fun h => .inr (hw (by rwa [e] at h))) (fun h => by rw [e, hL] at h; cases h)
  refine this.mono fun f h => ?_
  have ho := h.out
  rw [e] at ho
  rcases ho with ho | ⟨h1, h2, h3⟩ | ho
  · refine .inl ⟨?_, ho.1⟩
    rw [h.r_eq, ← h.ech.rank, ho.1, finrank_rowSpace hA.toWF]
  · rcases hfin with h | h | h
    · rw [h1] at h; cases h
    · exact absurd h h2
    · exact absurd h h3
  · exact .inr ho.2

/-- C27 with GPLU (without the low-rank method), when the number of rows is at least twice the rank: the rank and a
basis of the row space are returned, unless the completion test errs. -/
theorem C27_many_rows (hL : opts.L = false) (hc : opts.complete = false) (ht : opts.tall = false)
    (hg : opts.gplu = true) (hn : 2 * (A.toMat q).rank ≤ A.n) :
    Ok (echelonize jk env opts A) (fun f => (f.r = (A.toMat q).rank ∧ f.U.rowSpace q = A.rowSpace q) ∨
      ∃ B p n, f.U.rowSpace q ⊔ spanOf (fun t => B.entry q (p.g t)) n = A.rowSpace q ∧ B.m = A.m ∧
        f.U.rowSpace q ≠ A.rowSpace q ∧ Tested q env B p n f.U) := by
  have h1 := C27_rank_partial jk q env opts A henv hA hnd hz hb hnull hL hc (.inl hg) (fun h => by rw [ht] at h; cases h)
  have h2 := C27_sound jk q env opts A henv hA hnd hz hb hnull hL hc (fun h => by rw [ht] at h; cases h)
  obtain ⟨f, hf⟩ : ∃ f, echelonize jk env opts A = .ok f := by
    cases hf : echelonize jk env opts A with
    | ok f => exact ⟨f, rfl⟩
    | error e =>
      have := (h1.err hf).1
      rw [ht] at this; cases this
  have h3 := h1.val hf
  have h2 := h2.val hf
  rw [hf, Ok_ok]
  by_cases he : f.U.rowSpace q = A.rowSpace q
  · refine .inl ⟨?_, he⟩
    rw [h2.2.2.1, ← h2.1.rank, he, finrank_rowSpace hA.toWF]
  refine .inr ?_
  rcases h3 with h3 | ⟨-, B, p, n, b1, b2, ⟨-, -, b3⟩ | ⟨n', n1, n2, n3⟩⟩
  · exact absurd h3.2 he
  · refine absurd (h2.1.span_of_count h2.2.2.2.1 ?_) he
    rw [finrank_rowSpace hA.toWF]
    omega
  · rw [n2 ht] at n3
    exact ⟨B, p, n, b1, b2, he, n3⟩

end

/-- C27 (completion test). Among all the possible draws of `s` random combinations of `n` rows, if one of
the rows is not in the row space of `U`, at most one out of `q ^ s` passes the test. -/
theorem C27_test (q : ℕ) [Fact q.Prime] (B : Csr) (p : Array Nat) (n : Nat) (U : Csr) (s : Nat)
    (h : ∃ t, t < n ∧ B.entry q (p.g t) ∉ U.rowSpace q) :
    Nat.card {d : Fin s → Fin n → ZMod q //
      ∀ k, (fun c => ∑ i, d k i * B.entry q (p.g i) c) ∈ U.rowSpace q} * q ^ s ≤
    Nat.card (Fin s → Fin n → ZMod q) := by
  have := (Fact.out : q.Prime).pos
  have hne : NeZero q := ⟨by omega⟩
  let φ : (Fin n → ZMod q) →ₗ[ZMod q] (Nat → ZMod q) :=
    { toFun := fun d c => ∑ i, d i * B.entry q (p.g i) c
      map_add' := fun v w => by ext c; simp [add_mul, Finset.sum_add_distrib]
      map_smul' := fun a v => by ext c; simp [Finset.mul_sum, mul_assoc] }
  let W := (U.rowSpace q).comap φ
  have hW : W ≠ ⊤ := by
    obtain ⟨t, ht, hn⟩ := h
    intro e
    apply hn
    have : Pi.single (M := fun _ => ZMod q) ⟨t, ht⟩ 1 ∈ W := by rw [e]; trivial
    have h2 : φ (Pi.single (M := fun _ => ZMod q) ⟨t, ht⟩ 1) ∈ U.rowSpace q := this
    convert h2 using 1
    ext c
    simp only [φ, LinearMap.coe_mk, AddHom.coe_mk]
    rw [Finset.sum_eq_single ⟨t, ht⟩]
    · simp
    · intro i _ hi
      rw [Pi.single_eq_of_ne hi, zero_mul]
    · simp
  have hlt := Submodule.finrank_lt hW
  rw [Module.finrank_fin_fun] at hlt
  have e1 : Nat.card {d : Fin s → Fin n → ZMod q //
      ∀ k, (fun c => ∑ i, d k i * B.entry q (p.g i) c) ∈ U.rowSpace q} = Nat.card W ^ s := by
    rw [← Fintype.card_fin s, ← Nat.card_eq_fintype_card (α := Fin s), ← Nat.card_fun, Nat.card_eq_fintype_card (α := Fin s), Fintype.card_fin]
    exact Nat.card_congr (Equiv.subtypePiEquivPi (p := fun (_ : Fin s) d => d ∈ W))
  rw [e1, natCard_submodule, Nat.card_fun, Nat.card_fun, Nat.card_zmod]
  simp only [Nat.card_eq_fintype_card, Fintype.card_fin]
  rw [← mul_pow, ← pow_succ]
  exact Nat.pow_le_pow_left (Nat.pow_le_pow_right this (by omega)) _

/-- The draws of `Tested` are those of the environment. -/
theorem C27_draws (q : ℕ) (env : Env) (B : Csr) (p : Array Nat) (n : Nat) (U : Csr) :
    Tested q env B p n U ↔ ∀ k : Fin env.samples,
      (fun c => ∑ i : Fin n, (env.draw k i : ZMod q) * B.entry q (p.g i) c) ∈ U.rowSpace q := by
  unfold Tested
  constructor
  · intro h k
    have := h k k.isLt
    simpa [Finset.sum_range] using this
  · intro h k hk
    have := h ⟨k, hk⟩
    simpa [Finset.sum_range] using this

/-- An environment with given heuristic decisions and random numbers: for each call to a function with
parallel phases, some run of the threads is chosen. -/
noncomputable def Env.pick (jk : Junk) (e : Env) (ff : Ffpack) : Env :=
  open Classical in
  { e with
    greedy := fun _ A pinv qinv => if h : ∃ r, Greedy.Outcome A pinv qinv r then .ok h.choose else .error .ub
    schur := fun _ a =>
      if h : ∃ o : SchurOut, SchurRun jk a.A a.p a.n a.U a.qinv a.size a.L a.p_in a.p_out o.S o.L o.p_out then
        .ok h.choose
      else .error .ub
    dense := fun _ a => if h : ∃ o, SchurDenseRun jk a o then .ok h.choose else .error .ub
    ff := ff }

/-- There are environments that satisfy the assumptions, whatever the heuristic decisions and the random
numbers. -/
theorem C27_env (jk : Junk) (q : ℕ) (e : Env) (hd : ∀ k i, Small q (e.draw k i)) (ff : Ffpack)
    (hff : ff.Correct q) : (e.pick jk ff).Possible q := by
  refine ⟨fun k A pinv qinv h => ⟨h.choose, dif_pos h, h.choose_spec⟩, fun k a h => ?_, fun k a h => ?_, hff, hd⟩
  · have h' := exists_schur_run (a := a) jk h
    exact ⟨jk, h'.choose, dif_pos h', h'.choose_spec⟩
  · have h' := exists_dense_run (a := a) jk h
    exact ⟨jk, h'.choose, dif_pos h', h'.choose_spec⟩

/-! ### A concrete case -/

/-- Heuristic decisions: no early abort, the matrix at the end is neither tall nor dense; the oracles are
irrelevant. -/
def exChoices : Env :=
  { greedy := fun _ _ _ _ => .error .ub, schur := fun _ _ => .error .ub, dense := fun _ _ => .error .ub,
    ff := ⟨fun _ _ _ S => (0, S, #[]), fun _ _ _ S => (0, S, #[], #[])⟩, draw := fun k i => ((k + i) % 3 : Nat),
    rand := fun _ _ _ => 0, samples := 46, few := fun _ => false, thick := fun _ => false, size := fun _ => 1,
    skinny := false, full := false, yield := fun _ => false, less := fun _ => false, weight := 1, fuel := 10 }

theorem exChoices_draw : ∀ k i, Small 7 (exChoices.draw k i) := by
  intro k i
  unfold exChoices Small
  simp only
  omega

/-- Three rounds with the greedy search, then GPLU, without `L`. -/
def exThree : Opts :=
  { greedy := true, tall := false, dense := false, gplu := true, L := false, complete := false,
    max_round := 3, block := 1000 }

instance : Fact (Nat.Prime 7) := ⟨by decide⟩

noncomputable def exFf : Ffpack := (C30_library 7 (by decide)).choose

theorem exFf_correct : exFf.Correct 7 := (C30_library 7 (by decide)).choose_spec

/-- Complete factorization. -/
example : Ok (echelonize default (exChoices.pick default exFf) { exThree with complete := true } exP) (fun f =>
    f.r = (exP.toMat 7).rank ∧ ∃ L, f.L = some L ∧ IsFact 7 exP L f.U f.qinv f.p true) :=
  (C28_complete default 7 _ { exThree with complete := true } exP (C27_env _ _ _ exChoices_draw _ exFf_correct)
    exP_wfv exP_nodup exP_nozero (by decide) (.inl (by decide)) rfl (.inl rfl)).mono
    fun _ h => ⟨h.1, h.2.2.2.2.2⟩

/-- Incomplete factorization. -/
example : Ok (echelonize default (exChoices.pick default exFf) { exThree with L := true } exP) (fun f =>
    f.r = (exP.toMat 7).rank ∧ ∃ L, f.L = some L ∧ IsFact 7 exP L f.U f.qinv f.p false) :=
  (C28_lu_partial default 7 _ { exThree with L := true } exP (C27_env _ _ _ exChoices_draw _ exFf_correct)
    exP_wfv exP_nodup exP_nozero (by decide) (.inl (by decide)) rfl (fun _ h => by cases h) (.inl rfl)).mono
    fun _ h => ⟨h.1, h.2.2.2.2.2⟩

/-- All the methods. -/
example : WpE (fun e => e = .fuel) (echelonize default (exChoices.pick default exFf)
    { exThree with tall := true, dense := true } exP) (fun f => f.r ≤ (exP.toMat 7).rank) :=
  (C27_sound default 7 _ { exThree with tall := true, dense := true } exP
    (C27_env _ _ _ exChoices_draw _ exFf_correct)
    exP_wfv exP_nodup exP_nozero (by decide) (.inl (by decide)) rfl rfl (fun _ => by decide)).mono
    fun _ h => h.2.2.2.2

example : WpE (fun e => true = true ∧ e = .fuel) (echelonize default (exChoices.pick default exFf)
    { exThree with tall := true, dense := true } exP) (fun f =>
      (f.r = (exP.toMat 7).rank ∧ f.U.rowSpace 7 = exP.rowSpace 7) ∨
        Early 7 (exChoices.pick default exFf) { exThree with tall := true, dense := true } exP f.U) :=
  C27_rank_partial default 7 _ { exThree with tall := true, dense := true } exP
    (C27_env _ _ _ exChoices_draw _ exFf_correct)
    exP_wfv exP_nodup exP_nozero (by decide) (.inl (by decide)) rfl rfl (.inl rfl) (fun _ => by decide)

/-- A matrix with twice as many rows as columns. -/
def exFourTwo : Csr :=
  { n := 4, m := 2, p := #[0, 2, 4, 5, 6], j := #[0, 1, 0, 1, 1, 0], x := some #[1, 1, 1, 2, 3, 2],
    F := Field.ofPrime 7 }

theorem exFourTwo_wfv : exFourTwo.WFV 7 := Csr.wfv_of_check (by decide +kernel)

/-- GPLU after Schur complements. -/
example : Ok (echelonize default (exChoices.pick default exFf) exThree exFourTwo) (fun f =>
    (f.r = (exFourTwo.toMat 7).rank ∧ f.U.rowSpace 7 = exFourTwo.rowSpace 7) ∨
      ∃ B p n, f.U.rowSpace 7 ⊔ spanOf (fun t => B.entry 7 (p.g t)) n = exFourTwo.rowSpace 7 ∧ B.m = exFourTwo.m ∧
        f.U.rowSpace 7 ≠ exFourTwo.rowSpace 7 ∧ Tested 7 (exChoices.pick default exFf) B p n f.U) :=
  C27_many_rows default 7 _ exThree exFourTwo (C27_env _ _ _ exChoices_draw _ exFf_correct)
    exFourTwo_wfv (Csr.nodup_of_check exFourTwo_wfv.toWF (by decide +kernel)) (by unfold Csr.NoZero; decide +kernel)
    (by decide) (.inl (by decide)) rfl rfl rfl rfl (by
      have : (exFourTwo.toMat 7).rank ≤ 2 := Matrix.rank_le_width _
      exact Nat.mul_le_mul_left 2 this)

/-- The Schur complement is dense. -/
def exFull : Env := { exChoices with full := true }

/-- The dense method. -/
example : Ok (echelonize default (exFull.pick default exFf)
    { exThree with dense := true } exP) (fun f => f.r = (exP.toMat 7).rank) := by
  have h : (exFull.pick default exFf).Possible 7 := C27_env _ _ exFull exChoices_draw _ exFf_correct
  exact (C27_dense default 7 (exFull.pick default exFf) { exThree with dense := true } exP h exP_wfv exP_nodup
    exP_nozero (by decide) (.inl (by decide)) rfl rfl rfl rfl rfl).mono fun _ h => h.2.2.2.1

/-- The completion test with 46 combinations of the rows of `exP`, when `U` is empty. -/
example : Nat.card {d : Fin 46 → Fin 4 → ZMod 7 //
      ∀ k, (fun c => ∑ i, d k i * exP.entry 7 ((#[0, 1, 2, 3] : Array Nat).g i) c) ∈
        Csr.rowSpace { exP with n := 0 } 7} * 7 ^ 46 ≤ Nat.card (Fin 46 → Fin 4 → ZMod 7) := by
  refine C27_test 7 exP #[0, 1, 2, 3] 4 { exP with n := 0 } 46 ⟨0, by decide, ?_⟩
  unfold Csr.rowSpace
  rw [spanOf_zero, Submodule.mem_bot]
  intro h
  exact absurd (congrFun h 0) (by decide +kernel)

end Spasm
