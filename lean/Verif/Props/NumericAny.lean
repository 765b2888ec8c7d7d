import Verif.Proofs.NumericAny
import Verif.Props.Numeric

/-
C57 for all matrices and all options: a call of `spasm_echelonize` is undefined, or its outcome is one of those of the
driver with arbitrary decisions.
-/

namespace Spasm

open Finset

section
variable (jk : Junk) (q : ℕ) [Fact q.Prime] (env : Env) (nm : Num) (opts : Opts) (A : Csr)
  (henv : env.Possible q) (hA : A.WFV q) (hnd : A.NoDup) (hz : A.NoZero) (hn : A.n < 2 ^ 31) (hm : A.m < 2 ^ 31)

include henv hA hnd hz hn hm

/-- C57 for all matrices (of less than 2^31 rows and columns) and all values of the floating-point options: the call is
undefined, or the outcome is one of those of the driver with arbitrary decisions.  (`C57_refine_partial` excludes the
first case, for the shapes and options that it names.) -/
theorem C57_any_partial : echelonize_num jk env nm opts A = .error .ub ∨ ∃ env' : Env, env.Agree env' ∧ env'.Possible q ∧
    echelonize_num jk env nm opts A = echelonize jk env' opts A := by
  rcases echelonize_num_any jk henv nm (opts := opts) hA hnd hz hn hm with h | ⟨env', h1, h2⟩
  · exact .inl h
  refine .inr ⟨env', h1, ⟨?_, ?_, ?_, ?_, ?_⟩, h2⟩
  · rw [h1.greedy]; exact henv.greedy
  · rw [h1.schur]; exact henv.schur
  · rw [h1.dense]; exact henv.dense
  · rw [h1.ff]; exact henv.ff
  · rw [h1.draw]; exact henv.draw

/-- C57 for all matrices, complete factorizations with GPLU: whenever the function returns, it does so with the rank, a
basis of the row space and `A = L U`; the only other outcome is undefined behaviour. -/
theorem C57_any_complete_partial (hb : 0 < opts.block) (hnull : opts.max_round ≠ 0 ∨ jk.null0 = false)
    (hc : opts.complete = true) (hg : opts.gplu = true) :
    WpE (fun e => e = .ub) (echelonize_num jk env nm opts A) (fun f => f.r = (A.toMat q).rank ∧ f.U.n = f.r ∧
      f.U.rowSpace q = A.rowSpace q ∧ f.complete = true ∧ (f.r = 0 ∨ f.p.isSome = true) ∧
      ∃ L, f.L = some L ∧ IsFact q A L f.U f.qinv f.p true) := by
  rcases C57_any_partial jk q env nm opts A henv hA hnd hz hn hm with e | ⟨env', -, h, e⟩
  · rw [e]; exact (rfl : Err.ub = .ub)
  rw [e]
  exact (C28_complete jk q env' opts A h hA hnd hz hb hnull hc (.inl hg)).wpe

/-- C57 for all matrices, without `L`: whenever the function returns, `U` is in echelon form, its rows are linear
combinations of the rows of `A`, the rank is not overestimated; with GPLU, it is the rank and the rows of `U` span the
row space of `A`, unless the search for pivots was ended early.  The only other outcomes are undefined behaviour and,
with the low-rank method, a computation that does not stop. -/
theorem C57_any_rank_partial (hb : 0 < opts.block) (hnull : opts.max_round ≠ 0 ∨ jk.null0 = false)
    (hL : opts.L = false) (hc : opts.complete = false) :
    WpE (fun e => e = .ub ∨ (opts.tall = true ∧ e = .fuel)) (echelonize_num jk env nm opts A) (fun f =>
      Echelon q f.U f.qinv ∧ f.U.m = A.m ∧ f.r = f.U.n ∧ f.U.rowSpace q ≤ A.rowSpace q ∧ f.r ≤ (A.toMat q).rank ∧
      (opts.gplu = true → (f.r = (A.toMat q).rank ∧ f.U.rowSpace q = A.rowSpace q) ∨
        ∃ env' : Env, env.Agree env' ∧ Early q env' opts A f.U)) := by
  rcases C57_any_partial jk q env nm opts A henv hA hnd hz hn hm with e | ⟨env', h0, h, e⟩
  · rw [e]; exact (.inl rfl : Err.ub = .ub ∨ _)
  rw [e]
  have e : opts.norm = opts := by
    cases opts; simp_all [Opts.norm]
  have := echelonize_spec (E := fun e => e = .ub ∨ (opts.tall = true ∧ e = .fuel)) jk
    (fun ht => .inr ⟨by rwa [e] at ht, rfl⟩) h hA hnd hz hnull hb
    (fun ht => .inl (.inl rfl)) (fun hl => by rw [e, hL] at hl; cases hl)
  refine this.mono fun f h => ⟨h.ech, h.m_eq, h.r_eq, h.le, ?_, fun hg => ?_⟩
  · rw [h.r_eq, ← h.ech.rank, ← finrank_rowSpace hA.toWF]
    exact Submodule.finrank_mono h.le
  · have ho := h.out
    rw [e] at ho
    rcases ho with ho | ⟨h1, h2, h3⟩ | ho
    · refine .inl ⟨?_, ho.1⟩
      rw [h.r_eq, ← h.ech.rank, ho.1, finrank_rowSpace hA.toWF]
    · rw [h1] at hg; cases hg
    · exact .inr ⟨env', h0, ho.2⟩

end

/-! ### Concrete cases -/

theorem exOver_nozero : exOver.NoZero := by
  intro k hk
  have : k < 4 := hk
  interval_cases k <;> decide

/-- The matrix `exOver` of `C57_nan`, with three rows and two columns, with the default options. -/
example := C57_any_rank_partial default 7 (exChoices.pick default exFf) exNum Opts.init exOver
  (C27_env _ _ _ exChoices_draw _ exFf_correct) exOver_wfv exOver_nodup exOver_nozero (by decide) (by decide)
  (by decide) (.inl (by decide)) rfl rfl

/-- The same without any round. -/
example := C57_any_complete_partial { (default : Junk) with null0 := false } 7
  (exChoices.pick { (default : Junk) with null0 := false } exFf) exNum
  { Opts.init with complete := true, max_round := 0, tall := false } exOver
  (C27_env _ _ _ exChoices_draw _ exFf_correct) exOver_wfv exOver_nodup exOver_nozero (by decide) (by decide)
  (by decide) (.inr rfl) rfl rfl

end Spasm
