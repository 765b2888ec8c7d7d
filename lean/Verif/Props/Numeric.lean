import Verif.Proofs.Numeric
import Verif.Props.Echelonize

/-
C57: the driver with its floating-point decisions.

`nm` holds the floating-point options, the random numbers used in the estimates of density and the value of
`-log(0.01)` computed by the C library, which is assumed to be between 0 and 5 (`Num.Fine`; the aspect ratio must
not be negative, the starting weight must be negative or fit in an `int`).
-/

namespace Spasm

open Finset

section
variable (jk : Junk) (q : ℕ) [Fact q.Prime] (env : Env) (nm : Num) (opts : Opts) (A : Csr)
  (henv : env.Possible q) (hA : A.WFV q) (hnd : A.NoDup) (hz : A.NoZero)

include henv hA hnd hz

section
variable (hf : nm.Fine) (hr : A.n ≤ A.m ∨ (A.toMat q).rank < A.m) (hn : A.n < 2 ^ 28) (hm : A.m < 2 ^ 31)

include hf hr hn hm

/-- C57. The floating-point computations never fail, and the outcome is one of those of the driver with arbitrary
decisions: what is proved for all decisions (C27, C28, C51-C55) holds.

Missing from the full statement: matrices with more rows than columns whose rank is the number of columns, for
which it is false (`C57_nan`). -/
theorem C57_refine_partial : ∃ env' : Env, env.Agree env' ∧ env'.Possible q ∧
    echelonize_num jk env nm opts A = echelonize jk env' opts A := by
  obtain ⟨env', h1, h2⟩ := echelonize_num_eq jk henv hf (opts := opts) hA hnd hz hr hn hm
  refine ⟨env', h1, ⟨?_, ?_, ?_, ?_, ?_⟩, h2⟩
  · rw [h1.greedy]; exact henv.greedy
  · rw [h1.schur]; exact henv.schur
  · rw [h1.dense]; exact henv.dense
  · rw [h1.ff]; exact henv.ff
  · rw [h1.draw]; exact henv.draw

/-- C57, complete factorizations with GPLU: the function succeeds, with the rank, a basis of the row space and
`A = L U`.  (Same restriction as in `C57_refine_partial`.) -/
theorem C57_complete_partial (hb : 0 < opts.block) (hnull : opts.max_round ≠ 0 ∨ jk.null0 = false)
    (hc : opts.complete = true) (hg : opts.gplu = true) :
    Ok (echelonize_num jk env nm opts A) (fun f => f.r = (A.toMat q).rank ∧ f.U.n = f.r ∧
      f.U.rowSpace q = A.rowSpace q ∧ f.complete = true ∧ (f.r = 0 ∨ f.p.isSome = true) ∧
      ∃ L, f.L = some L ∧ IsFact q A L f.U f.qinv f.p true) := by
  obtain ⟨env', -, h, e⟩ := C57_refine_partial jk q env nm opts A henv hA hnd hz hf hr hn hm
  rw [e]
  exact C28_complete jk q env' opts A h hA hnd hz hb hnull hc (.inl hg)

/-- C57, without `L`: unless the low-rank method runs forever or increases its weight beyond the range of `int`,
the function succeeds; `U` is in echelon form, its rows are linear combinations of the rows of `A` and the rank is
never overestimated.  (Same restriction as in `C57_refine_partial`.) -/
theorem C57_sound_partial (hb : 0 < opts.block) (hnull : opts.max_round ≠ 0 ∨ jk.null0 = false)
    (hL : opts.L = false) (hc : opts.complete = false) :
    WpE (fun e => opts.tall = true ∧ (e = .fuel ∨ e = .ub)) (echelonize_num jk env nm opts A) (fun f =>
      Echelon q f.U f.qinv ∧ f.U.m = A.m ∧ f.r = f.U.n ∧ f.U.rowSpace q ≤ A.rowSpace q ∧
      f.r ≤ (A.toMat q).rank) := by
  obtain ⟨env', -, h, e⟩ := C57_refine_partial jk q env nm opts A henv hA hnd hz hf hr hn hm
  rw [e]
  have e : opts.norm = opts := by
    cases opts; simp_all [Opts.norm]
  have := echelonize_spec (E := fun e => opts.tall = true ∧ (e = .fuel ∨ e = .ub)) jk
    (fun ht => ⟨by rwa [e] at ht, .inl rfl⟩) h hA hnd hz hnull hb
    (fun ht => .inl ⟨by rwa [e] at ht, .inr rfl⟩) (fun hl => by rw [e, hL] at hl; cases hl)
  refine this.mono fun f h => ⟨h.ech, h.m_eq, h.r_eq, h.le, ?_⟩
  rw [h.r_eq, ← h.ech.rank, ← finrank_rowSpace hA.toWF]
  exact Submodule.finrank_mono h.le

end

/-- C57 (negation). If every column is the leftmost one of some row and there are more rows than columns, the
function computes 0/0 and converts the result to an integer, which is undefined: whatever the options, as soon as
one round is allowed. -/
theorem C57_nan (hm : 0 < A.m) (hmn : A.m < A.n)
    (hcol : ∀ j, j < A.m → ∃ i, i < A.n ∧ A.InRow i j ∧ ∀ c, A.InRow i c → j ≤ c) (hround : opts.max_round ≠ 0) :
    echelonize_num jk env nm opts A = .error .ub := by
  unfold echelonize_num
  simp only
  have e1 : opts.norm.max_round = opts.max_round := rfl
  rw [← e1] at hround
  generalize opts.norm = op at *
  have h0 := echelonize_init_spec (opts := op) jk hA
  rw [Ok_iff] at h0
  obtain ⟨f, h0, f1, f2, f3, f4⟩ := h0
  rw [h0, nnz_ok hA.toWF]
  have hI : RoundInv q env op A 0 ⟨A, A.n, none, mkArr A.n jk.nat, 0, f, 0⟩ :=
    ⟨hA, hnd, hz, rfl, rfl, fun a ha => (nomatch ha), by simp only; rw [f2]; exact f1, f4, f3, rfl, .inl ⟨rfl, rfl⟩, by simp only; omega⟩
  have hk : A.p.g A.n ≠ 0 := by
    obtain ⟨i, hi, ⟨k, k1, k2, -⟩, -⟩ := hcol 0 hm
    have := hA.toWF.row_lt hi k2
    omega
  have hx := hI.pivots jk henv hk
  rw [Ok_iff] at hx
  obtain ⟨⟨npiv, g, p⟩, hx, hE⟩ := hx
  simp only at hx hE
  -- all the columns are pivotal
  have hnp : A.m ≤ npiv := by
    have key : WpE (fun _ => True) (pivots_extract_structural jk A none f (mkArr A.n jk.nat)
        (if op.greedy then some (env.greedy 0 A) else none)) (fun r => A.m ≤ r.1) := by
      unfold pivots_extract_structural
      rw [WpE_bind]
      have hfind : WpE (fun _ => True) (pivots_find A (if op.greedy then some (env.greedy 0 A) else none))
          (fun r => A.m ≤ r.1) := by
        unfold pivots_find
        rw [WpE_bind]
        refine (find_FL_pivots_spec hA.toWF hA.has_x hz (by simp) (by simp)
          (fun i hi => g_mkArr _ _ _ hi) (fun j hj => g_mkArr _ _ _ hj)).wpe.mono ?_
        rintro ⟨n1, pinv, qinv⟩ ⟨-, h2, -, h3⟩
        simp only at h2 h3
        have hn1 : A.m ≤ n1 := by
          rw [h2]
          unfold pivCount
          rw [Finset.filter_true_of_mem, Finset.card_range]
          intro j hj
          obtain ⟨i, hi, hin, hmin⟩ := hcol j (Finset.mem_range.mp hj)
          exact (h3 i hi j hin hmin).1
        rw [WpE_bind]
        refine WpE.any fun r2 => ?_
        simp only
        split
        · rw [WpE_ok]; simp only; omega
        · rw [WpE_bind]
          refine WpE.any fun r3 => ?_
          rw [WpE_ok]; simp only; omega
      refine hfind.mono ?_
      rintro ⟨np, pinv, qinv⟩ h
      rw [WpE_bind]
      refine WpE.any fun p => ?_
      rw [WpE_bind]
      refine WpE.any fun f => ?_
      rw [WpE_ok]
      exact h
    exact key.val hx
  obtain ⟨old, hP⟩ := hE.part
  simp only at hP
  have hUm := hP.ech.n_le
  rw [hP.m_eq] at hUm
  have hUn : g.U.n = f.U.n + npiv := by
    have hxx := C25_extract jk q A A hA hnd hz rfl none (fun a ha => (nomatch ha)) f op.complete hI.part
      (if op.greedy then some (env.greedy 0 A) else none) ?_ (mkArr A.n jk.nat) (by simp)
    · rw [hx, Ok_ok] at hxx
      obtain ⟨pinv, qinv, -, -, -, h5⟩ := hxx
      exact h5.n_eq
    · intro gr hg pinv qinv hP
      split at hg
      · cases hg
        obtain ⟨r, h1, T, jk', rows, s', hs, -, hr, hf, rfl⟩ := henv.greedy 0 A pinv qinv
          (Greedy.C24_outcome A hA.toWF hnd pinv qinv hP)
        rw [h1, Ok_ok]
        obtain ⟨k1, k2, -⟩ := Greedy.C24_final A jk' pinv qinv rows hs s' hr hf
        exact ⟨k1, k2⟩
      · cases hg
  have hUe : g.U.n = A.m := by omega
  have hne : npiv = A.m := by omega
  have hps := hE.p_size
  simp only at hps
  have z0 : Dbl.ofInt 0 = .fin 0 := by
    have := Dbl.ofInt_nat (k := 0) (by norm_num)
    simpa using this
  have hfew : num_few nm npiv A.n ((A.m : Int) - g.U.n) = false := by
    unfold num_few
    rw [hUe, sub_self, min_eq_right (by omega), z0]
    have h1 : 0 ≤ rnd 53 (((npiv : Nat) : Int) : ℚ) := rnd_nonneg 53 (by positivity)
    unfold Dbl.ofInt
    cases nm.o.min_pivot_proportion with
    | nan => rfl
    | inf s => simp [Dbl.mul, Dbl.lt]
    | fin x =>
      rw [Dbl.mul_fin, mul_zero]
      have : rnd 53 0 = 0 := by simp [rnd]
      rw [this]
      unfold Dbl.lt
      simp only [decide_eq_false_iff_not, not_lt]
      exact h1
  have hdens : num_density jk nm 0 ⟨A, A.n, none, p, npiv, g, 0⟩ = .ok .nan := by
    unfold num_density
    rw [csub_ok (by simp only; omega)]
    exact (C56_nan jk q A (shift p npiv) (A.n - npiv) g.U g.qinv hA hP.ech hP.m_eq (by simp; omega)
      (fun k hk => by
        rw [g_shift (by omega)]
        exact hE.p_lt _ (by simp only; omega)) (by omega) hUe 100 (nm.rand 0)).1
  have hround1 : num_round jk env nm op 0 ⟨⟨A, A.n, none, mkArr A.n jk.nat, 0, f, 0⟩, num_density0 A (A.p.g A.n)⟩ =
      .error .ub := by
    unfold num_round
    rw [nnz_ok hA.toWF]
    show (if _ then _ else _) = _
    rw [if_neg hk, hx]
    show (if num_few nm npiv A.n ((A.m : Int) - g.U.n) = true then _ else num_next jk env nm 0
      ⟨A, A.n, none, p, npiv, g, 0⟩) = _
    rw [hfew, if_neg (by simp)]
    unfold num_next
    rw [hdens]
    show (if nm.o.sparsity_threshold.lt .nan = true then _ else _) = _
    have : nm.o.sparsity_threshold.lt .nan = false := by cases nm.o.sparsity_threshold <;> rfl
    rw [this, if_neg (by simp)]
    unfold num_size
    rw [csub_ok (by simp only; omega)]
    rfl
  obtain ⟨k, hk⟩ : ∃ k, op.max_round = k + 1 := ⟨op.max_round - 1, by omega⟩
  show (forBrk 0 op.max_round _ (fun round s => num_round jk env nm op round s) >>= fun r => _) = _
  unfold forBrk
  rw [hk, Nat.sub_zero, forBrkN, hround1]
  rfl

end

/-- The default options are acceptable, with a value of `-log(0.01)` close to the exact one. -/
theorem C57_default (rand : Nat → Nat → Nat) (mlog : ℚ) (h1 : 4.6 ≤ mlog) (h2 : mlog ≤ 4.61) :
    Num.Fine ⟨FOpts.init, rand, mlog⟩ ∧ 0 < Opts.init.block ∧ Opts.init.max_round ≠ 0 ∧ Opts.init.gplu = true := by
  refine ⟨⟨?_, ?_, ?_, .inl ?_⟩, by decide, by decide, rfl⟩
  · simp only; linarith
  · simp only; linarith
  · simp [FOpts.init, Dbl.lt]
  · simp [FOpts.init, Dbl.lt]

/-! ### Concrete cases -/

def exNum : Num := ⟨FOpts.init, fun _ i => i, 4605 / 1000⟩

/-- Default options, complete factorization. -/
example : Ok (echelonize_num default (exChoices.pick default exFf) exNum { Opts.init with complete := true } exP)
    (fun f => f.r = (exP.toMat 7).rank ∧ ∃ L, f.L = some L ∧ IsFact 7 exP L f.U f.qinv f.p true) :=
  (C57_complete_partial default 7 _ exNum { Opts.init with complete := true } exP
    (C27_env _ _ _ exChoices_draw _ exFf_correct) exP_wfv exP_nodup exP_nozero
    (C57_default _ _ (by norm_num) (by norm_num)).1 (.inl (by decide)) (by decide) (by decide) (by decide)
    (.inl (by decide)) rfl rfl).mono fun _ h => ⟨h.1, h.2.2.2.2.2⟩

/-- Three rows, two columns: the identity and a row of ones. -/
def exOver : Csr :=
  { n := 3, m := 2, p := #[0, 1, 2, 4], j := #[0, 1, 0, 1], x := some #[1, 1, 1, 1], F := Field.ofPrime 7 }

theorem exOver_wfv : exOver.WFV 7 := Csr.wfv_of_check (by decide +kernel)

theorem exOver_nodup : exOver.NoDup := Csr.nodup_of_check exOver_wfv.toWF (by decide +kernel)

/-- The default options are enough to meet the undefined conversion. -/
example : echelonize_num default (exChoices.pick default exFf) exNum Opts.init exOver = .error .ub := by
  refine C57_nan default 7 _ exNum Opts.init exOver (C27_env _ _ _ exChoices_draw _ exFf_correct) exOver_wfv
    exOver_nodup ?_ (by decide) (by decide) ?_ (by decide)
  · intro k hk
    have : k < 4 := hk
    interval_cases k <;> decide
  · intro j hj
    refine ⟨j, by have : j < 2 := hj; show j < 3; omega, ⟨j, ?_⟩, ?_⟩
    · have : j < 2 := hj
      interval_cases j <;> decide
    · rintro c ⟨k, k1, k2, rfl⟩
      have : j < 2 := hj
      interval_cases j
      · exact Nat.zero_le _
      · obtain rfl : k = 1 := by
          have a : 1 ≤ k := k1
          have b : k < 2 := k2
          omega
        decide

end Spasm
