import Verif.Proofs.Options
import Verif.Proofs.FfRank
import Verif.Props.Numeric

/-
C58: the meaning of the options of `spasm_echelonize`, as documented in src/spasm.h:84-108 and in the help of the
programs (tools/common.c:50-67).
-/

namespace Spasm

/-! ### Thresholds -/

/-- C58. "Stop if the proportion of pivots found is less than P": up to one rounding. -/
theorem C58_few (nm : Num) (x : ℚ) (hx : 0 ≤ x) (hP : nm.o.min_pivot_proportion = .fin x) (npiv n rest : Nat)
    (h1 : npiv < 2 ^ 53) (h2 : n < 2 ^ 53) :
    (num_few nm npiv n rest = true → (npiv : ℚ) < x * (min n rest : Nat) * (1 + 1 / 2 ^ 53)) ∧
    (num_few nm npiv n rest = false → x * (min n rest : Nat) * (1 - 1 / 2 ^ 53) ≤ npiv) := by
  unfold num_few
  rw [hP, ← Nat.cast_min]
  exact Dbl.lt_mul_bounds hx h1 (by omega)

/-- C58. "if k rows have rank less than k * low_rank_ratio": up to one rounding. -/
theorem C58_yield (nm : Num) (x : ℚ) (hx : 0 ≤ x) (hP : nm.o.low_rank_ratio = .fin x) (rr Sn : Nat)
    (h1 : rr < 2 ^ 53) (h2 : Sn < 2 ^ 53) :
    (dense_yield nm rr Sn = true → (rr : ℚ) < x * Sn * (1 + 1 / 2 ^ 53)) ∧
    (dense_yield nm rr Sn = false → x * Sn * (1 - 1 / 2 ^ 53) ≤ rr) := by
  unfold dense_yield
  rw [hP]
  exact Dbl.lt_mul_bounds hx h1 h2

/-- C58. "aspect ratio (#rows / #cols) higher than this": up to one rounding. -/
theorem C58_skinny (nm : Num) (r : ℚ) (hP : nm.o.tall_and_skinny_ratio = .fin r) (n rest : Nat)
    (h1 : n < 2 ^ 53) (h2 : rest < 2 ^ 53) (h0 : 0 < rest) :
    (num_skinny nm n rest = true → r < (n : ℚ) / rest * (1 + 1 / 2 ^ 53)) ∧
    (num_skinny nm n rest = false → (n : ℚ) / rest * (1 - 1 / 2 ^ 53) ≤ r) := by
  unfold num_skinny
  rw [hP]
  exact Dbl.lt_div_bounds r h1 h2 h0

/-- C58. The weight is doubled when the rank is less than nine tenths of the number of combinations, whatever the
roundings; in case of equality it may or may not be. -/
theorem C58_less (rr Sn : Nat) (h1 : rr < 2 ^ 53) (h2 : Sn < 2 ^ 31) :
    (10 * rr < 9 * Sn → lowrank_less rr Sn = true) ∧ (9 * Sn < 10 * rr → lowrank_less rr Sn = false) := by
  have h9 := rnd_err 53 (9 / 10)
  have a9 : |(9 / 10 : ℚ)| = 9 / 10 := abs_of_pos (by norm_num)
  rw [a9, abs_le] at h9
  obtain ⟨b1, b2⟩ := Dbl.lt_mul_bounds (x := rnd 53 (9 / 10)) (rnd_nonneg 53 (by norm_num)) h1 (by omega : Sn < 2 ^ 53)
  have s0 : (0 : ℚ) ≤ Sn := by positivity
  have s1 : (Sn : ℚ) < 2147483648 := by exact_mod_cast h2
  unfold lowrank_less
  constructor <;> intro h
  · by_contra hc
    rw [Bool.not_eq_true] at hc
    have h3 := b2 hc
    have h4 : (10 * rr + 1 : ℚ) ≤ 9 * Sn := by exact_mod_cast h
    have h5 : (9 / 10 - 9 / 10 / 2 ^ 53 : ℚ) * Sn ≤ rnd 53 (9 / 10) * Sn :=
      mul_le_mul_of_nonneg_right (by linarith [h9.1]) s0
    norm_num at h3 h5
    linarith
  · by_contra hc
    rw [Bool.not_eq_false] at hc
    have h3 := b1 hc
    have h4 : (9 * Sn + 1 : ℚ) ≤ 10 * rr := by exact_mod_cast h
    have h5 : rnd 53 (9 / 10) * Sn ≤ (9 / 10 + 9 / 10 / 2 ^ 53 : ℚ) * Sn :=
      mul_le_mul_of_nonneg_right (by linarith [h9.2]) s0
    norm_num at h3 h5
    linarith

/-- C58. The number compared in `C58_yield` is the rank of the chunk: both functions of the library return it. -/
theorem C58_chunk_rank (env : Env) (o : Opts) (q : ℕ) [Fact q.Prime] (hff : env.ff.Correct q) (Sn Sm : Nat) (S : Array ℚ)
    (w : Nat → Nat → Int) (hS : Cells Sn Sm S w) (hw : ∀ i j, i < Sn → j < Sm → Bal q (w i j)) :
    dense_rank env o q Sn Sm S = Matrix.rank (Matrix.of fun (i : Fin Sn) (j : Fin Sm) => (w i j : ZMod q)) := by
  unfold dense_rank
  split
  · obtain ⟨w', h1, h2, h3⟩ := hff.lu Sn Sm S w hS hw
    refine (h2.rank fun i hi => ?_).symm
    exact (h2.bal i i (Nat.lt_of_lt_of_le hi h2.r_n) (Nat.lt_of_lt_of_le hi h2.r_m)).cast_ne_zero (h2.diag i hi)
      (Nat.Prime.two_le Fact.out)
  · obtain ⟨w', h1, h2, h3⟩ := hff.rref Sn Sm S w hS hw
    exact h2.rank.symm

example (env : Env) (o : Opts) (h : env.ff.Correct 7) : dense_rank env o 7 2 2 #[0, 1, 1, 2] =
    Matrix.rank (Matrix.of fun (i : Fin 2) (j : Fin 2) => (((i : Nat) + (j : Nat) : Int) : ZMod 7)) :=
  haveI : Fact (Nat.Prime 7) := ⟨by decide⟩
  C58_chunk_rank env o 7 h 2 2 #[0, 1, 1, 2] (fun i j => (i : Int) + j)
    ⟨by decide, fun i j hi hj => by interval_cases i <;> interval_cases j <;> rfl⟩
    fun i j hi hj => by interval_cases i <;> interval_cases j <;> (unfold Bal; decide)

/-- C58. The density of the input, which is compared with `sparsity_threshold` when there is no round. -/
theorem C58_density (A : Csr) (k : Nat) (hk : k < 2 ^ 53) (hn : 0 < A.n) (hm : 0 < A.m) (hn' : A.n < 2 ^ 53)
    (hm' : A.m < 2 ^ 53) : ∃ d : ℚ, num_density0 A k = .fin d ∧
      |d - (k : ℚ) / (A.n * A.m)| ≤ (k : ℚ) / (A.n * A.m) / 2 ^ 51 := by
  have h1 : (A.n : ℚ) ≠ 0 := by positivity
  have h2 : (A.m : ℚ) ≠ 0 := by positivity
  refine ⟨rnd 53 (rnd 53 ((k : ℚ) / A.n) / A.m), ?_, ?_⟩
  · unfold num_density0
    rw [Dbl.ofInt_nat hk, Dbl.ofInt_nat hn', Dbl.ofInt_nat hm', Dbl.div_fin h1, Dbl.div_fin h2]
  · have e1 := rnd_err 53 ((k : ℚ) / A.n)
    have e2 := rnd_err 53 (rnd 53 ((k : ℚ) / A.n) / A.m)
    have p1 : 0 ≤ (k : ℚ) / A.n := by positivity
    have p2 := rnd_nonneg 53 p1
    have p3 : 0 ≤ rnd 53 ((k : ℚ) / A.n) / A.m := by positivity
    rw [abs_of_nonneg p1, abs_le] at e1
    rw [abs_of_nonneg p3, abs_le] at e2
    have hx : (k : ℚ) / (A.n * A.m) = (k : ℚ) / A.n / A.m := by rw [div_div]
    have u1 : rnd 53 ((k : ℚ) / A.n) / A.m ≤ ((k : ℚ) / A.n + (k : ℚ) / A.n / 2 ^ 53) / A.m :=
      div_le_div_of_nonneg_right (by linarith [e1.2]) (by positivity)
    have u2 : ((k : ℚ) / A.n - (k : ℚ) / A.n / 2 ^ 53) / A.m ≤ rnd 53 ((k : ℚ) / A.n) / A.m :=
      div_le_div_of_nonneg_right (by linarith [e1.1]) (by positivity)
    have v1 : ((k : ℚ) / A.n + (k : ℚ) / A.n / 2 ^ 53) / A.m = (k : ℚ) / A.n / A.m * (1 + 1 / 2 ^ 53) := by ring
    have v2 : ((k : ℚ) / A.n - (k : ℚ) / A.n / 2 ^ 53) / A.m = (k : ℚ) / A.n / A.m * (1 - 1 / 2 ^ 53) := by ring
    have p4 : 0 ≤ (k : ℚ) / A.n / A.m := by positivity
    rw [hx, abs_le]
    rw [v1] at u1
    rw [v2] at u2
    norm_num at *
    constructor <;> linarith

/-- The hypotheses are met: 5 entries in a matrix with 3 rows and 7 columns. -/
example : ∃ d : ℚ, num_density0 { n := 3, m := 7, p := #[0, 2, 4, 5], j := #[0, 1, 2, 3, 4], x := none, F := Field.ofPrime 7 } 5 =
    .fin d ∧ |d - 5 / 21| ≤ 5 / 21 / 2 ^ 51 := by
  obtain ⟨d, h1, h2⟩ := C58_density
    { n := 3, m := 7, p := #[0, 2, 4, 5], j := #[0, 1, 2, 3, 4], x := none, F := Field.ofPrime 7 } 5
    (by norm_num) (by decide) (by decide) (by norm_num) (by norm_num)
  exact ⟨d, h1, by norm_num at h2 ⊢; exact h2⟩

/-! ### Negative values -/

/-- C58. "min_pivot_proportion < 0 = keep going": a round is never stopped for want of pivots. -/
theorem C58_proportion_negative (nm : Num) (h : nm.o.min_pivot_proportion.lt (.fin 0) = true) (npiv n rest : Nat)
    (hn : n < 2 ^ 53) : num_few nm npiv n rest = false := by
  unfold num_few
  rw [← Nat.cast_min]
  exact Dbl.not_lt_neg_mul h (by omega) (rnd_nonneg 53 (by positivity))

/-- C58. "low_rank_ratio < 0 = don't". -/
theorem C58_low_rank_negative (nm : Num) (h : nm.o.low_rank_ratio.lt (.fin 0) = true) (rr Sn : Nat)
    (hn : Sn < 2 ^ 53) : dense_yield nm rr Sn = false := by
  unfold dense_yield
  exact Dbl.not_lt_neg_mul h hn (rnd_nonneg 53 (by positivity))

/-- C58 (negation). "tall_and_skinny_ratio < 0 = don't": on the contrary, the aspect ratio is always higher than a
negative number (unless neither rows nor columns remain). -/
theorem C58_aspect_negative (nm : Num) (h : nm.o.tall_and_skinny_ratio.lt (.fin 0) = true) (n rest : Nat)
    (hn : n < 2 ^ 53) (hr : rest < 2 ^ 53) (h0 : n ≠ 0 ∨ rest ≠ 0) : num_skinny nm n rest = true := by
  unfold num_skinny
  show nm.o.tall_and_skinny_ratio.lt ((Dbl.ofInt ((n : Nat) : Int)).div (Dbl.ofInt ((rest : Nat) : Int))) = true
  rw [Dbl.ofInt_nat hn, Dbl.ofInt_nat hr]
  by_cases hz : (rest : ℚ) = 0
  · have hn0 : ¬ (n : ℚ) = 0 := by
      rcases h0 with h0 | h0
      · exact_mod_cast h0
      · exact absurd (by exact_mod_cast hz) h0
    have hn1 : ¬ (n : ℚ) < 0 := by push Not; positivity
    have : (Dbl.fin (n : ℚ)).div (.fin (rest : ℚ)) = .inf false := by
      show (if (rest : ℚ) = 0 then (if (n : ℚ) = 0 then Dbl.nan else .inf (decide ((n : ℚ) < 0))) else _) = _
      rw [if_pos hz, if_neg hn0, decide_eq_false hn1]
    rw [this]
    rcases Dbl.neg_cases h with e | ⟨x, e, -⟩ <;> rw [e] <;> rfl
  · rw [Dbl.div_fin hz]
    exact Dbl.neg_lt h (rnd_nonneg 53 (by positivity))

/-- C58. "low_rank_start_weight: -1 = auto-select": a negative value is not used. -/
theorem C58_weight_negative (nm nm' : Num) (h : nm.o.low_rank_start_weight.lt (.fin 0) = true)
    (h' : nm'.o.low_rank_start_weight.lt (.fin 0) = true) (hl : nm.mlog = nm'.mlog) (n Sm : Nat) :
    num_weight nm n Sm = num_weight nm' n Sm := by
  unfold num_weight
  rw [if_pos h, if_pos h', hl]

/-- C58. The negative values documented in src/spasm.h:96-106.  Missing: those of `max_round`, `sparsity_threshold` and
`tall_and_skinny_ratio`, for which the documentation is wrong (`C58_rounds_negative`, `C58_threshold_negative`,
`C58_aspect_negative`). -/
theorem C58_negative_partial (o o' : EchOpts) (c : Chance) (h1 : o.min_pivot_proportion.lt (.fin 0) = true)
    (h2 : o.low_rank_ratio.lt (.fin 0) = true) (h3 : o.low_rank_start_weight.lt (.fin 0) = true)
    (h3' : o'.low_rank_start_weight.lt (.fin 0) = true) :
    (∀ npiv n rest : Nat, n < 2 ^ 53 → num_few (o.num c) npiv n rest = false) ∧
    (∀ rr Sn : Nat, Sn < 2 ^ 53 → dense_yield (o.num c) rr Sn = false) ∧
    (∀ n Sm : Nat, num_weight (o.num c) n Sm = num_weight (o'.num c) n Sm) :=
  ⟨C58_proportion_negative _ h1, C58_low_rank_negative _ h2, C58_weight_negative _ _ h3 h3' rfl⟩

/-! ### Rounds -/

section
variable (jk : Junk) (env : Env) (c : Chance) (A : Csr) (o : EchOpts)

theorem num_finish_env (nm : Num) (opts : Opts) (g : Nat → Csr → Array Int → Array Int → C (Nat × Array Int × Array Int))
    (s' : Nat → SchurIn → C SchurOut) (d : Dbl) (s : Driver) :
    num_finish jk { env with greedy := g, schur := s' } nm opts d s = num_finish jk env nm opts d s := rfl

theorem num_rest_env (nm : Num) (opts : Opts) (g : Nat → Csr → Array Int → Array Int → C (Nat × Array Int × Array Int))
    (s' : Nat → SchurIn → C SchurOut) (s : NumDriver) :
    num_rest jk { env with greedy := g, schur := s' } nm opts s = num_rest jk env nm opts s := rfl

/-- C58. "Compute at most N sparse Schur complements": what the function for Schur complements does when it is called
for the (N+1)-th time or later is irrelevant. -/
theorem C58_max_round (schur' : Nat → SchurIn → C SchurOut)
    (h : ∀ k : Nat, (k : Int) < o.max_round → env.schur k = schur' k) :
    echelonize_call jk { env with schur := schur' } c A (some o) = echelonize_call jk env c A (some o) := by
  unfold echelonize_call echelonize_num
  simp only [Option.getD_some]
  refine congrArg _ (funext fun f => congrArg _ (funext fun k => ?_))
  rw [forBrk_congr (fun round s => num_round jk { env with schur := schur' } (o.num c) o.ints.norm round s)
    (fun round s => num_round jk env (o.num c) o.ints.norm round s)]
  · rfl
  · intro i s _ hi
    have hi' : (i : Int) < o.max_round := by
      have : i < o.max_round.toNat := hi
      omega
    unfold num_round num_next echelonize_schur
    simp only [h i hi']

/-- C58 (negation). "max_round < 0 = keep going": on the contrary, neither structural pivots nor Schur complements are
computed. -/
theorem C58_rounds_negative (hneg : o.max_round < 0)
    (g : Nat → Csr → Array Int → Array Int → C (Nat × Array Int × Array Int)) (s' : Nat → SchurIn → C SchurOut) :
    echelonize_call jk { env with greedy := g, schur := s' } c A (some o) = echelonize_call jk env c A (some o) ∧
    echelonize_call jk env c A (some o) = echelonize_call jk env c A (some { o with max_round := 0 }) := by
  have e : o.max_round.toNat = 0 := by omega
  have e2 : o.ints = { o with max_round := 0 : EchOpts }.ints := by
    unfold EchOpts.ints; simp only [e]; rfl
  constructor
  · unfold echelonize_call echelonize_num
    have e3 : o.ints.norm.max_round = 0 := e
    simp only [Option.getD_some, e3]
    rfl
  · unfold echelonize_call
    simp only [Option.getD_some]
    rw [e2]
    rfl

/-- C58 (negation). "sparsity_threshold < 0 = keep going": on the contrary, every Schur complement is denser than that,
and none is computed. -/
theorem C58_threshold_negative (q : ℕ) [Fact q.Prime] (henv : env.Possible q) (hA : A.WFV q) (hnd : A.NoDup)
    (hz : A.NoZero) (hm : A.m < 2 ^ 31) (hneg : o.sparsity_threshold.lt (.fin 0) = true)
    (s' : Nat → SchurIn → C SchurOut) :
    echelonize_call jk { env with schur := s' } c A (some o) = echelonize_call jk env c A (some o) := by
  unfold echelonize_call echelonize_num
  simp only [Option.getD_some]
  generalize o.ints.norm = op
  have h0 := echelonize_init_spec (opts := op) jk hA
  rw [Ok_iff] at h0
  obtain ⟨f, h0, f1, f2, f3, f4⟩ := h0
  rw [h0, nnz_ok hA.toWF]
  have hI : RoundInv q env op A 0 ⟨A, A.n, none, mkArr A.n jk.nat, 0, f, 0⟩ :=
    ⟨hA, hnd, hz, rfl, rfl, fun a ha => (nomatch ha), by simp only; rw [f2]; exact f1, f4, f3, rfl, .inl ⟨rfl, rfl⟩, by simp only; omega⟩
  obtain ⟨r, hr⟩ : ∃ r : C NumDriver, ∀ s', num_round jk { env with schur := s' } (o.num c) op 0
      ⟨⟨A, A.n, none, mkArr A.n jk.nat, 0, f, 0⟩, num_density0 A (A.p.g A.n)⟩ = r >>= fun t => .ok (.brk t) := by
    by_cases hk : A.p.g A.n = 0
    · refine ⟨.ok ⟨⟨A, A.n, none, mkArr A.n jk.nat, 0, f, 1⟩, num_density0 A (A.p.g A.n)⟩, fun s' => ?_⟩
      unfold num_round
      rw [nnz_ok hA.toWF]
      show (if _ then _ else _) = _
      rw [if_pos hk]
      rfl
    · have hx := hI.pivots jk henv hk
      rw [Ok_iff] at hx
      obtain ⟨⟨npiv, g, p⟩, hx, hE⟩ := hx
      simp only at hx hE
      have key : ∀ s', num_round jk { env with schur := s' } (o.num c) op 0
          ⟨⟨A, A.n, none, mkArr A.n jk.nat, 0, f, 0⟩, num_density0 A (A.p.g A.n)⟩ =
          if num_few (o.num c) npiv A.n ((A.m : Int) - g.U.n) then
            .ok (.brk ⟨⟨A, A.n, none, p, npiv, g, 2⟩, num_density0 A (A.p.g A.n)⟩)
          else num_next jk { env with schur := s' } (o.num c) 0 ⟨A, A.n, none, p, npiv, g, 0⟩ := by
        intro s'
        unfold num_round
        rw [nnz_ok hA.toWF]
        show (if _ then _ else _) = _
        rw [if_neg hk]
        show (pivots_extract_structural jk A none f (mkArr A.n jk.nat)
          (if op.greedy then some (env.greedy 0 A) else none) >>= fun _ => _) = _
        rw [hx]
        rfl
      by_cases hfew : num_few (o.num c) npiv A.n ((A.m : Int) - g.U.n) = true
      · exact ⟨.ok ⟨⟨A, A.n, none, p, npiv, g, 2⟩, num_density0 A (A.p.g A.n)⟩, fun s' => by
          rw [key, if_pos hfew]; rfl⟩
      · obtain ⟨old, hP⟩ := hE.part
        simp only at hP
        have hUm := hP.ech.n_le
        rw [hP.m_eq] at hUm
        have hle := hE.le
        have hps := hE.p_size
        simp only at hle hps
        have hp : ∀ k, k < A.n - npiv → (shift p npiv).g k < A.n := by
          intro k hk
          rw [g_shift (by omega)]
          exact hE.p_lt _ (by simp only; omega)
        by_cases hfull : g.U.n = A.m ∧ 0 < A.n - npiv
        · refine ⟨.error .ub, fun s' => ?_⟩
          rw [key, if_neg hfew]
          have hdens : num_density jk (o.num c) 0 ⟨A, A.n, none, p, npiv, g, 0⟩ = .ok .nan := by
            unfold num_density
            rw [csub_ok (by simp only; omega)]
            exact (C56_nan jk q A (shift p npiv) (A.n - npiv) g.U g.qinv hA hP.ech hP.m_eq (by simp; omega) hp hfull.2
              hfull.1 100 ((o.num c).rand 0)).1
          unfold num_next
          rw [hdens]
          show (if (o.num c).o.sparsity_threshold.lt .nan = true then _ else _) = _
          have : (o.num c).o.sparsity_threshold.lt .nan = false := by cases (o.num c).o.sparsity_threshold <;> rfl
          rw [this, if_neg (by simp)]
          unfold num_size
          rw [csub_ok (by simp only; omega)]
          rfl
        · obtain ⟨d, hd, d0⟩ : ∃ d : ℚ, num_density jk (o.num c) 0 ⟨A, A.n, none, p, npiv, g, 0⟩ = .ok (.fin d) ∧
              0 ≤ d := by
            unfold num_density
            rw [csub_ok hle]
            show ∃ d : ℚ, estimate_density jk A (shift p npiv) (A.n - npiv) g.U g.qinv 100 ((o.num c).rand 0) =
              .ok (.fin d) ∧ _
            by_cases h0 : A.n - npiv = 0
            · refine ⟨0, ?_, le_refl _⟩
              unfold estimate_density
              rw [if_pos h0]
            · choose V hV using fun (k : Nat) (hk : k < A.n - npiv) => exists_reduced hA hP.ech hP.m_eq (hp k hk)
              obtain ⟨d, d1, d2, -⟩ := C56_estimate_partial jk q A (shift p npiv) (A.n - npiv) g.U
                g.qinv hA hP.ech hP.m_eq (by simp; omega) hp (by omega) (by omega) hm 100 (by norm_num) (by norm_num)
                ((o.num c).rand 0) (fun k => if hk : k < A.n - npiv then V k hk else fun _ => 0)
                (fun k hk => by simp only [dif_pos hk]; exact hV k hk)
              exact ⟨d, d1, d2⟩
          refine ⟨.ok ⟨⟨A, A.n, none, p, npiv, g, 2⟩, .fin d⟩, fun s' => ?_⟩
          rw [key, if_neg hfew]
          unfold num_next
          rw [hd]
          show (if (o.num c).o.sparsity_threshold.lt (.fin d) = true then _ else _) = _
          exact (if_pos (Dbl.neg_lt (show (o.num c).o.sparsity_threshold.lt (.fin 0) = true from hneg) d0)).trans rfl
  show (forBrk 0 op.max_round _ (fun round s => num_round jk { env with schur := s' } (o.num c) op round s) >>=
    fun r => _) = (forBrk 0 op.max_round _ (fun round s => num_round jk env (o.num c) op round s) >>= fun r => _)
  have : forBrk 0 op.max_round ⟨⟨A, A.n, none, mkArr A.n jk.nat, 0, f, 0⟩, num_density0 A (A.p.g A.n)⟩
      (fun round s => num_round jk { env with schur := s' } (o.num c) op round s) =
      forBrk 0 op.max_round ⟨⟨A, A.n, none, mkArr A.n jk.nat, 0, f, 0⟩, num_density0 A (A.p.g A.n)⟩
      (fun round s => num_round jk env (o.num c) op round s) := by
    unfold forBrk
    rcases hk : op.max_round with _ | k
    · rfl
    · rw [Nat.sub_zero, forBrkN, forBrkN, hr s', hr env.schur]
      cases r <;> rfl
  rw [this]
  rfl

/-! ### Methods -/

/-- C58. "Disable the (dense) low-rank mode": it is not used, neither directly nor from the dense method.  (Only this
method calls `rand()`, and it is the only one that may run forever.) -/
theorem C58_no_low_rank (h : o.enable_tall_and_skinny = false) (rand' : Nat → Nat → Nat → Nat) (fuel' : Nat) :
    echelonize_call jk { env with rand := rand', fuel := fuel' } c A (some o) =
      echelonize_call jk env c A (some o) := by
  unfold echelonize_call echelonize_num
  simp only [Option.getD_some]
  have ht : o.ints.norm.tall = false := by
    unfold Opts.norm EchOpts.ints; simp only [h]; split <;> rfl
  generalize o.ints.norm = op at ht
  refine congrArg _ (funext fun f => congrArg _ (funext fun k => congrArg _ (funext fun r => ?_)))
  obtain ⟨_, s⟩ := r
  have hdense : ∀ A p n p_in fact, num_dense jk { env with rand := rand', fuel := fuel' } (o.num c) op A p n p_in fact =
      num_dense jk env (o.num c) op A p n p_in fact := by
    intro A p n p_in fact
    unfold num_dense
    refine congrArg _ (funext fun _ => congrArg _ (funext fun Sm => ?_))
    show (whileFuel (n + 1) _ (fun s => num_dense_round jk env (o.num c) op A p n p_in s) >>= fun s => _) = _
    generalize hw : whileFuel (n + 1) _ (fun s => num_dense_round jk env (o.num c) op A p n p_in s) = w
    cases w with
    | error e => rfl
    | ok s =>
      have hl : s.lowrank = false := by
        refine whileFuel_keep (fun s : DenseSt => s.lowrank = false) _ ?_ ?_ _ _ _ ?_ hw
        · intro s s' hs hf
          unfold num_dense_round at hf
          simp only [ht, Bool.false_and] at hf
          split at hf
          · cases hf
          · cases hx : csub A.m s.fact.U.n with
            | error e => rw [hx] at hf; cases hf
            | ok Sm =>
              cases hy : dense_lnz op s.fact with
              | error e => rw [hx, hy] at hf; cases hf
              | ok l =>
                rw [hx, hy] at hf
                change (env.dense _ _ >>= fun _ => _) = _ at hf
                generalize env.dense _ _ = y at hf
                cases y with
                | error e => cases hf
                | ok y =>
                  change (dense_transfer _ _ _ _ _ _ _ _ _ _ >>= fun _ => _) = _ at hf
                  generalize dense_transfer _ _ _ _ _ _ _ _ _ _ = z at hf
                  cases z with
                  | error e => cases hf
                  | ok z =>
                    cases hf
                    simp [hs]
        · intro s s' hs hf
          unfold num_dense_round at hf
          simp only [ht, Bool.false_and] at hf
          split at hf
          · cases hf; exact hs
          · cases hx : csub A.m s.fact.U.n with
            | error e => rw [hx] at hf; cases hf
            | ok Sm =>
              cases hy : dense_lnz op s.fact with
              | error e => rw [hx, hy] at hf; cases hf
              | ok l =>
                rw [hx, hy] at hf
                change (env.dense _ _ >>= fun _ => _) = _ at hf
                generalize env.dense _ _ = y at hf
                cases y with
                | error e => cases hf
                | ok y =>
                  change (dense_transfer _ _ _ _ _ _ _ _ _ _ >>= fun _ => _) = _ at hf
                  generalize dense_transfer _ _ _ _ _ _ _ _ _ _ = z at hf
                  cases z with
                  | error e => cases hf
                  | ok z => cases hf
        · rfl
      show (if _ then _ else _) = (if _ then _ else _)
      rw [if_neg (by rw [hl]; simp), if_neg (by rw [hl]; simp)]
  have hfin : ∀ d s, num_finish jk { env with rand := rand', fuel := fuel' } (o.num c) op d s =
      num_finish jk env (o.num c) op d s := by
    intro d s
    unfold num_finish
    simp only [ht, hdense]
    rfl
  show (num_rest jk { env with rand := rand', fuel := fuel' } (o.num c) op s >>= fun _ => _) =
    (num_rest jk env (o.num c) op s >>= fun _ => _)
  refine congrArg (· >>= _) ?_
  unfold num_rest
  rw [hfin, hfin]

/-- C58. "no-dense-mode": the dense method is not used: nothing depends on the dense Schur complements nor on the LU
factorization of FFPACK.  ("Don't use FFPACK" is not exact: the completion test and the low-rank method call
`spasm_ffpack_rref`.) -/
theorem C58_no_dense (h : o.enable_dense = false) (dense' : Nat → DenseIn → C DenseOut)
    (lu' : Int → Nat → Nat → Array ℚ → Nat × Array ℚ × Array Nat × Array Nat) :
    echelonize_call jk { env with dense := dense', ff := { env.ff with lu := lu' } } c A (some o) =
      echelonize_call jk env c A (some o) := by
  unfold echelonize_call echelonize_num
  simp only [Option.getD_some]
  have ht : o.ints.norm.dense = false := h
  generalize o.ints.norm = op at ht
  refine congrArg _ (funext fun f => congrArg _ (funext fun k => congrArg _ (funext fun r => ?_)))
  obtain ⟨_, s⟩ := r
  have hfin : ∀ d s, num_finish jk { env with dense := dense', ff := { env.ff with lu := lu' } } (o.num c) op d s =
      num_finish jk env (o.num c) op d s := by
    intro d s
    unfold num_finish
    simp only [ht]
    rfl
  show (num_rest jk { env with dense := dense', ff := { env.ff with lu := lu' } } (o.num c) op s >>= fun _ => _) =
    (num_rest jk env (o.num c) op s >>= fun _ => _)
  refine congrArg (· >>= _) ?_
  unfold num_rest
  rw [hfin, hfin]

/-- C58. A NULL pointer stands for the default options, which are those of C57. -/
theorem C58_default : echelonize_call jk env c A none = echelonize_call jk env c A (some EchOpts.init) ∧
    EchOpts.init.ints = Opts.init ∧ EchOpts.init.floats = FOpts.init := ⟨rfl, rfl, rfl⟩

end

/-! ### Examples -/

/-- The default options, and negative values for those that may be. -/
def exOptions : EchOpts :=
  { EchOpts.init with min_pivot_proportion := .fin (-1), max_round := -1, sparsity_threshold := .fin (-1),
                      low_rank_ratio := .fin (-1), tall_and_skinny_ratio := .fin (-1), enable_dense := false,
                      enable_tall_and_skinny := false }

example : num_few exNum 1 20 30 = true ∧ num_few exNum 3 20 30 = false := by
  have h := rnd_err 53 (1 / 10)
  rw [abs_of_pos (by norm_num : (0 : ℚ) < 1 / 10), abs_le] at h
  have b := C58_few exNum (rnd 53 (1 / 10)) (rnd_nonneg 53 (by norm_num)) rfl
  constructor
  · by_contra hc
    rw [Bool.not_eq_true] at hc
    have := (b 1 20 30 (by norm_num) (by norm_num)).2 hc
    norm_num at this h
    linarith
  · by_contra hc
    rw [Bool.not_eq_false] at hc
    have := (b 3 20 30 (by norm_num) (by norm_num)).1 hc
    norm_num at this h
    linarith

example : dense_yield exNum 4 10 = true := by
  by_contra h
  rw [Bool.not_eq_true] at h
  have := (C58_yield exNum (1 / 2) (by norm_num) rfl 4 10 (by norm_num) (by norm_num)).2 h
  norm_num at this

example : num_skinny exNum 60 10 = true ∧ num_skinny exNum 40 10 = false := by
  constructor
  · by_contra h
    rw [Bool.not_eq_true] at h
    have := (C58_skinny exNum 5 rfl 60 10 (by norm_num) (by norm_num) (by norm_num)).2 h
    norm_num at this
  · by_contra h
    rw [Bool.not_eq_false] at h
    have := (C58_skinny exNum 5 rfl 40 10 (by norm_num) (by norm_num) (by norm_num)).1 h
    norm_num at this

example : lowrank_less 89 100 = true ∧ lowrank_less 91 100 = false :=
  ⟨(C58_less 89 100 (by norm_num) (by norm_num)).1 (by norm_num),
    (C58_less 91 100 (by norm_num) (by norm_num)).2 (by norm_num)⟩

theorem exNeg_lt : (Dbl.fin (-1)).lt (.fin 0) = true := by
  show decide ((-1 : ℚ) < 0) = true
  norm_num

example (c : Chance) : num_few (exOptions.num c) 0 20 30 = false ∧ dense_yield (exOptions.num c) 0 20 = false ∧
    num_skinny (exOptions.num c) 1 30 = true :=
  ⟨C58_proportion_negative _ exNeg_lt 0 20 30 (by norm_num), C58_low_rank_negative _ exNeg_lt 0 20 (by norm_num),
    C58_aspect_negative _ exNeg_lt 1 30 (by norm_num) (by norm_num) (.inl (by norm_num))⟩

example (c : Chance) : num_weight (exOptions.num c) 10 20 = num_weight (EchOpts.init.num c) 10 20 :=
  C58_weight_negative _ _ exNeg_lt exNeg_lt rfl 10 20

example (c : Chance) : ∀ npiv n rest : Nat, n < 2 ^ 53 → num_few (exOptions.num c) npiv n rest = false :=
  (C58_negative_partial exOptions EchOpts.init c exNeg_lt exNeg_lt exNeg_lt exNeg_lt).1

/-- With these options nothing depends on the search of pivots, on Schur complements, on random numbers nor on the
dense method. -/
example (c : Chance) (env : Env) (g : Nat → Csr → Array Int → Array Int → C (Nat × Array Int × Array Int))
    (s' : Nat → SchurIn → C SchurOut) (r : Nat → Nat → Nat → Nat) (k : Nat) (d : Nat → DenseIn → C DenseOut) :
    echelonize_call default { env with greedy := g, schur := s', rand := r, fuel := k, dense := d } c exP
      (some exOptions) = echelonize_call default env c exP (some exOptions) :=
  ((C58_rounds_negative default { env with rand := r, fuel := k, dense := d } c exP exOptions (by decide) g s').1.trans
    (C58_no_low_rank default { env with dense := d } c exP exOptions rfl r k)).trans
    (C58_no_dense default env c exP exOptions rfl d env.ff.lu)

/-- With one round at most, what the second Schur complement would be is irrelevant. -/
example (c : Chance) (env : Env) (s' : Nat → SchurIn → C SchurOut) (h : env.schur 0 = s' 0) :
    echelonize_call default { env with schur := s' } c exP (some { EchOpts.init with max_round := 1 }) =
      echelonize_call default env c exP (some { EchOpts.init with max_round := 1 }) :=
  C58_max_round default env c exP _ s' fun k hk => by
    have : k = 0 := by have : (k : Int) < 1 := hk; omega
    rw [this]; exact h

example (c : Chance) (s' : Nat → SchurIn → C SchurOut) :
    echelonize_call default { (exChoices.pick default exFf) with schur := s' } c exP
      (some { EchOpts.init with sparsity_threshold := .fin (-1) }) =
    echelonize_call default (exChoices.pick default exFf) c exP
      (some { EchOpts.init with sparsity_threshold := .fin (-1) }) :=
  C58_threshold_negative default _ c exP _ 7 (C27_env _ _ _ exChoices_draw _ exFf_correct) exP_wfv exP_nodup exP_nozero
    (by decide) exNeg_lt s'

end Spasm
