import Verif.Proofs.RandomBlind
import Verif.Props.ToolCert
import Verif.Props.Samples

/-
C72. The random numbers of the dense random combinations.

The generator is restarted for each combination, with the index of the combination as seed. Therefore the coefficients
are always the same: they are the residues extracted from the SHA-256 hashes of known blocks (`challenge`, a specification
written independently of the generator).

* The combinations of all the rows are the same in every run, whatever the threads do (`C72_rows`, `C72_same`), and
  nothing goes wrong (`C72_safe`).
* The completion test says "complete" exactly if fixed combinations of the rows are in the row space of `U`
  (`C72_test`).  Hence, for each prime, there is a matrix of rank one that it always takes for zero (`C72_blind`), and
  `spasm_echelonize` without structural pivots always finds that its rank is zero (`C72_rank`).
-/

namespace Spasm

open Finset Sha

/-! ### The rows computed -/

/-- The combination of index `k` of the rows `p[0..n)` of `A`. -/
noncomputable def fixedComb (q : ℕ) (A : Csr) (p : Array Nat) (n k : Nat) (c : Nat) : ZMod q :=
  ∑ i ∈ range n, challenge (simpleSeed (BitVec.ofNat 64 k)) q i * A.entry q (p.g i) c

theorem fixedDraw_cast (q k i : Nat) : ((fixedDraw q k i : Int) : ZMod q) = challenge (simpleSeed (BitVec.ofNat 64 k)) q i :=
  ZMod.coe_valMinAbs _

theorem randComb_fixed (q : ℕ) (A : Csr) (p : Array Nat) (n : Nat) {w : Int} (hw : w ≤ 0) (k : Nat) (rnd : Nat → Nat) :
    randComb q A p n w (fixedDraw q k) rnd = fixedComb q A p n k := by
  ext c
  unfold randComb fixedComb randCoeff
  simp only [if_pos hw, fixedDraw_cast]

section
variable {q : ℕ} {g : RandMem} {a : RandIn} (h : RandPre q g a)
include h

/-- C72. Row `k` of the result is what remains of the fixed combination of index `k` when the pivotal columns are
eliminated, whatever the threads do, whatever the memory contains at the beginning. -/
theorem C72_rows (jk : Junk) (hw : a.w ≤ 0) (hdt : a.dt = datatype_choose q) {rnd : Nat → Nat → Nat}
    {o : Array ℚ × Array Nat} (hr : RandomRun jk g a rnd o) :
    IsQ a.qinv a.A.m (a.A.m - a.U.n) o.2 ∧ o.1.size = a.S.size ∧
    (∀ i, a.N * (a.A.m - a.U.n) ≤ i → o.1.g i = a.S.g i) ∧
    ∃ (v : Nat → Nat → Int) (ℓ : Nat → Nat → ZMod q), ∀ k, k < a.N →
      (∀ t, t < a.A.m - a.U.n → Bal q (v k t) ∧ o.1.g (k * (a.A.m - a.U.n) + t) = (v k t : ℚ)) ∧
      Reduced q a.U (fixedComb q a.A a.p a.n k) (ℓ k) (onCols o.2 (a.A.m - a.U.n) fun t => (v k t : ZMod q)) := by
  have hne : NeZero q := ⟨by have := h.A_wfv.good.two_le; omega⟩
  have h1 := random_run_eq h jk hr
  have h2 := C29_randomized jk q a.A a.U a.qinv h.A_wfv h.ech h.m_eq a.p a.n h.n_pos h.p_size h.p_lt a.w (fixedDraw q)
    (fixedDraw_small q) rnd a.q h.q_size a.S a.N h.S_size
  rw [← hdt, h1, Ok_ok] at h2
  simpa only [randComb_fixed q a.A a.p a.n hw] using h2

omit h in
/-- The order of the combinations, the content of the memory and `rand()` do not matter. -/
theorem randomized_junk (jk jk' : Junk) (hw : a.w ≤ 0) (draw : Nat → Nat → Int) (rnd rnd' : Nat → Nat → Nat) :
    schur_dense_randomized jk a.A a.p a.n a.U a.qinv a.S a.dt a.q a.N a.w draw rnd =
    schur_dense_randomized jk' a.A a.p a.n a.U a.qinv a.S a.dt a.q a.N a.w draw rnd' := by
  unfold schur_dense_randomized random_row random_comb
  simp only [if_pos hw]
  rw [zero_fill_eq (y := mkArr a.A.m jk.int) (by simp), zero_fill_eq (y := mkArr a.A.m jk'.int) (by simp)]

/-- C72. All the runs give the same result. -/
theorem C72_same (jk jk' : Junk) {g' : RandMem} (h' : RandPre q g' a) (hw : a.w ≤ 0) {rnd rnd' : Nat → Nat → Nat}
    {o o' : Array ℚ × Array Nat} (hr : RandomRun jk g a rnd o) (hr' : RandomRun jk' g' a rnd' o') : o = o' := by
  have h1 := random_run_eq h jk hr
  have h2 := random_run_eq h' jk' hr'
  rw [randomized_junk jk jk' hw _ rnd rnd', h2] at h1
  exact (Except.ok.inj h1).symm

/-- C72. Nothing goes wrong: whatever the assignment of the combinations to the threads, each thread can do its work, no
interleaving leads to an access out of bounds, and each one can be continued to the end. -/
theorem C72_safe (jk : Junk) (rnd : Nat → Nat → Nat) {T : Nat} {ks : Fin T → List Nat}
    (hks : ∑ t, (ks t : Multiset Nat) = Multiset.range a.N) :
    ∃ qa jobs, prepare_q a.A.m a.qinv a.q = .ok qa ∧
      (∀ t, random_thread jk g a.A a.p a.n a.U a.dt qa a.w rnd (ks t) = .ok (jobs t)) ∧
      ∀ s : DSt T, DReach (dense_init a.S #[] none jobs) s →
        (∀ t r, dstep t s = some r → ∃ s', r = .ok s') ∧ ∃ s', DReach s s' ∧ s'.Finished :=
  random_run_safe h jk rnd hks

/-- A run exists. -/
theorem random_run_exists (jk : Junk) (rnd : Nat → Nat → Nat) : ∃ o, RandomRun jk g a rnd o := by
  have hks : ∑ t, ((fun _ : Fin 1 => List.range a.N) t : Multiset Nat) = Multiset.range a.N := by
    rw [Fin.sum_univ_one]; rfl
  obtain ⟨qa, jobs, h1, h2, h3⟩ := random_run_safe h jk rnd hks
  obtain ⟨-, s, h4, h5⟩ := h3 _ .init
  exact ⟨(s.S, qa), h.n_pos, 1, _, jobs, s, hks, h1, h2, h4, h5, rfl⟩

end

/-! ### The completion test -/

/-- What is required by the completion test. -/
structure TestPre (q : ℕ) (g : RandMem) (A : Csr) (p : Array Nat) (n : Nat) (U : Csr) (qinv : Array Int) (s : Nat) :
    Prop where
  A_wfv : A.WFV q
  ech : Echelon q U qinv
  m_eq : U.m = A.m
  p_size : n ≤ p.size
  p_lt : ∀ i, i < n → p.g i < A.n
  block : ∀ k, k < s → (g.ctx k).block.size = 44
  hash : ∀ k, k < s → (g.ctx k).hash.size = 32
  enough : ∀ k, k < s → ∃ M, M ≤ 8 * (2 ^ 31 - 1) ∧ M ≤ g.fuel ∧
    n ≤ Nat.count (Accepted (simpleSeed (BitVec.ofNat 64 k)) q) M

section
variable {q : ℕ} {g : RandMem} {A : Csr} {p : Array Nat} {n : Nat} {U : Csr} {qinv : Array Int} {lg2 : Dbl → Dbl} {s : Nat}
  (hs : test_samples lg2 q = .ok (s : Int)) (h : TestPre q g A p n U qinv s)
include h

theorem TestPre.rand (jk : Junk) (hn : n ≠ 0) :
    RandPre q g ⟨A, p, n, U, qinv, dense_alloc jk (s * (A.m - U.n)), datatype_choose A.F.p, mkArr (A.m - U.n) jk.nat, s, 0⟩ where
  A_wfv := h.A_wfv
  ech := h.ech
  m_eq := h.m_eq
  n_pos := Nat.pos_of_ne_zero hn
  p_size := h.p_size
  p_lt := h.p_lt
  S_size := by simp [dense_alloc]
  q_size := by simp
  block := h.block
  hash := h.hash
  enough := by simpa [randNeed] using h.enough

include hs

/-- The outcomes of the test are those of the sequential model with the fixed table of random numbers. -/
theorem test_run_eq (jk : Junk) {env : Env} {b : Bool} (hr : TestRun jk g env.ff lg2 A p n U qinv b) :
    test_completion jk { env with samples := s, draw := fixedDraw q } A p n U qinv = .ok b := by
  obtain ⟨k, hk, hr⟩ := hr
  unfold test_completion
  rw [hk]
  show (if n = 0 ∨ k = 0 then _ else _) = _
  by_cases h0 : n = 0 ∨ k = 0
  · rw [if_pos h0] at hr ⊢
    rw [hr]
  · rw [if_neg h0] at hr ⊢
    obtain ⟨Sn, Sm, o, rnd, h1, h2, h3, h4⟩ := hr
    rw [h.A_wfv.good.p_eq, hs] at h1
    obtain rfl : (s : Int) = Sn := Except.ok.inj h1
    rw [Int.toNat_natCast] at h3 h4
    have hle : U.n ≤ A.m := by rw [← h.m_eq]; exact h.ech.n_le
    rw [csub_ok hle] at h2
    obtain rfl : A.m - U.n = Sm := Except.ok.inj h2
    have h5 := random_run_eq (h.rand jk (by tauto)) jk h3
    have h6 := (randomized_junk (a := ⟨A, p, n, U, qinv, dense_alloc jk (s * (A.m - U.n)), datatype_choose A.F.p,
      mkArr (A.m - U.n) jk.nat, s, 0⟩) jk jk (le_refl _) (fixedDraw q) (fun _ _ => 0) rnd).trans h5
    unfold test_sample
    rw [csub_ok hle]
    simp only [] at h6
    show (schur_dense_randomized jk A p n U qinv (dense_alloc jk (s * (A.m - U.n))) (datatype_choose A.F.p)
      (mkArr (A.m - U.n) jk.nat) s 0 (fixedDraw q) fun _ _ => 0).bind _ = _
    rw [h6, h4]
    rfl

/-- C72. The completion test says "complete" exactly if the fixed combinations are in the row space of `U`. -/
theorem C72_test [Fact q.Prime] (jk : Junk) {ff : Ffpack} (hff : ff.Correct q) {b : Bool}
    (hr : TestRun jk g ff lg2 A p n U qinv b) : b = true ↔ ∀ k, k < s → fixedComb q A p n k ∈ U.rowSpace q := by
  have hne : NeZero q := ⟨(Fact.out : q.Prime).ne_zero⟩
  let env : Env :=
    { greedy := fun _ _ _ _ => .error .ub, schur := fun _ _ => .error .ub, dense := fun _ _ => .error .ub,
      ff := ff, draw := fixedDraw q, rand := fun _ _ _ => 0, samples := s, few := fun _ => false, thick := fun _ => false,
      size := fun _ => 1, skinny := false, full := false, yield := fun _ => false, less := fun _ => false, weight := 1,
      fuel := 10 }
  have h1 := test_run_eq hs h jk (env := env) hr
  have h2 := test_completion_spec jk h.A_wfv h.ech h.m_eq h.p_size h.p_lt (env := env) (fixedDraw_small q) hff
  have h3 : test_completion jk env A p n U qinv = .ok b := h1
  rw [h3, Ok_ok] at h2
  rw [h2]
  unfold Tested
  simp only [env, fixedDraw_cast]
  rfl

/-- There is an outcome. -/
theorem test_run_exists (jk : Junk) (ff : Ffpack) : ∃ b, TestRun jk g ff lg2 A p n U qinv b := by
  by_cases h0 : n = 0 ∨ A.p.g A.n = 0
  · exact ⟨true, A.p.g A.n, nnz_ok h.A_wfv.toWF, by rw [if_pos h0]⟩
  · obtain ⟨o, ho⟩ := random_run_exists (h.rand jk (by tauto)) jk fun _ _ => 0
    have hle : U.n ≤ A.m := by rw [← h.m_eq]; exact h.ech.n_le
    refine ⟨decide ((ff.rref A.F.p s (A.m - U.n) o.1).1 = 0), A.p.g A.n, nnz_ok h.A_wfv.toWF, ?_⟩
    rw [if_neg h0]
    refine ⟨s, A.m - U.n, o, fun _ _ => 0, by rw [h.A_wfv.good.p_eq]; exact hs, csub_ok hle, ?_, rfl⟩
    rw [Int.toNat_natCast]
    exact ho

end

/-! ### A matrix that the test takes for zero -/

/-- For each prime, and each number of combinations, a matrix of rank one such that all the fixed combinations of its rows
are zero. -/
theorem C72_blind (q : ℕ) [Fact q.Prime] (hq : q ≤ 0xfffffffb) (s : Nat) :
    ∃ A : Csr, A.WFV q ∧ A.NoDup ∧ A.NoZero ∧ A.n = s + 12 ∧ A.m = 1 ∧ (A.toMat q).rank = 1 ∧
      (∀ i, i < 11 → A.entry q i = 0) ∧
      ∀ p : Array Nat, (∀ i, i < s + 12 → p.g i = i) → ∀ k, k < s → fixedComb q A p (s + 12) k = 0 := by
  have hg := good_ofPrime q (Fact.out : q.Prime).two_le hq
  obtain ⟨v, v1, v2, ⟨i, i1, i2⟩, v4⟩ := blind_vector q (fun k i => challenge (simpleSeed (BitVec.ofNat 64 k)) q i) s
  have hwf := colCsr_wfv hg (N := s + 12) v1
  refine ⟨colCsr (Field.ofPrime q) (s + 12) v, hwf, colCsr_nodup, colCsr_nozero, rfl, rfl, ?_, ?_, ?_⟩
  · apply le_antisymm
    · exact Matrix.rank_le_width ((colCsr (Field.ofPrime q) (s + 12) v).toMat q : Matrix (Fin (s + 12)) (Fin 1) (ZMod q))
    · rw [Nat.one_le_iff_ne_zero]
      intro h0
      have h1 := finrank_rowSpace (q := q) hwf.toWF
      rw [h0] at h1
      have hfd : Module.Finite (ZMod q) ((colCsr (Field.ofPrime q) (s + 12) v).rowSpace q) := by
        unfold Csr.rowSpace
        infer_instance
      have h2 : (colCsr (Field.ofPrime q) (s + 12) v).rowSpace q = ⊥ := Submodule.finrank_eq_zero.1 h1
      have h3 : (colCsr (Field.ofPrime q) (s + 12) v).entry q i ∈ (colCsr (Field.ofPrime q) (s + 12) v).rowSpace q := by
        unfold Csr.rowSpace
        exact mem_spanOf i1
      rw [h2, Submodule.mem_bot] at h3
      have h4 := congrFun h3 0
      rw [colCsr_entry i1] at h4
      exact i2 (by simpa using h4)
  · intro i hi
    ext c
    rw [colCsr_entry (by omega), v2 i hi]
    simp
  · intro p hp k hk
    ext c
    unfold fixedComb
    by_cases hc : c = 0
    · subst hc
      refine (sum_congr rfl fun i hi => ?_).trans (v4 k hk)
      rw [hp i (mem_range.1 hi), colCsr_entry (mem_range.1 hi), if_pos rfl]
    · refine sum_eq_zero fun i hi => ?_
      rw [hp i (mem_range.1 hi), colCsr_entry (mem_range.1 hi), if_neg hc, mul_zero]

/-- C72. For each prime, a matrix of rank one of which `spasm_echelonize` always finds that the rank is zero, with GPLU and
without structural pivots, if the random numbers are those that the completion test really uses (`test_run_eq`). -/
theorem C72_rank (q : ℕ) [Fact q.Prime] (hq : q ≤ 0xfffffffb) :
    ∃ A : Csr, A.WFV q ∧ A.NoDup ∧ A.NoZero ∧ (A.toMat q).rank = 1 ∧
      ∀ (jk : Junk) (env : Env) (opts : Opts) (lg2 : Dbl → Dbl), Log2 lg2 → test_samples lg2 q = .ok env.samples →
        env.Possible q → env.draw = fixedDraw q →
        opts.max_round = 0 → opts.gplu = true → opts.dense = false → opts.tall = false → opts.L = false →
        opts.complete = false → Ok (echelonize jk env opts A) (fun f => f.r = 0 ∧ f.U.n = 0) := by
  obtain ⟨A, a1, a2, a3, a4, a5, a6, a7, a8⟩ := C72_blind q hq 130
  refine ⟨A, a1, a2, a3, a6, ?_⟩
  intro jk env opts lg2 hlg hsamp henv hdraw hr hgp hd ht hL hc
  have hsamp : env.samples ≤ 130 := by
    have := test_samples_ok hlg (Fact.out : q.Prime).two_le (by omega)
    rw [hsamp, Ok_ok] at this
    omega
  have e : opts.norm = opts := by
    cases opts; simp_all [Opts.norm]
  obtain ⟨f, hf, f1, f2, f3, f4⟩ := Ok_iff.1 (echelonize_init_spec (q := q) (opts := opts) jk a1)
  have hLt : f.Ltmp = none := by
    rw [hL] at f4
    exact Option.not_isSome_iff_eq_none.1 (by rw [f4]; decide)
  unfold echelonize
  simp only
  rw [e, hf, Ok_bind, Ok_ok, hr]
  rw [show forBrk 0 0 (⟨A, A.n, none, mkArr A.n jk.nat, 0, f, 0⟩ : Driver) (fun round s => echelonize_round jk env opts round s)
    = .ok (0, ⟨A, A.n, none, mkArr A.n jk.nat, 0, f, 0⟩) from rfl, Ok_bind, Ok_ok, Ok_bind]
  have hp : ∀ i, i < A.n → (shift (mkArr A.n fun i => i) 0).g i = i := by
    intro i hi
    rw [g_shift (by simpa using hi), g_mkArr _ _ _ (by omega), Nat.zero_add]
  have key : Ok (gplu jk A (shift (mkArr A.n fun i => i) 0) A.n none f
      fun U qinv => test_completion jk env A (shift (mkArr A.n fun i => i) 0) A.n U qinv) (fun f =>
      Held q opts A f A.n ∧ f.U.n = 0) := by
    refine (gplu_blind jk a1 (p := shift (mkArr A.n fun i => i) 0) (n := A.n) (by omega) (by omega) (by simp)
      (fun k hk => by rw [hp k hk]; exact hk) (fun i hi => by rw [hp i (by omega)]; exact a7 i hi) (by omega) (old := 0)
      (complete := opts.complete) ?_ hLt f2 ?_).mono ?_
    · rw [← hLt]
      exact f1.rename (fun t ht => by rw [hp t ht]) (fun t ht => hp t ht)
    · intro U qinv hE hm hU
      obtain ⟨b, b1, b2⟩ := Ok_iff.1 (test_completion_spec jk a1 hE hm (p := shift (mkArr A.n fun i => i) 0) (n := A.n)
        (by simp) (fun k hk => by rw [hp k hk]; exact hk) henv.draw henv.ff)
      rw [b1, b2.2]
      intro k hk
      rw [hdraw]
      simp only [fixedDraw_cast]
      have := a8 (shift (mkArr A.n fun i => i) 0) (fun i hi => hp i (by omega)) k (by omega)
      rw [← a4] at this
      have h0 : (fun c => ∑ i ∈ range A.n, challenge (simpleSeed (BitVec.ofNat 64 k)) q i *
          A.entry q ((shift (mkArr A.n fun i => i) 0).g i) c) = 0 := this
      rw [h0]
      exact Submodule.zero_mem _
    · rintro g ⟨g1, g2, g3, g4⟩
      refine ⟨⟨g4.trans f3, g.Ltmp, _, _, _, g1, ?_, rfl⟩, g3⟩
      rw [g2, hL]; rfl
  have hrest : Ok (echelonize_rest jk env opts ⟨A, A.n, none, mkArr A.n jk.nat, 0, f, 0⟩) (fun f =>
      Held q opts A f A.n ∧ f.U.n = 0) := by
    unfold echelonize_rest
    rw [if_neg (by simp), if_pos rfl]
    unfold echelonize_finish
    simp only
    rw [csub_ok (Nat.zero_le _), Ok_bind, Ok_ok, if_neg (by simp [ht]), if_neg (by simp [hd]), if_pos hgp]
    exact key
  refine hrest.mono ?_
  rintro f' ⟨h1, h2⟩
  refine (cleanup_held jk h1).mono ?_
  rintro g ⟨g1, g2, g3, g4, -⟩
  have : g.U.n = 0 := by
    have h3 := g1.rank
    have h4 : f'.U.rowSpace q = ⊥ := by
      unfold Csr.rowSpace
      rw [h2, spanOf_zero]
    rw [g4, h4, finrank_bot] at h3
    exact h3.symm
  exact ⟨g3.trans this, this⟩

/-! ### Concrete cases -/

/-- Memory. -/
def exMem : RandMem := ⟨default, default, fun _ => exPrng, 8 * (2 ^ 31 - 1)⟩

/-- Two combinations of the rows 1 and 0 of `exB` modulo 7; two pivots. -/
def exRand : RandIn := ⟨exB, #[1, 0], 2, exU, exUqinv, #[9, 9, 9, 9, 9], datatype_choose 7, #[8, 8, 8], 2, 0⟩

theorem exRand_enough {q : ℕ} (h2 : 2 ≤ q) (hq : q ≤ 0xfffffffb) (k : Nat)
    (h : (match (do let c ← prng_seed_simple default default q (BitVec.ofNat 64 k) 0 exPrng; drawMany default 20 2 c) with
      | .ok _ => true
      | .error _ => false) = true) : ∃ M, M ≤ 8 * (2 ^ 31 - 1) ∧
    2 ≤ Nat.count (Accepted (simpleSeed (BitVec.ofNat 64 k)) q) M := by
  have h1 := seed_simple_spec default default q (BitVec.ofNat 64 k) 0 exPrng h2 hq (by simp [exPrng]) (by simp [exPrng])
  rw [Ok_iff] at h1
  obtain ⟨ctx, h1, h2⟩ := h1
  rw [h1] at h
  cases h4 : drawMany default 20 2 ctx with
  | ok c => exact count_of_run (by simp [simpleSeed, Fips.bytes]) h2 h4
  | error e =>
    have : (do let c ← (.ok ctx : C Prng); drawMany default 20 2 c) = drawMany default 20 2 ctx := rfl
    rw [this, h4] at h
    simp at h

theorem exRand_pre : RandPre 7 exMem exRand where
  A_wfv := exB_wfv
  ech := exU_echelon
  m_eq := rfl
  n_pos := by decide
  p_size := by decide
  p_lt := by decide
  S_size := by decide
  q_size := by decide
  block := by simp [exMem, exPrng]
  hash := by simp [exMem, exPrng]
  enough := by
    intro k hk
    have hk : k < 2 := hk
    obtain ⟨M, h1, h2⟩ : ∃ M, M ≤ 8 * (2 ^ 31 - 1) ∧ 2 ≤ Nat.count (Accepted (simpleSeed (BitVec.ofNat 64 k)) 7) M := by
      interval_cases k
      · exact exRand_enough (by decide) (by decide) 0 (by decide +kernel)
      · exact exRand_enough (by decide) (by decide) 1 (by decide +kernel)
    exact ⟨M, h1, h1, h2⟩

example : ∃ o, RandomRun default exMem exRand (fun _ _ => 0) o := random_run_exists exRand_pre _ _

/-- The default prime of the tools. -/
instance : Fact (Nat.Prime 42013) := ⟨by norm_num⟩

/-- A matrix with two rows and one column. -/
noncomputable def exTwoOne : Csr := colCsr (Field.ofPrime 42013) 2 fun i => (i % 2 : Nat)

theorem exTwoOne_wfv : exTwoOne.WFV 42013 :=
  colCsr_wfv (good_ofPrime _ (by decide) (by decide)) fun i => by
    unfold Small
    omega

/-- The test with no row of `U`: 9 combinations. -/
theorem exTest_pre {U : Csr} {qinv : Array Int} (hE : Echelon 42013 U qinv) (hm : U.m = exTwoOne.m) :
    TestPre 42013 exMem exTwoOne #[0, 1] 2 U qinv 9 where
  A_wfv := exTwoOne_wfv
  ech := hE
  m_eq := hm
  p_size := by decide
  p_lt := by
    show ∀ i, i < 2 → (#[0, 1] : Array Nat).g i < 2
    decide
  block := by simp [exMem, exPrng]
  hash := by simp [exMem, exPrng]
  enough := by
    intro k hk
    obtain ⟨M, h1, h2⟩ : ∃ M, M ≤ 8 * (2 ^ 31 - 1) ∧
        2 ≤ Nat.count (Accepted (simpleSeed (BitVec.ofNat 64 k)) 42013) M := by
      interval_cases k
      · exact exRand_enough (by decide) (by decide) 0 (by decide +kernel)
      · exact exRand_enough (by decide) (by decide) 1 (by decide +kernel)
      · exact exRand_enough (by decide) (by decide) 2 (by decide +kernel)
      · exact exRand_enough (by decide) (by decide) 3 (by decide +kernel)
      · exact exRand_enough (by decide) (by decide) 4 (by decide +kernel)
      · exact exRand_enough (by decide) (by decide) 5 (by decide +kernel)
      · exact exRand_enough (by decide) (by decide) 6 (by decide +kernel)
      · exact exRand_enough (by decide) (by decide) 7 (by decide +kernel)
      · exact exRand_enough (by decide) (by decide) 8 (by decide +kernel)
    exact ⟨M, h1, h1, h2⟩

/-- 9 combinations modulo this prime. -/
theorem exLog2_large {lg2 : Dbl → Dbl} (h : Log2 lg2) : test_samples lg2 42013 = .ok 9 := by
  obtain ⟨s, hs, h1, h2, h3, h4⟩ := Ok_iff.1 (C67_samples h (q := 42013) (by decide) (by decide))
  refine hs.trans (congrArg _ ?_)
  obtain ⟨s, rfl⟩ := Int.eq_ofNat_of_zero_le h1.le
  rw [Int.toNat_natCast] at h3 h4
  have g1 : 9 ≤ s := by
    by_contra hh
    have : 42013 ^ s ≤ 42013 ^ 8 := Nat.pow_le_pow_right (by decide) (by omega)
    exact absurd (h3.trans this) (by decide)
  have g2 : s ≤ 9 := by
    by_contra hh
    have : 42013 ^ 9 ≤ 42013 ^ (s - 1) := Nat.pow_le_pow_right (by decide) (by omega)
    exact absurd (this.trans h4) (by decide)
  omega

example : ∃ lg2 ff U qinv b, Log2 lg2 ∧ Echelon 42013 U qinv ∧ U.n = 0 ∧
    TestRun default exMem ff lg2 exTwoOne #[0, 1] 2 U qinv b ∧
    (b = true ↔ ∀ k, k < 9 → fixedComb 42013 exTwoOne #[0, 1] 2 k ∈ U.rowSpace 42013) := by
  obtain ⟨lg2, h⟩ := exLog2
  obtain ⟨ff, hff⟩ := C30_library 42013 Fact.out
  obtain ⟨f, -, f1, f2, -⟩ := Ok_iff.1 (echelonize_init_spec (q := 42013) (opts := exThree) default exTwoOne_wfv)
  have hp := exTest_pre f1.ech f1.m_eq
  obtain ⟨b, hb⟩ := test_run_exists (exLog2_large h) hp default ff
  exact ⟨lg2, ff, f.U, f.qinv, b, h, f1.ech, f2, hb, C72_test (exLog2_large h) hp default hff hb⟩

/-- The random numbers really used, modulo 7. -/
noncomputable def exFixed : Env := { exChoices with draw := fixedDraw 7 }

theorem exFixed_draw : (exFixed.pick default exFf).draw = fixedDraw 7 := rfl

/-- A call with these numbers that returns 0 for a matrix of rank 1. -/
example : ∃ A : Csr, (A.toMat 7).rank = 1 ∧
    Ok (echelonize default (exFixed.pick default exFf) { exThree with max_round := 0 } A) (fun f => f.r = 0) := by
  obtain ⟨lg2, h⟩ := exLog2
  obtain ⟨A, -, -, -, a1, a2⟩ := C72_rank 7 (by decide)
  have henv : (exFixed.pick default exFf).Possible 7 := C27_env _ _ exFixed (fixedDraw_small 7) _ exFf_correct
  have := a2 default (exFixed.pick default exFf) { exThree with max_round := 0 } lg2 h (exLog2_seven h) henv exFixed_draw
    rfl rfl rfl rfl rfl rfl
  exact ⟨A, a1, this.mono fun f hf => hf.1⟩

end Spasm
