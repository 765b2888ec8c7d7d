import Verif.Proofs.DenseRand
import Verif.Props.Datatype
import Verif.Props.Solve
import Mathlib.Tactic.LinearCombination
import Mathlib.Tactic.IntervalCases

/-
C29: dense Schur complements.
-/

namespace Spasm

open Finset

/-- Residues are exactly representable in the datatype chosen. -/
theorem conv_bal {q : ℕ} (hq : q ≤ 0xfffffffb) {v : Int} (hv : Bal q v) :
    (datatype_choose q).conv v = (v : ℚ) := by
  have he := (C42_product q hq 0 0 v (small_zero q) (small_zero q) hv.small).1
  rwa [mul_zero, zero_add] at he

/-- C29 (safety). Under the documented preconditions, whatever the number of threads and the
assignment of the rows: the preparation of the threads succeeds; in every reachable state no step
fails; as long as some thread is not done, some thread can proceed, and the run can be completed. -/
theorem C29_safe (jk : Junk) (q : ℕ) (a : DenseIn) (h : DensePre q a) (T : Nat)
    (ks : Fin T → List Nat) (hks : ∑ t, (ks t : Multiset Nat) = Multiset.range a.n) :
    ∃ qa L1 jobs, prepare_q a.A.m a.qinv a.q = .ok qa ∧ schur_dense_room jk a.n a.U a.L = .ok L1 ∧
      (∀ t, schur_dense_thread jk a.A a.U a.qinv a.L.isSome a.p_in a.dt qa a.p (ks t) = .ok (jobs t)) ∧
      ∀ s : DSt T, DReach (dense_init a.S a.p_out L1 jobs) s →
        (∀ t r, dstep t s = some r → ∃ s', r = .ok s') ∧
        (¬ s.Finished → ∃ t s', dstep t s = some (.ok s')) ∧
        ∃ s', DReach s s' ∧ s'.Finished :=
  schur_dense_safe jk h hks

/-- C29 (result). Whatever the threads and the schedule: `q` lists the columns without pivot in
increasing order; row `k` of `S` contains, exactly, balanced residues which are the coordinates on
these columns of row `p[k]` of `A` minus a combination `ℓ k` of the rows of `U`, and this vector
vanishes on the pivotal columns; cells beyond the `n` rows are not touched.  `p_out` tells the original
rows, and the coefficients `ℓ k` are what is added to these rows of `L` (with no entry for zero
coefficients). -/
theorem C29_dense (jk : Junk) (q : ℕ) (a : DenseIn) (h : DensePre q a) (hdt : a.dt = datatype_choose q)
    (o : DenseOut) (hrun : SchurDenseRun jk a o) :
    IsQ a.qinv a.A.m (a.A.m - a.U.n) o.q ∧
    (∃ (v : Nat → Nat → Int) (ℓ : Nat → Nat → ZMod q),
      (∀ k, k < a.n → (∀ t, t < a.A.m - a.U.n → Bal q (v k t) ∧
          o.S.g (k * (a.A.m - a.U.n) + t) = (v k t : ℚ)) ∧
        Reduced q a.U (a.A.entry q (a.p.g k)) (ℓ k)
          (onCols o.q (a.A.m - a.U.n) fun t => (v k t : ZMod q))) ∧
      (∀ Z, a.L = some Z → ∃ Z', o.L = some Z' ∧ Z'.n = Z.n ∧ Z'.m = Z.m ∧ Z'.F = Z.F ∧
        (Z.WFV q → Z'.WFV q) ∧
        (∀ i c, Z'.Has i c → Z.Has i c ∨ ∃ k, k < a.n ∧ o.p_out.g k = i ∧ c < a.U.n ∧ ℓ k c ≠ 0) ∧
        ∀ i c, Z'.sum q i c = Z.sum q i c +
          ∑ k ∈ range a.n, if o.p_out.g k = i then ℓ k c else 0)) ∧
    o.S.size = a.S.size ∧ (∀ i, a.n * (a.A.m - a.U.n) ≤ i → o.S.g i = a.S.g i) ∧
    o.p_out.size = a.p_out.size ∧ (∀ k, k < a.n → o.p_out.g k = permFun a.p_in (a.p.g k)) ∧
    (∀ k, a.n ≤ k → o.p_out.g k = a.p_out.g k) ∧ (a.L = none → o.L = none) := by
  obtain ⟨f, hr⟩ := schur_dense_result jk h hrun
  have hG := h.pre.A_wfv.good
  have hq := hG.le_max
  refine ⟨hr.q_ok, ⟨fun k t => (f k).1 (o.q.g t), fun k => lsum q (f k).2, ?_, ?_⟩, hr.S_size, hr.rest,
    hr.out_size, hr.out, hr.out_rest, hr.L_none⟩
  · intro k hk
    refine ⟨?_, hr.reduced h hk⟩
    intro t ht
    have hb := (hr.rows k hk).bal _ (hr.q_ok.lt t ht) (hr.q_ok.neg t ht)
    refine ⟨hb, ?_⟩
    rw [hr.cell k t hk ht, hdt, conv_bal hq hb]
  · intro Z hZ
    obtain ⟨Z', l, e1, e2, e3, e4, e5, e6, e7, e8, e9⟩ := hr.L_some Z hZ
    obtain ⟨-, -, w3, w4⟩ := h.pre.L_wf Z hZ
    refine ⟨Z', e1, e2, e3, e4, ?_, ?_, ?_⟩
    · intro hw
      refine Triplet.wfv_of_lst e5 e6 (by rw [e4]; exact hw.good) (by rw [e4]; exact hw.field_ok) ?_
      intro e he
      rw [e8, List.mem_append] at he
      rcases he with he | he
      · rw [e2, e3]; exact hw.lst_ok e he
      · obtain ⟨k, f1, f2, f3, f4, f5, -⟩ := hr.mem e9 he
        rw [hr.out k f1] at f2
        have := w4 k f1
        exact ⟨by omega, by omega, f4, f5⟩
    · intro i c hh
      obtain ⟨e, he, rfl, rfl⟩ := (Triplet.has_iff _ _ _).1 hh
      rw [e8, List.mem_append] at he
      rcases he with he | he
      · exact .inl ((Triplet.has_iff _ _ _).2 ⟨e, he, rfl, rfl⟩)
      · obtain ⟨k, f1, f2, f3, f4, f5, f6⟩ := hr.mem e9 he
        refine .inr ⟨k, f1, f2, f3, ?_⟩
        simp only
        rw [f6]
        intro h0
        exact f5 ((small_eq_zero_iff hG.two_le f4.small).1 h0)
    · intro i c
      rw [Triplet.sum_eq, e8, tsum_append, ← Triplet.sum_eq, hr.sum e9]

/-- C29 (uniqueness). The vector that remains is determined by the row of `A` and `U`. -/
theorem C29_unique (q : ℕ) (U : Csr) (qinv : Array Int) (hE : Echelon q U qinv)
    (v ℓ ℓ' w w' : Nat → ZMod q) (h : Reduced q U v ℓ w) (h' : Reduced q U v ℓ' w') : w = w' := by
  have := Reduced.zero_of_mem hE (v := 0) (ℓ := fun i => ℓ i - ℓ' i) (w := w - w') ?_
    (Submodule.zero_mem _)
  · exact sub_eq_zero.mp this
  · refine ⟨fun i hi => by simp [h.zero i hi, h'.zero i hi], fun c => ?_⟩
    have h1 := h.eq c
    have h2 := h'.eq c
    simp only [sub_mul, Finset.sum_sub_distrib, Pi.sub_apply, Pi.zero_apply]
    rw [h1] at h2
    linear_combination -h2

/-- C29 (randomized). For every weight, every sequence of random residues and every sequence of values
of `rand()`, the computation succeeds; row `k` of `S` contains, exactly, the coordinates on the columns
without pivot of a random combination of the rows `p[0..n)` of `A` minus a combination of the rows of
`U`, and this vector vanishes on the pivotal columns. -/
theorem C29_randomized (jk : Junk) (q : ℕ) (A U : Csr) (qinv : Array Int) (hA : A.WFV q)
    (hE : Echelon q U qinv) (hm : U.m = A.m) (p : Array Nat) (n : Nat) (hn : 0 < n)
    (hp : n ≤ p.size) (hpn : ∀ i, i < n → p.g i < A.n) (w : Int) (draw : Nat → Nat → Int)
    (hd : ∀ k i, Small q (draw k i)) (rnd : Nat → Nat → Nat) (qa : Array Nat)
    (hqa : A.m - U.n ≤ qa.size) (S : Array ℚ) (N : Nat) (hS : N * (A.m - U.n) ≤ S.size) :
    Ok (schur_dense_randomized jk A p n U qinv S (datatype_choose q) qa N w draw rnd) (fun o =>
      IsQ qinv A.m (A.m - U.n) o.2 ∧ o.1.size = S.size ∧
      (∀ i, N * (A.m - U.n) ≤ i → o.1.g i = S.g i) ∧
      ∃ (v : Nat → Nat → Int) (ℓ : Nat → Nat → ZMod q), ∀ k, k < N →
        (∀ t, t < A.m - U.n → Bal q (v k t) ∧ o.1.g (k * (A.m - U.n) + t) = (v k t : ℚ)) ∧
        Reduced q U (randComb q A p n w (draw k) (rnd k)) (ℓ k)
          (onCols o.2 (A.m - U.n) fun t => (v k t : ZMod q))) := by
  refine (schur_dense_randomized_spec jk hA hE hm hn hp hpn w hd rnd hqa _ hS).mono ?_
  rintro o ⟨h1, -, h3, h4, v, ℓ, h5⟩
  refine ⟨h1, h3, h4, v, ℓ, fun k hk => ?_⟩
  obtain ⟨g1, g2, g3⟩ := h5 k hk
  refine ⟨fun t ht => ⟨g1 t ht, ?_⟩, g3⟩
  rw [g2 t ht, conv_bal hA.good.le_max (g1 t ht)]

/-- C29 (completion). If the rows `p[0..n)` of `A` are in the row space of `U`, all the rows sampled
are zero. -/
theorem C29_zero (jk : Junk) (q : ℕ) (A U : Csr) (qinv : Array Int) (hA : A.WFV q)
    (hE : Echelon q U qinv) (hm : U.m = A.m) (p : Array Nat) (n : Nat) (hn : 0 < n)
    (hp : n ≤ p.size) (hpn : ∀ i, i < n → p.g i < A.n)
    (hspan : ∀ i, i < n → A.entry q (p.g i) ∈ U.rowSpace q) (w : Int) (draw : Nat → Nat → Int)
    (hd : ∀ k i, Small q (draw k i)) (rnd : Nat → Nat → Nat) (qa : Array Nat)
    (hqa : A.m - U.n ≤ qa.size) (S : Array ℚ) (N : Nat) (hS : N * (A.m - U.n) ≤ S.size) :
    Ok (schur_dense_randomized jk A p n U qinv S (datatype_choose q) qa N w draw rnd) (fun o =>
      ∀ i, i < N * (A.m - U.n) → o.1.g i = 0) := by
  refine (C29_randomized jk q A U qinv hA hE hm p n hn hp hpn w draw hd rnd qa hqa S N hS).mono ?_
  rintro o ⟨h1, -, -, v, ℓ, h5⟩ i hi
  have hSm : 0 < A.m - U.n := Nat.pos_of_ne_zero fun e => by rw [e] at hi; omega
  have e := Nat.div_add_mod i (A.m - U.n)
  have hk : i / (A.m - U.n) < N := (Nat.div_lt_iff_lt_mul hSm).2 hi
  have ht := Nat.mod_lt i hSm
  obtain ⟨g1, g2⟩ := h5 _ hk
  obtain ⟨b1, b2⟩ := g1 _ ht
  have hz := g2.zero_of_mem hE (randComb_mem hn w _ _ hspan)
  have hz' := congrFun hz (o.2.g (i % (A.m - U.n)))
  rw [onCols_q h1 _ ht] at hz'
  have := (small_eq_zero_iff hA.good.two_le b1.small).1 hz'
  rw [this, Nat.mul_comm, e] at b2
  simpa using b2

/-! ### A concrete case -/

/-- Rows 1 and 0 of `exB` modulo 7, two pivots in columns 1 and 0, buffers larger than needed. -/
def exDense : DenseIn :=
  { A := exB, p := #[1, 0], n := 2, p_in := some #[3, 0], U := exU, qinv := exUqinv, L := some exZ,
    S := #[9, 9, 9, 9, 9], dt := datatype_choose 7, q := #[8, 8, 8], p_out := #[9, 9] }

theorem exDense_pre : DensePre 7 exDense where
  pre :=
    { A_wfv := exB_wfv
      ech := exU_echelon
      m_eq := rfl
      p_size := by decide
      p_lt := by decide
      in_size := by intro a ha; cases ha; decide
      out_size := by decide
      L_wf := by
        rintro Z hZ
        cases hZ
        exact ⟨exZ_wf, rfl, by decide, by decide⟩ }
  S_size := by decide
  q_size := by decide

/-- With two threads, a run exists. -/
theorem exDense_run (jk : Junk) : ∃ o, SchurDenseRun jk exDense o := by
  have hrows : ∑ t, ((fun t : Fin 2 => if t = 0 then [1] else [0]) t : Multiset Nat) =
      Multiset.range exDense.n := by
    rw [Fin.sum_univ_two]; decide
  obtain ⟨qa, L1, jobs, h1, h2, h3, h4⟩ := C29_safe jk 7 exDense exDense_pre 2 _ hrows
  obtain ⟨-, -, s, h5, h6⟩ := h4 _ .init
  exact ⟨⟨s.S, qa, s.po, L1.map s.toTriplet⟩, 2, _, jobs, L1, s, hrows, h1, h2, h3, h5, h6, rfl, rfl, rfl⟩

/-- One combination of both rows; then two combinations with weight 2, the second of which uses the same
row twice. -/
example :
    schur_dense_randomized default exB #[1, 0] 2 exU exUqinv #[9, 9, 9] (datatype_choose 7)
      #[8, 8, 8] 1 0 (fun _ i => if i = 0 then 2 else -1) (fun _ _ => 0) = .ok (#[-2, -3, 9], #[2, 3, 8]) ∧
    schur_dense_randomized default exB #[1, 0] 2 exU exUqinv #[9, 9, 9, 9, 9] (datatype_choose 7)
      #[8, 8, 8] 2 2 (fun _ _ => 2) (fun k i => if k = 0 then i else 3) =
      .ok (#[-3, -1, -1, 2, 9], #[2, 3, 8]) := by
  decide +kernel

/-- Rows in the row space of `U`: row 1 of `exB` is row 0 of `exU`. -/
example : exB.entry 7 1 ∈ exU.rowSpace 7 := by
  have : exB.entry 7 1 = exU.entry 7 0 := by
    ext c
    by_cases hc : c < 4
    · interval_cases c <;> decide +kernel
    · rw [exB_wfv.toWF.entry_ge (by decide) (by change 4 ≤ c; omega),
        exU_wfv.toWF.entry_ge (by decide) (by change 4 ≤ c; omega)]
  rw [this]
  exact mem_spanOf (by decide)

end Spasm
