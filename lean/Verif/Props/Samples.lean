import Verif.Proofs.Samples
import Verif.Proofs.SamplesRun

/-
C67: the probability that the completion test errs.

The random numbers of `spasm_echelonize_test_completion` are those of a table of residues, and the tables for
which something goes wrong are counted.
-/

namespace Spasm

open Finset

/-- The random numbers of a table. -/
def tableDraw {q s m : ℕ} (d : Fin s → Fin m → ZMod q) (k i : Nat) : Int :=
  if h : k < s ∧ i < m then (d ⟨k, h.1⟩ ⟨i, h.2⟩).valMinAbs else 0

theorem tableDraw_small {q s m : ℕ} [NeZero q] (d : Fin s → Fin m → ZMod q) (k i : Nat) :
    Small q (tableDraw d k i) := by
  unfold tableDraw Small
  split
  · next h =>
    have := ZMod.valMinAbs_mem_Ioc (d ⟨k, h.1⟩ ⟨i, h.2⟩)
    rw [Set.mem_Ioc] at this
    omega
  · omega

theorem tableDraw_cast {q s m : ℕ} (d : Fin s → Fin m → ZMod q) (k : Fin s) (i : Fin m) :
    ((tableDraw d k i : Int) : ZMod q) = d k i := by
  unfold tableDraw
  rw [dif_pos ⟨k.isLt, i.isLt⟩, ZMod.coe_valMinAbs]

/-- C67. The number `s` of random combinations is positive, at most 130, and such that `p ^ s ≥ 2 ^ 128`, in spite of
the rounding errors; it is the least possible, up to one. -/
theorem C67_samples {lg2 : Dbl → Dbl} (h : Log2 lg2) {q : ℕ} (h2 : 2 ≤ q) (hq : q < 2 ^ 32) :
    Ok (test_samples lg2 q) (fun s => 0 < s ∧ s ≤ 130 ∧ 2 ^ 128 ≤ q ^ s.toNat ∧ q ^ (s.toNat - 1) ≤ 2 ^ 128) :=
  test_samples_ok h h2 hq

/-- The tables which pass the test. -/
theorem tested_card (q : ℕ) [Fact q.Prime] (env : Env) (B : Csr) (p : Array Nat) {n m s : Nat} (hn : n ≤ m)
    (hs : env.samples = s) (U : Csr) (h : ∃ t, t < n ∧ B.entry q (p.g t) ∉ U.rowSpace q) :
    Set.ncard {d : Fin s → Fin m → ZMod q | Tested q { env with draw := tableDraw d } B p n U} * q ^ s ≤
      Nat.card (Fin s → Fin m → ZMod q) := by
  have := (Fact.out : q.Prime).pos
  have hne : NeZero q := ⟨by omega⟩
  subst hs
  let φ : (Fin m → ZMod q) →ₗ[ZMod q] (Nat → ZMod q) :=
    { toFun := fun d c => ∑ i : Fin n, d (Fin.castLE hn i) * B.entry q (p.g i) c
      map_add' := fun v w => by ext c; simp [add_mul, Finset.sum_add_distrib]
      map_smul' := fun a v => by ext c; simp [Finset.mul_sum, mul_assoc] }
  let W := (U.rowSpace q).comap φ
  have hW : W ≠ ⊤ := by
    obtain ⟨t, ht, hn'⟩ := h
    intro e
    apply hn'
    have : Pi.single (M := fun _ => ZMod q) (Fin.castLE hn ⟨t, ht⟩) 1 ∈ W := by rw [e]; trivial
    have h2 : φ (Pi.single (M := fun _ => ZMod q) (Fin.castLE hn ⟨t, ht⟩) 1) ∈ U.rowSpace q := this
    convert h2 using 1
    ext c
    simp only [φ, LinearMap.coe_mk, AddHom.coe_mk]
    rw [Finset.sum_eq_single ⟨t, ht⟩]
    · simp
    · intro i _ hi
      rw [Pi.single_eq_of_ne (fun e => hi (Fin.castLE_injective hn e)), zero_mul]
    · simp
  have hlt := Submodule.finrank_lt hW
  rw [Module.finrank_fin_fun] at hlt
  have e0 : {d : Fin env.samples → Fin m → ZMod q | Tested q { env with draw := tableDraw d } B p n U} =
      {d | ∀ k, d k ∈ W} := by
    ext d
    rw [Set.mem_ofPred_eq, C27_draws, Set.mem_ofPred_eq]
    refine forall_congr' fun k => ?_
    have : (fun c => ∑ i : Fin n, ((tableDraw d k i : Int) : ZMod q) * B.entry q (p.g i) c) = φ (d k) := by
      ext c
      simp only [φ, LinearMap.coe_mk, AddHom.coe_mk]
      refine Finset.sum_congr rfl fun i _ => ?_
      rw [← tableDraw_cast d k (Fin.castLE hn i)]
      rfl
    simp only
    rw [this]
    rfl
  have e1 : Set.ncard {d : Fin env.samples → Fin m → ZMod q | ∀ k, d k ∈ W} = Nat.card W ^ env.samples := by
    rw [← Nat.card_coe_set_eq]
    rw [← Fintype.card_fin env.samples, ← Nat.card_eq_fintype_card (α := Fin env.samples), ← Nat.card_fun, Nat.card_eq_fintype_card (α := Fin env.samples), Fintype.card_fin]
    exact Nat.card_congr (Equiv.subtypePiEquivPi (p := fun (_ : Fin env.samples) d => d ∈ W))
  rw [e0, e1, natCard_submodule, Nat.card_fun, Nat.card_fun, Nat.card_zmod]
  simp only [Nat.card_eq_fintype_card, Fintype.card_fin]
  rw [← mul_pow, ← pow_succ]
  exact Nat.pow_le_pow_left (Nat.pow_le_pow_right this (by omega)) _

/-- With the number of random combinations that the code computes. -/
theorem test_completion_num_eq (jk : Junk) (env : Env) {lg2 : Dbl → Dbl} {A : Csr} {s : Int}
    (hs : test_samples lg2 A.F.p = .ok s) (p : Array Nat) (n : Nat) (U : Csr) (qinv : Array Int) :
    test_completion_num jk env lg2 A p n U qinv = test_completion jk { env with samples := s.toNat } A p n U qinv := by
  unfold test_completion_num test_completion
  rw [hs]
  rfl

section
variable (jk : Junk) {q : ℕ} [Fact q.Prime] {lg2 : Dbl → Dbl} (hlg : Log2 lg2) {A U : Csr} {qinv : Array Int}
  (hA : A.WFV q) (hE : Echelon q U qinv) (hm : U.m = A.m) {p : Array Nat} {n : Nat} (hp : n ≤ p.size)
  (hpn : ∀ i, i < n → p.g i < A.n) {env : Env} (hff : env.ff.Correct q)
include hlg hA hE hm hp hpn hff

/-- C67. If nothing remains, the test always says so. -/
theorem C67_complete (hall : ∀ t, t < n → A.entry q (p.g t) ∈ U.rowSpace q)
    (hd : ∀ k i, Small q (env.draw k i)) :
    test_completion_num jk env lg2 A p n U qinv = .ok true := by
  have hF := hA.good.p_eq
  obtain ⟨s, hs, -⟩ := Ok_iff.1 (test_samples_ok hlg (Fact.out : q.Prime).two_le (by have := hA.good.le_max; omega))
  rw [test_completion_num_eq jk env (by rw [hF]; exact hs)]
  obtain ⟨b, hb, hb'⟩ := Ok_iff.1 (test_completion_spec jk hA hE hm hp hpn (env := { env with samples := s.toNat }) hd hff)
  rw [hb, hb'.2]
  intro k _
  have : (fun c => ∑ i ∈ range n, (env.draw k i : ZMod q) * A.entry q (p.g i) c) =
      ∑ i ∈ range n, (env.draw k i : ZMod q) • A.entry q (p.g i) := by
    ext c; simp
  rw [this]
  exact Submodule.sum_mem _ fun i hi => Submodule.smul_mem _ _ (hall i (mem_range.1 hi))

/-- C67. If some row remains, the test says so, except for at most one table of random numbers out of `2 ^ 128`. -/
theorem C67_error (hrem : ∃ t, t < n ∧ A.entry q (p.g t) ∉ U.rowSpace q) :
    ∃ s : ℕ, test_samples lg2 q = .ok (s : Int) ∧
      (∀ d : Fin s → Fin n → ZMod q, ∃ b, test_completion_num jk { env with draw := tableDraw d } lg2 A p n U qinv = .ok b) ∧
      Nat.card {d : Fin s → Fin n → ZMod q //
        test_completion_num jk { env with draw := tableDraw d } lg2 A p n U qinv = .ok true} * 2 ^ 128 ≤
      Nat.card (Fin s → Fin n → ZMod q) := by
  have hF := hA.good.p_eq
  have hne : NeZero q := ⟨(Fact.out : q.Prime).ne_zero⟩
  obtain ⟨s, hs, s0, -, s1, -⟩ := Ok_iff.1 (test_samples_ok hlg (Fact.out : q.Prime).two_le (by have := hA.good.le_max; omega))
  obtain ⟨N, rfl⟩ := Int.eq_ofNat_of_zero_le s0.le
  rw [Int.toNat_natCast] at s1
  refine ⟨N, hs, ?_⟩
  have key : ∀ d : Fin N → Fin n → ZMod q, ∃ b,
      test_completion_num jk { env with draw := tableDraw d } lg2 A p n U qinv = .ok b ∧
        (b = true ↔ Tested q { env with samples := N, draw := tableDraw d } A p n U) := by
    intro d
    rw [test_completion_num_eq jk _ (by rw [hF]; exact hs)]
    exact Ok_iff.1 (test_completion_spec jk hA hE hm hp hpn
      (env := { env with samples := N, draw := tableDraw d }) (tableDraw_small d) hff)
  refine ⟨fun d => (key d).imp fun b hb => hb.1, ?_⟩
  have := tested_card q { env with samples := N } A p (le_refl n) rfl U hrem
  refine le_trans ?_ this
  refine Nat.mul_le_mul ?_ s1
  rw [← Nat.card_coe_set_eq]
  refine le_of_eq (Nat.card_congr (Equiv.subtypeEquivRight fun d => ?_))
  obtain ⟨b, hb, hb'⟩ := key d
  rw [hb, Set.mem_ofPred_eq, ← hb']
  simp

end

/-- A union bound. -/
theorem ncard_exists_le {α β : Type} [Finite α] (P : β → α → Prop) (c : ℕ) (l : List β) {N : ℕ}
    (h : ∀ b ∈ l, Set.ncard {a | P b a} * c ≤ N) : Set.ncard {a | ∃ b ∈ l, P b a} * c ≤ l.length * N := by
  induction l with
  | nil => simp
  | cons b l ih =>
    have e : {a | ∃ b' ∈ b :: l, P b' a} = {a | P b a} ∪ {a | ∃ b' ∈ l, P b' a} := by
      ext a; simp
    rw [e]
    have h1 := h b (by simp)
    have h2 := ih fun b' hb => h b' (by simp [hb])
    have h3 := Set.ncard_union_le {a | P b a} {a | ∃ b' ∈ l, P b' a}
    have h4 := Nat.mul_le_mul_right c h3
    rw [add_mul] at h4
    rw [List.length_cons, add_mul, one_mul]
    omega

/-- C67 (whole function).  The full claim: `spasm_echelonize` without `L` returns the rank and a basis of the row space,
except for at most 99 tables of random numbers out of `2 ^ 128`. Proved without the low-rank method, when the dense
method finishes the job, or when GPLU does it and either no Schur complement was computed or the number of rows is at
least twice the rank.  (Missing: the low-rank method may forget some rows whatever the random numbers, `C27_lowrank`;
after a Schur complement GPLU may stop too early whatever the random numbers, `C27_premature`.) -/
theorem C67_rank_partial (jk : Junk) (q : ℕ) [Fact q.Prime] (env : Env) (opts : Opts) (A : Csr)
    (henv : env.Possible q) (hA : A.WFV q) (hnd : A.NoDup) (hz : A.NoZero) (hb : 0 < opts.block)
    (hnull : opts.max_round ≠ 0 ∨ jk.null0 = false) (hL : opts.L = false) (hc : opts.complete = false)
    (ht : opts.tall = false)
    (hdir : (opts.gplu = true ∧ (NoSchur env opts ∨ 2 * (A.toMat q).rank ≤ A.n)) ∨
      (opts.dense = true ∧ env.full = true))
    {lg2 : Dbl → Dbl} (hlg : Log2 lg2) (hs : test_samples lg2 q = .ok env.samples) :
    Nat.card {d : Fin env.samples → Fin A.n → ZMod q //
      ¬ Ok (echelonize jk { env with draw := tableDraw d } opts A) (fun f => Echelon q f.U f.qinv ∧ f.U.m = A.m ∧
        f.U.n = f.r ∧ f.r = (A.toMat q).rank ∧ f.U.rowSpace q = A.rowSpace q)} * 2 ^ 128 ≤
    99 * Nat.card (Fin env.samples → Fin A.n → ZMod q) := by
  have hne : NeZero q := ⟨(Fact.out : q.Prime).ne_zero⟩
  have s1 : 2 ^ 128 ≤ q ^ env.samples := by
    have := test_samples_ok hlg (Fact.out : q.Prime).two_le (by have := hA.good.le_max; omega)
    rw [hs, Ok_ok] at this
    exact this.2.2.1
  by_cases hd : opts.dense = true ∧ env.full = true
  · have : IsEmpty {d : Fin env.samples → Fin A.n → ZMod q //
      ¬ Ok (echelonize jk { env with draw := tableDraw d } opts A) (fun f => Echelon q f.U f.qinv ∧ f.U.m = A.m ∧
        f.U.n = f.r ∧ f.r = (A.toMat q).rank ∧ f.U.rowSpace q = A.rowSpace q)} := by
      refine ⟨fun ⟨d, hd'⟩ => hd' ?_⟩
      exact C27_dense jk q { env with draw := tableDraw d } opts A
        ⟨henv.greedy, henv.schur, henv.dense, henv.ff, tableDraw_small d⟩ hA hnd hz hb hnull hL hc ht hd.1 hd.2
    rw [Nat.card_of_isEmpty]
    omega
  · obtain ⟨hg, hns⟩ := hdir.resolve_right hd
    rw [← finrank_rowSpace hA.toWF] at hns
    obtain ⟨B, p, n, l, l0, l1, l2, l3⟩ := echelonize_fails jk henv hA hnd hz hL hc ht hns hg hd
    have hlen : l.length ≤ 99 := by
      by_contra hlt
      have h1 : 100 * (n / 100 + 1) ≤ l.length * (max 10 (n / 100) + 1) := Nat.mul_le_mul (by omega) (by omega)
      omega
    have hu := ncard_exists_le (fun U (d : Fin env.samples → Fin A.n → ZMod q) =>
      Tested q { env with draw := tableDraw d } B p n U) (q ^ env.samples) l
      (fun U hU => tested_card q env B p l0 rfl U (l2 U hU))
    refine le_trans ?_ (hu.trans (Nat.mul_le_mul_right _ hlen))
    refine Nat.mul_le_mul ?_ s1
    rw [← Nat.card_coe_set_eq]
    refine Nat.card_le_card_of_injective (fun d => ⟨d.1, (l3 _ (tableDraw_small d.1)).resolve_left d.2⟩) ?_
    intro a b hab
    exact Subtype.ext (congrArg (fun x => x.1) hab)

/-! ### Concrete cases -/

/-- Functions with the accuracy required exist. -/
theorem exLog2 : ∃ lg2, Log2 lg2 := by
  have h : ∀ x : ℚ, ∃ y : ℚ, |(y : ℝ) - Real.logb 2 x| ≤ 1 / 2 ^ 40 := by
    intro x
    obtain ⟨y, hy⟩ := exists_rat_near (Real.logb 2 x) (ε := 1 / 2 ^ 40) (by positivity)
    exact ⟨y, by rw [abs_sub_comm]; exact hy.le⟩
  choose g hg using h
  refine ⟨fun x => match x with | .fin x => .fin (g x) | y => y, fun k _ hk => ⟨g k, ?_, ?_⟩⟩
  · rw [Dbl.ofInt_nat (by omega)]
  · have := hg k
    rwa [Rat.cast_natCast] at this

/-- 46 combinations modulo 7. -/
theorem exLog2_seven {lg2 : Dbl → Dbl} (h : Log2 lg2) : test_samples lg2 7 = .ok 46 := by
  obtain ⟨s, hs, h1, h2, h3, h4⟩ := Ok_iff.1 (C67_samples h (q := 7) (by decide) (by decide))
  refine hs.trans (congrArg _ ?_)
  obtain ⟨s, rfl⟩ := Int.eq_ofNat_of_zero_le h1.le
  rw [Int.toNat_natCast] at h3 h4
  have g1 : 46 ≤ s := by
    by_contra hh
    have : 7 ^ s ≤ 7 ^ 45 := Nat.pow_le_pow_right (by decide) (by omega)
    exact absurd (h3.trans this) (by decide)
  have g2 : s ≤ 46 := by
    by_contra hh
    have : 7 ^ 46 ≤ 7 ^ (s - 1) := Nat.pow_le_pow_right (by decide) (by omega)
    exact absurd (this.trans h4) (by decide)
  omega

/-- Empty `U`: the test finds out that rows of `exP` remain, except for one table out of `2 ^ 128`. -/
example : ∃ lg2 U qinv, Log2 lg2 ∧ Echelon 7 U qinv ∧ U.m = exP.m ∧
    Nat.card {d : Fin 46 → Fin 4 → ZMod 7 //
      test_completion_num default { exChoices.pick default exFf with draw := tableDraw d } lg2 exP #[0, 1, 2, 3] 4 U qinv =
        .ok true} * 2 ^ 128 ≤ Nat.card (Fin 46 → Fin 4 → ZMod 7) := by
  obtain ⟨lg2, h⟩ := exLog2
  obtain ⟨f, -, f1, f2, -⟩ := Ok_iff.1 (echelonize_init_spec (q := 7) (opts := exThree) default exP_wfv)
  refine ⟨lg2, f.U, f.qinv, h, f1.ech, f1.m_eq, ?_⟩
  obtain ⟨s, s1, -, s2⟩ := C67_error default h exP_wfv f1.ech f1.m_eq (p := #[0, 1, 2, 3]) (n := 4) (by decide) (by decide)
    (env := exChoices.pick default exFf) exFf_correct ⟨0, by decide, by
      unfold Csr.rowSpace
      rw [f2, spanOf_zero, Submodule.mem_bot]
      intro h
      exact absurd (congrFun h 0) (by decide +kernel)⟩
  have e : s = 46 := by
    have := s1.symm.trans (exLog2_seven h)
    injection this with this
    exact_mod_cast this
  subst e
  exact s2

/-- The rows of `exP` and the echelon form computed by the function: the test says that nothing remains. -/
example : ∃ lg2 U qinv, Log2 lg2 ∧ U.n = (exP.toMat 7).rank ∧
    test_completion_num default (exChoices.pick default exFf) lg2 exP #[0, 1, 2, 3] 4 U qinv = .ok true := by
  obtain ⟨lg2, h⟩ := exLog2
  have henv : (exFull.pick default exFf).Possible 7 := C27_env _ _ exFull exChoices_draw _ exFf_correct
  obtain ⟨f, -, f1, f2, f3, f4, f5⟩ := Ok_iff.1 (C27_dense default 7 (exFull.pick default exFf)
    { exThree with dense := true } exP henv exP_wfv exP_nodup exP_nozero (by decide) (.inl (by decide)) rfl rfl rfl rfl rfl)
  refine ⟨lg2, f.U, f.qinv, h, ?_, C67_complete default h exP_wfv f1 f2 (by decide) (by decide) exFf_correct ?_
    exChoices_draw⟩
  · rw [f3, f4]
  · intro t ht
    rw [f5]
    unfold Csr.rowSpace
    have : (#[0, 1, 2, 3] : Array Nat).g t = t := by
      have : ∀ t, t < 4 → (#[0, 1, 2, 3] : Array Nat).g t = t := by decide
      exact this t ht
    rw [this]
    exact mem_spanOf ht

/-- A whole run without Schur complement. -/
def exDirect : Env := { exChoices with few := fun _ => true }

example : ∃ lg2, Log2 lg2 ∧ Nat.card {d : Fin 46 → Fin 4 → ZMod 7 //
      ¬ Ok (echelonize default { exDirect.pick default exFf with draw := tableDraw d } exThree exP) (fun f =>
        Echelon 7 f.U f.qinv ∧ f.U.m = exP.m ∧
        f.U.n = f.r ∧ f.r = (exP.toMat 7).rank ∧ f.U.rowSpace 7 = exP.rowSpace 7)} * 2 ^ 128 ≤
    99 * Nat.card (Fin 46 → Fin 4 → ZMod 7) := by
  obtain ⟨lg2, h⟩ := exLog2
  refine ⟨lg2, h, ?_⟩
  have henv : (exDirect.pick default exFf).Possible 7 := C27_env _ _ exDirect exChoices_draw _ exFf_correct
  exact C67_rank_partial default 7 (exDirect.pick default exFf) exThree exP henv exP_wfv exP_nodup exP_nozero
    (by decide) (.inl (by decide)) rfl rfl rfl (.inl ⟨rfl, .inl (.inr (.inl rfl))⟩) h (exLog2_seven h)

end Spasm
