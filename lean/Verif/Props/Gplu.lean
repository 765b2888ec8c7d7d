import Verif.Proofs.Gplu
import Verif.Props.Extract
import Verif.Spec.Check3
import Mathlib.Algebra.BigOperators.Fin

/-
C26: echelonize_GPLU.
-/

namespace Spasm

open Finset

/-- C26, with `L`. From any factorization of `A0` in progress, where the rows `p[0], ..., p[n - 1]`
of `A` remain to be processed: the elimination succeeds (no assertion fails, all accesses are within
bounds); `U` is in echelon form and spans the row space of `A0`; `fact->p` lists distinct rows, which
are lower-triangular in `L`, and are obtained as `L U`; if this was the case of all the rows already
processed, then `A0 = L U`. -/
theorem C26_GPLU_L (jk : Junk) (q : ℕ) [Fact q.Prime] (A0 A : Csr) (hA : A.WFV q) (hm : A.m = A0.m)
    (p_in : Option (Array Nat)) (hp : PermSize p_in A.n) (p : Array Nat) (n : Nat)
    (hps : n ≤ p.size) (hpn : ∀ k, k < n → p.g k < A.n) (fact : Lu) (tc : Csr → Array Int → C Bool)
    (old : Nat) (complete : Bool) (hL : fact.Ltmp.isSome = true)
    (h : Partial q A0 fact.U fact.qinv fact.Ltmp fact.p (fun t => A.entry q (p.g t)) n
      (fun t => permFun p_in (p.g t)) old complete) :
    Ok (gplu jk A p n p_in fact tc) (fun f => Echelon q f.U f.qinv ∧ f.U.m = A0.m ∧
      f.U.rowSpace q = A0.rowSpace q ∧ fact.U.n ≤ f.U.n ∧
      ∃ Z a, f.Ltmp = some Z ∧ f.p = some a ∧ Z.WFV q ∧ Z.n = A0.n ∧ Z.m = f.U.n ∧
        A0.n ≤ a.size ∧
        (∀ i c, Z.Has i c → c < f.U.n ∧ Z.sum q i c ≠ 0) ∧
        (∀ k, k < f.U.n → a.g k < A0.n ∧ Z.sum q (a.g k) k ≠ 0 ∧
          (∀ j, k < j → j < f.U.n → Z.sum q (a.g k) j = 0) ∧
          ∀ c, A0.entry q (a.g k) c = ∑ j ∈ range f.U.n, Z.sum q (a.g k) j * f.U.entry q j c) ∧
        (complete = true → ∀ i, i < A0.n → ∀ c,
          A0.entry q i c = ∑ j ∈ range f.U.n, Z.sum q i j * f.U.entry q j c)) := by
  have hne : fact.Ltmp ≠ none := by
    intro e; rw [e] at hL; cases hL
  refine (gplu_spec jk hA hm hp hps hpn h (fun e => absurd e hne) (fun e => absurd e hne)).mono ?_
  rintro f ⟨L, v, o, h1, h2, h3, h4, -⟩
  refine ⟨h2.ech, h2.m_eq, ?_, h3, ?_⟩
  · rw [← h2.span, spanOf_zero, sup_bot_eq]
  · rw [hL] at h4
    obtain ⟨Z, rfl⟩ := Option.isSome_iff_exists.mp h4
    obtain ⟨a, ha, has⟩ := h2.p_size rfl
    have hP := h2.L Z rfl
    rw [ha] at hP
    have hw := hP.wfv
    refine ⟨_, a, h1, ha, ⟨⟨hw.i_size, hw.j_size, hw.x_size, hw.i_lt, ?_, hw.field_ok⟩, hw.good,
      hw.has_x, hw.bal⟩, hP.n_eq, rfl, has, fun i c hh => hP.has i c hh, ?_, ?_⟩
    · intro k hk
      exact (hP.has _ _ ⟨k, hk, rfl, rfl⟩).1
    · intro k hk
      exact ⟨hP.P_lt k hk, hP.diag k hk, fun j h1 h2 => hP.upper k j h1 h2,
        fun c => hP.prod (a.g k) (hP.P_lt k hk) (.inl ⟨k, hk, rfl⟩) c⟩
    · intro hc i hi c
      exact hP.prod i hi (.inr ⟨hc, fun t ht => by omega⟩) c

/-- C26, without `L`. The full claim: `U` is in echelon form and spans the row space of `A0`.  Proved
if `A` has at least as many rows as columns, or if `U->n + n` does not exceed the number of rows of
`A` (which is the case when no Schur complement has been computed before), and if the test for
completion is right when it answers yes.  The first restriction is needed: see `C26_premature`. -/
theorem C26_GPLU_partial (jk : Junk) (q : ℕ) [Fact q.Prime] (A0 A : Csr) (hA : A.WFV q)
    (hm : A.m = A0.m) (p_in : Option (Array Nat)) (hp : PermSize p_in A.n) (p : Array Nat) (n : Nat)
    (hps : n ≤ p.size) (hpn : ∀ k, k < n → p.g k < A.n) (fact : Lu) (tc : Csr → Array Int → C Bool)
    (old : Nat) (complete : Bool)
    (h : Partial q A0 fact.U fact.qinv none fact.p (fun t => A.entry q (p.g t)) n
      (fun t => permFun p_in (p.g t)) old complete) (hL : fact.Ltmp = none)
    (hrank : A.m ≤ A.n ∨ fact.U.n + n ≤ A.n)
    (htc : ∀ U qinv, Echelon q U qinv → U.m = A.m → Ok (tc U qinv) (fun b => b = true →
      ∀ t, t < n → A.entry q (p.g t) ∈ U.rowSpace q)) :
    Ok (gplu jk A p n p_in fact tc) (fun f => Echelon q f.U f.qinv ∧ f.U.m = A0.m ∧
      f.U.rowSpace q = A0.rowSpace q ∧ fact.U.n ≤ f.U.n ∧ f.Ltmp = none) := by
  refine (gplu_spec jk hA hm hp hps hpn (by rw [hL]; exact h) (fun _ => hrank.imp id .inl) (fun _ => htc)).mono ?_
  rintro f ⟨L, v, o, h1, h2, h3, h4, -⟩
  refine ⟨h2.ech, h2.m_eq, ?_, h3, ?_⟩
  · rw [← h2.span, spanOf_zero, sup_bot_eq]
  · rw [hL] at h4
    cases L with
    | none => exact h1
    | some Z => cases h4

/-! ### A concrete case -/

/-- Elimination of the four rows of `exP`, in the order 3, 1, 0, 2. -/
example : Ok (gplu default exP #[3, 1, 0, 2] 4 none exStart fun _ _ => .ok false) (fun f =>
    f.U.rowSpace 7 = exP.rowSpace 7 ∧ ∃ Z, f.Ltmp = some Z ∧ ∀ i, i < exP.n → ∀ c,
      exP.entry 7 i c = ∑ j ∈ range f.U.n, Z.sum 7 i j * f.U.entry 7 j c) := by
  have hperm : IsPerm (fun t => (#[3, 1, 0, 2] : Array Nat).g t) 4 := isPerm_of_check (by decide)
  have h := (exStart_partial true).perm hperm
  refine (C26_GPLU_L default 7 exP exP exP_wfv rfl none (fun a ha => by cases ha) #[3, 1, 0, 2] 4
    (by decide) (by decide) exStart _ _ true rfl h).mono ?_
  rintro f ⟨-, -, h1, -, Z, a, h2, -, -, -, -, -, -, -, h3⟩
  exact ⟨h1, Z, h2, h3 rfl⟩

/-- Without `L`. -/
example : Ok (gplu default exP #[3, 1, 0, 2] 4 none { exStart with Ltmp := none } fun _ _ => .ok false)
    (fun f => f.U.rowSpace 7 = exP.rowSpace 7) := by
  have hperm : IsPerm (fun t => (#[3, 1, 0, 2] : Array Nat).g t) 4 := isPerm_of_check (by decide)
  have h0 : Partial 7 exP exStart.U exStart.qinv none exStart.p (exP.entry 7)
      exP.n (permFun none) exStart.U.n true := by
    refine Partial.init (Csr.wfv_of_check (by decide +kernel)) rfl rfl (by decide) rfl ?_ (by decide)
      (by decide) (fun _ => ⟨_, rfl, by decide⟩) (fun Z hZ => nomatch hZ)
    intro a ha; cases ha; decide
  refine (C26_GPLU_partial default 7 exP exP exP_wfv rfl none (fun a ha => by cases ha) #[3, 1, 0, 2] 4
    (by decide) (by decide) { exStart with Ltmp := none } (fun _ _ => .ok false) _ true (h0.perm hperm) rfl
    (.inr (by decide)) (fun _ _ _ _ h => nomatch h)).mono ?_
  rintro f ⟨-, -, h1, -⟩
  exact h1

/-! ### Premature end

`r = min(A->n, m)` (src/spasm_echelonize.c:59) bounds the rank of the current Schur complement `A`, but
it is compared to the total number of pivots `U->n` (src/spasm_echelonize.c:85). -/

/-- `[[1, 1], [1, 2]]` modulo 7. -/
def exTwo : Csr :=
  { n := 2, m := 2, p := #[0, 2, 4], j := #[0, 1, 0, 1], x := some #[1, 1, 1, 2],
    F := Field.ofPrime 7 }

/-- State after one pivot, without `L`. -/
def exTwoFact : Lu :=
  { r := 0, complete := false, L := none,
    U := { n := 1, m := 2, p := #[0, 2, 0], j := #[0, 1], x := some #[1, 1],
           F := Field.ofPrime 7 },
    qinv := #[0, -1], p := none, Ltmp := none }

/-- The Schur complement: `[[0, 1]]`. -/
def exTwoS : Csr :=
  { n := 1, m := 2, p := #[0, 1], j := #[1], x := some #[1], F := Field.ofPrime 7 }

theorem exTwo_partial : Partial 7 exTwo exTwoFact.U exTwoFact.qinv none none
    (fun t => exTwoS.entry 7 ((#[0] : Array Nat).g t)) 1
    (fun t => permFun (some #[1]) ((#[0] : Array Nat).g t)) 1 true := by
  have hU : Echelon 7 exTwoFact.U exTwoFact.qinv := .of_check (by decide +kernel) (by decide)
    (by decide) (by decide) (by decide) (by decide)
  have hA : exTwo.WFV 7 := Csr.wfv_of_check (by decide +kernel)
  have hS : exTwoS.WFV 7 := Csr.wfv_of_check (by decide +kernel)
  refine ⟨hU, rfl, by decide, by decide, rfl, ?_, by decide, by decide +kernel, ?_,
    (fun hs => nomatch hs), ?_, ?_, (fun Z hZ => nomatch hZ)⟩
  · intro a ha; cases ha; decide
  · have e0 : exTwoFact.U.entry 7 0 = exTwo.entry 7 0 := by
      ext c
      by_cases hc : c < 2
      · revert c; decide +kernel
      · rw [hA.toWF.entry_ge (by decide) (Nat.le_of_not_lt hc),
          hU.wfv.toWF.entry_ge (by decide) (Nat.le_of_not_lt hc)]
    have e1 : exTwo.entry 7 1 = exTwo.entry 7 0 + exTwoS.entry 7 0 := by
      ext c
      rw [Pi.add_apply]
      by_cases hc : c < 2
      · revert c; decide +kernel
      · rw [hA.toWF.entry_ge (by decide) (Nat.le_of_not_lt hc),
          hA.toWF.entry_ge (by decide) (Nat.le_of_not_lt hc),
          hS.toWF.entry_ge (by decide) (Nat.le_of_not_lt hc), add_zero]
    have m0 : exTwo.entry 7 0 ∈ exTwo.rowSpace 7 := mem_spanOf (by decide)
    have m1 : exTwo.entry 7 1 ∈ exTwo.rowSpace 7 := mem_spanOf (by decide)
    refine le_antisymm (sup_le (spanOf_le ?_) (spanOf_le ?_)) (spanOf_le ?_)
    · intro t ht
      have : t = 0 := by simpa [exTwoFact] using ht
      rw [this, e0]; exact m0
    · intro t ht
      have : t = 0 := by omega
      subst this
      have : exTwoS.entry 7 ((#[0] : Array Nat).g 0) = exTwo.entry 7 1 - exTwo.entry 7 0 := by
        rw [e1, add_sub_cancel_left]; rfl
      simp only [this]
      exact Submodule.sub_mem _ m1 m0
    · have k0 : exTwo.entry 7 0 ∈ exTwoFact.U.rowSpace 7 := by
        rw [← e0]; exact mem_spanOf (by decide)
      have k1 : exTwoS.entry 7 0 ∈ spanOf (fun t => exTwoS.entry 7 ((#[0] : Array Nat).g t)) 1 :=
        mem_spanOf (f := fun t => exTwoS.entry 7 ((#[0] : Array Nat).g t)) (i := 0) (by decide)
      intro t ht
      have : t = 0 ∨ t = 1 := by
        have : t < 2 := ht
        omega
      rcases this with rfl | rfl
      · exact Submodule.mem_sup_left k0
      · rw [e1]
        exact Submodule.add_mem _ (Submodule.mem_sup_left k0) (Submodule.mem_sup_right k1)
  · rw [nodup_row_iff]; decide
  · intro _
    exact (noZero_iff hU.wfv.toWF).mp (by unfold Csr.NoZero; decide)

/-- C26 fails without the restriction: the elimination stops with a `U` that does not span the row
space, although the state it started from was correct. -/
theorem C26_premature : ∃ (A0 A : Csr) (fact : Lu) (p p_in : Array Nat), A.WFV 7 ∧
    Partial 7 A0 fact.U fact.qinv none fact.p (fun t => A.entry 7 (p.g t)) A.n
      (fun t => permFun (some p_in) (p.g t)) fact.U.n true ∧ fact.Ltmp = none ∧
    ∀ jk, ∃ f, gplu jk A p A.n (some p_in) fact (fun _ _ => .ok false) = .ok f ∧
      f.U.rowSpace 7 ≠ A0.rowSpace 7 := by
  refine ⟨exTwo, exTwoS, exTwoFact, #[0], #[1], Csr.wfv_of_check (by decide +kernel), exTwo_partial,
    rfl, fun jk => ⟨exTwoFact, rfl, ?_⟩⟩
  intro h
  have m1 : exTwo.entry 7 1 ∈ exTwo.rowSpace 7 := mem_spanOf (by decide)
  rw [← h] at m1
  obtain ⟨y, hy⟩ := mem_spanOf_iff.mp m1
  have h0 := hy 0
  have h1 := hy 1
  rw [show exTwoFact.U.n = 1 from rfl, Finset.sum_range_one] at h0 h1
  have a0 : exTwo.entry 7 1 0 = 1 := by decide +kernel
  have a1 : exTwo.entry 7 1 1 = 2 := by decide +kernel
  have b0 : exTwoFact.U.entry 7 0 0 = 1 := by decide +kernel
  have b1 : exTwoFact.U.entry 7 0 1 = 1 := by decide +kernel
  rw [a0, b0, mul_one] at h0
  rw [a1, b1, mul_one, ← h0] at h1
  exact absurd h1 (by decide)

end Spasm
