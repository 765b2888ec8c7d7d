import Verif.Props.Echelonize
import Verif.Props.Gplu
import Verif.Proofs.FfpackTable
import Verif.Spec.Sequential
import Mathlib.LinearAlgebra.Matrix.Notation

/-
C27, C28: cases where the results of spasm_echelonize are wrong.
-/

namespace Spasm

open Finset

/-- An environment with one thread. -/
noncomputable def Env.alone (jk : Junk) (e : Env) (ff : Ffpack) : Env :=
  { e.pick jk ff with
    schur := fun k a => match schurAlone jk a with
      | .ok o => .ok o
      | .error _ => (e.pick jk ff).schur k a
    dense := fun k a => match denseAlone jk a with
      | .ok o => .ok o
      | .error _ => (e.pick jk ff).dense k a }

theorem Env.alone_possible {jk : Junk} {q : ℕ} {e : Env} (hd : ∀ k i, Small q (e.draw k i)) {ff : Ffpack}
    (hff : ff.Correct q) : (e.alone jk ff).Possible q := by
  have h := C27_env jk q e hd ff hff
  refine ⟨h.greedy, fun k a ho => ?_, fun k a ho => ?_, hff, hd⟩
  · cases ha : schurAlone jk a with
    | error _ => simpa [Env.alone, ha] using h.schur k a ho
    | ok o => exact ⟨jk, o, by simp [Env.alone, ha], schurAlone_run ha⟩
  · cases ha : denseAlone jk a with
    | error _ => simpa [Env.alone, ha] using h.dense k a ho
    | ok o => exact ⟨jk, o, by simp [Env.alone, ha], denseAlone_run ha⟩

/-- One round of structural pivots, then GPLU, without `L`. -/
def exOne : Opts :=
  { greedy := false, tall := false, dense := false, gplu := true, L := false, complete := false,
    max_round := 1, block := 1000 }

/-- The state of the factorization of `exTwo` after the first search for pivots. -/
def exTwoMid : Lu :=
  { r := 0, complete := false, L := none,
    U := { n := 1, m := 2, p := #[0, 2, 0], j := #[0, 1, 0, 0], x := some #[1, 1, 0, 0],
           F := Field.ofPrime 7 },
    qinv := #[0, -1], p := none, Ltmp := none }

/-- The state before the first round. -/
def exTwoStart : Lu :=
  { r := 0, complete := false, L := none,
    U := { n := 0, m := 2, p := #[0, 0, 0], j := #[0, 0, 0, 0], x := some #[0, 0, 0, 0],
           F := Field.ofPrime 7 },
    qinv := #[-1, -1], p := none, Ltmp := none }

/-- The result. -/
def exTwoEnd : Lu :=
  { r := 1, complete := false, L := none,
    U := { n := 1, m := 2, p := #[0, 2], j := #[0, 1], x := some #[1, 1],
           F := Field.ofPrime 7 },
    qinv := #[0, -1], p := none, Ltmp := none }

theorem exTwo_wfv : exTwo.WFV 7 := Csr.wfv_of_check (by decide +kernel)

theorem exTwo_nodup : exTwo.NoDup := Csr.nodup_of_check exTwo_wfv.toWF (by decide +kernel)

theorem exTwo_nozero : exTwo.NoZero := by unfold Csr.NoZero; decide +kernel

theorem ok_bind {α β : Type} (a : α) (f : α → C β) : ((Except.ok a : C α) >>= f) = f a := rfl

theorem exTwo_rank : (exTwo.toMat 7).rank = 2 := by
  let M : Matrix (Fin 2) (Fin 2) (ZMod 7) := exTwo.toMat 7
  have : M * !![2, -1; -1, 1] = 1 := by decide +kernel
  have h1 := Matrix.rank_mul_le_left M !![2, -1; -1, 1]
  rw [this, Matrix.rank_one] at h1
  exact le_antisymm M.rank_le_height h1

theorem rest_gplu (jk : Junk) (env : Env) {opts : Opts} {s : Driver} (h0 : s.status = 0)
    (h1 : opts.tall = false) (h2 : opts.dense = false) (h3 : opts.gplu = true) :
    echelonize_rest jk env opts s = gplu jk s.A (shift (mkArr s.n fun i => i) 0) s.n s.p_in s.fact
      (fun U qinv => test_completion jk env s.A (shift (mkArr s.n fun i => i) 0) s.n U qinv) := by
  unfold echelonize_rest echelonize_finish
  rw [if_neg (by omega), if_pos h0]
  simp only [csub_ok (Nat.zero_le _), ok_bind, h1, h2, h3]
  simp

/-- C27 fails after a Schur complement: `[[1, 1], [1, 2]]` has rank 2 modulo 7, but 1 is returned, whatever
the schedule and the random numbers. -/
theorem C27_premature (env : Env) (henv : env.Possible 7) (h1 : env.few 0 = false)
    (h2 : env.thick 0 = false) :
    echelonize default env exOne exTwo = .ok exTwoEnd ∧ exTwoEnd.r < (exTwo.toMat 7).rank := by
  refine ⟨?_, by rw [exTwo_rank]; decide⟩
  have e0 : echelonize_init default exOne exTwo = .ok exTwoStart := by decide +kernel
  have e1 : pivots_extract_structural default exTwo none exTwoStart (mkArr 2 (default : Junk).nat) none =
      .ok (1, exTwoMid, #[0, 1]) := by decide +kernel
  obtain ⟨f, hf, f1, f2, f3, f4⟩ := Ok_iff.mp (echelonize_init_spec (opts := exOne) default exTwo_wfv)
  rw [e0] at hf
  cases hf
  have hI : RoundInv 7 env exOne exTwo 0 ⟨exTwo, 2, none, mkArr 2 (default : Junk).nat, 0, exTwoStart, 0⟩ :=
    ⟨exTwo_wfv, exTwo_nodup, exTwo_nozero, rfl, rfl, fun a ha => (nomatch ha), f1, f4, f3, rfl, .inl ⟨rfl, rfl⟩, rfl⟩
  have hr := echelonize_round_spec default henv (by decide : 0 < exOne.max_round) hI
  have e2 : echelonize_round default env exOne 0 ⟨exTwo, 2, none, mkArr 2 (default : Junk).nat, 0, exTwoStart, 0⟩ =
      (do let o ← env.schur 0 ⟨exTwo, #[1], 1, exTwoMid.U, exTwoMid.qinv, env.size 0, none, none, #[0]⟩
          .ok (.cont ⟨o.S, 1, some o.p_out, #[0, 1], 1, { exTwoMid with Ltmp := o.L }, 0⟩)) := by
    unfold echelonize_round
    simp only [show exOne.greedy = false from rfl, Bool.false_eq_true, if_false, e1, h1, h2,
      show nnz exTwo = .ok 4 by decide, ok_bind, if_neg (show ¬ (4 : Nat) = 0 by decide), or_self]
    unfold echelonize_schur
    simp only [show shift #[0, 1] 1 = #[1] by decide, show csub 2 1 = .ok 1 from rfl, ok_bind, bind_assoc]
    rfl
  rw [e2, Ok_bind] at hr
  obtain ⟨o, ho, hr⟩ := Ok_iff.mp hr
  rw [Ok_ok] at hr
  rw [ho, ok_bind] at e2
  have hn : 1 = o.S.n := hr.n_eq
  have hm : o.S.m = 2 := hr.m_eq
  have hL : o.L = none := by
    have := hr.hasL
    cases e : o.L with
    | none => rfl
    | some _ => simp only [e] at this; cases this
  rw [hL] at e2
  unfold echelonize
  rw [show exOne.norm = exOne from rfl]
  simp only [e0, ok_bind]
  have e3 : forBrk 0 exOne.max_round ⟨exTwo, exTwo.n, none, mkArr exTwo.n (default : Junk).nat, 0, exTwoStart, 0⟩
      (fun round s => echelonize_round default env exOne round s) =
      .ok (1, ⟨o.S, 1, some o.p_out, #[0, 1], 1, exTwoMid, 0⟩) := by
    unfold forBrk
    simp only [show exOne.max_round - 0 = 0 + 1 from rfl, forBrkN, show exTwo.n = 2 from rfl]
    rw [e2]
    rfl
  simp only [e3, ok_bind]
  rw [rest_gplu default env rfl rfl rfl rfl]
  have e4 : ∀ p tc, gplu default o.S p 1 (some o.p_out) exTwoMid tc = .ok exTwoMid := by
    intro p tc
    unfold gplu
    simp only [← hn, hm, show nnz exTwoMid.U = .ok 2 by decide, ok_bind, forBrk, Nat.sub_zero, forBrkN]
    rw [if_pos (by decide)]
    rfl
  rw [e4, ok_bind]
  exact show echelonize_cleanup default exOne 2 exTwoMid = .ok exTwoEnd by decide +kernel

/-- The identity of size 2. -/
def exId : Csr :=
  { n := 2, m := 2, p := #[0, 1, 2], j := #[0, 1], x := some #[1, 1], F := Field.ofPrime 7 }

theorem exId_wfv : exId.WFV 7 := Csr.wfv_of_check (by decide +kernel)

theorem exId_rank : (exId.toMat 7).rank = 2 := by
  let M : Matrix (Fin 2) (Fin 2) (ZMod 7) := exId.toMat 7
  have : M * !![1, 0; 0, 1] = 1 := by decide +kernel
  have h1 := Matrix.rank_mul_le_left M !![1, 0; 0, 1]
  rw [this, Matrix.rank_one] at h1
  exact le_antisymm M.rank_le_height h1

/-- The low-rank method only, with blocks of one row. -/
def exLow : Opts :=
  { greedy := false, tall := true, dense := false, gplu := false, L := false, complete := false,
    max_round := 0, block := 1 }

/-- The choices: the matrix is tall; in the low-rank method, rows are taken with weight 1, and the generator
gives the first row. -/
def exLowChoices : Env := { exChoices with skinny := true }

/-- The result on the identity: a single row. -/
def exLowEnd : Lu :=
  { r := 1, complete := false, L := none,
    U := { n := 1, m := 2, p := #[0, 1], j := #[0], x := some #[1], F := Field.ofPrime 7 },
    qinv := #[0, -1], p := none, Ltmp := none }

/-- C27 fails with the low-rank method: after a new row of `U` is found, the last row of the matrix is
forgotten (`n -= rr`), also by the completion test.  The identity of size 2 has rank 2, but 1 is
returned. -/
theorem C27_lowrank : ∃ env : Env, env.Possible 7 ∧
    echelonize default env exLow exId = .ok exLowEnd ∧ exLowEnd.r < (exId.toMat 7).rank := by
  refine ⟨exLowChoices.pick default exFf.over, C27_env _ _ exLowChoices exChoices_draw _ exFf_correct.over, ?_,
    by rw [exId_rank]; decide⟩
  decide +kernel


/-- `C27_premature` with one thread. -/
example : echelonize default (exChoices.alone default exFf) exOne exTwo = .ok exTwoEnd := by decide +kernel

/-- One round, then the dense method, with `L`. -/
def exPivotal : Opts :=
  { greedy := false, tall := false, dense := true, gplu := false, L := true, complete := false,
    max_round := 1, block := 2 }

/-- C28 fails for incomplete factorizations when the dense method follows a Schur complement: the array
`pivotal` has one entry for each row of the Schur complement (here one), but it is indexed by rows of the
original matrix, and the function writes outside of it. -/
theorem C28_pivotal : ∃ env : Env, env.Possible 7 ∧
    echelonize default env exPivotal exTwo = .error .ub :=
  ⟨exFull.alone default exFf.over, Env.alone_possible (e := exFull) exChoices_draw exFf_correct.over, by decide +kernel⟩

/-- The dense method only, with blocks of one row. -/
def exDenseOnly : Opts :=
  { greedy := false, tall := false, dense := true, gplu := false, L := false, complete := false,
    max_round := 0, block := 1 }

/-- `[[0, 0], [1, 0]]` modulo 7. -/
def exHole : Csr :=
  { n := 2, m := 2, p := #[0, 0, 1], j := #[0], x := some #[1], F := Field.ofPrime 7 }

theorem exHole_wfv : exHole.WFV 7 := Csr.wfv_of_check (by decide +kernel)

/-- Why `hnull` is needed: without search for structural pivots, if the first chunk has rank 0 and if
`realloc(ptr, 0)` returns NULL, the next chunk dereferences it. -/
theorem C27_null : ∃ env : Env, env.Possible 7 ∧
    echelonize default env exDenseOnly exHole = .error .ub :=
  ⟨exFull.alone default exFf.over, Env.alone_possible (e := exFull) exChoices_draw exFf_correct.over, by decide +kernel⟩

/-- `[[1, 1, 1], [1, 2, 1], [1, 1, 2]]` modulo 7. -/
def exThreeRows : Csr :=
  { n := 3, m := 3, p := #[0, 3, 6, 9], j := #[0, 1, 2, 0, 1, 2, 0, 1, 2],
    x := some #[1, 1, 1, 1, 2, 1, 1, 1, 2], F := Field.ofPrime 7 }

/-- One round, then the dense method with blocks of one row, with permission to switch to the low-rank
method. -/
def exSwitch : Opts :=
  { greedy := false, tall := true, dense := true, gplu := true, L := false, complete := false,
    max_round := 1, block := 1 }

/-- The Schur complement is dense, and its chunks have too many dependent rows. -/
def exYield : Env := { exFull with yield := fun _ => true }

/-- The result: two rows. -/
def exSwitchEnd : Lu :=
  { r := 2, complete := false, L := none,
    U := { n := 2, m := 3, p := #[0, 3, 4], j := #[0, 1, 2, 1], x := some #[1, 1, 1, 1],
           F := Field.ofPrime 7 },
    qinv := #[0, 1, -1], p := none, Ltmp := none }

theorem exThreeRows_rank : (exThreeRows.toMat 7).rank = 3 := by
  let M : Matrix (Fin 3) (Fin 3) (ZMod 7) := exThreeRows.toMat 7
  have : M * !![3, -1, -1; -1, 1, 0; -1, 0, 1] = 1 := by decide +kernel
  have h1 := Matrix.rank_mul_le_left M !![3, -1, -1; -1, 1, 0; -1, 0, 1]
  rw [this, Matrix.rank_one] at h1
  exact le_antisymm M.rank_le_height h1

/-- C27 fails when the dense method switches to the low-rank method after a Schur complement: the bound on
the remaining rank, computed from the size of the Schur complement and the number of all pivots, is 0, and
the remaining rows are ignored. -/
theorem C27_switch : ∃ env : Env, env.Possible 7 ∧
    echelonize default env exSwitch exThreeRows = .ok exSwitchEnd ∧
    exSwitchEnd.r < (exThreeRows.toMat 7).rank :=
  ⟨exYield.alone default exFf.over, Env.alone_possible (e := exYield) exChoices_draw exFf_correct.over, by decide +kernel,
    by rw [exThreeRows_rank]; decide⟩

/-- Memory is initially null, and `realloc(ptr, 0)` does not return NULL. -/
def exZero : Junk := ⟨fun _ => 0, fun _ => 0, false⟩

/-- The matrix `[[1]]` modulo 7. -/
def exUnit : Csr := { n := 1, m := 1, p := #[0, 1], j := #[0], x := some #[1], F := Field.ofPrime 7 }

theorem exUnit_wfv : exUnit.WFV 7 := Csr.wfv_of_check (by decide +kernel)

/-- The random numbers of the first combination are 0, the others are 1; the loop of the low-rank method
may run `fuel` times. -/
def exStuck (fuel : Nat) : Env :=
  { exLowChoices with draw := fun k _ => if k = 0 then 0 else 1, weight := 0, fuel := fuel }

/-- The factorization: empty, with room for `k` entries. -/
def exStuckFact (k : Nat) : Lu :=
  { r := 0, complete := false, L := none,
    U := { n := 0, m := 1, p := #[0, 0], j := mkArr k fun _ => 0, x := some (mkArr k fun _ => 0),
           F := Field.ofPrime 7 },
    qinv := #[-1], p := none, Ltmp := none }

theorem whileFuel_forever {σ : Type} {f : σ → C (Step σ)} {I : σ → Prop}
    (h : ∀ s, I s → ∃ s', f s = .ok (.cont s') ∧ I s') : ∀ fuel s, I s → whileFuel fuel s f = .error .fuel := by
  intro fuel
  induction fuel with
  | zero => intro s _; rfl
  | succ k ih =>
    intro s hs
    obtain ⟨s', h1, h2⟩ := h s hs
    unfold whileFuel
    rw [h1]
    exact ih s' h2

theorem exStuck_draw (fuel : Nat) : ∀ k i, Small 7 ((exStuck fuel).draw k i) := by
  intro k i
  show Small 7 (if k = 0 then 0 else 1)
  split
  · exact small_zero 7
  · exact small_one (by decide)

theorem exStuck_test (fuel k : Nat) (hk : k ≤ 1) :
    test_completion exZero ((exStuck fuel).alone exZero exFf.over) exUnit #[0] 1 (exStuckFact k).U #[-1] =
      .ok false := by
  have hE : Echelon 7 (exStuckFact k).U #[-1] := by
    rcases (by omega : k = 0 ∨ k = 1) with rfl | rfl
    · exact .of_check (by decide +kernel) (by decide) (by decide) (by decide) (by decide) (by decide)
    · exact .of_check (by decide +kernel) (by decide) (by decide) (by decide) (by decide) (by decide)
  have := test_completion_spec exZero exUnit_wfv hE rfl (p := #[0]) (n := 1) (by decide) (by decide)
    (env := (exStuck fuel).alone exZero exFf.over)
    (exStuck_draw fuel) exFf_correct.over
  obtain ⟨b, h1, h2⟩ := Ok_iff.mp this
  rw [h1]
  cases b with
  | false => rfl
  | true =>
    exfalso
    have h3 := h2.mp rfl 1 (by show 1 < 46; decide)
    unfold Csr.rowSpace at h3
    rw [show (exStuckFact k).U.n = 0 from rfl, spanOf_zero, Submodule.mem_bot] at h3
    have h4 := congrFun h3 0
    simp only [Finset.sum_range_one] at h4
    have h5 : exUnit.entry 7 ((#[0] : Array Nat).g 0) 0 = 1 := by decide +kernel
    rw [h5] at h4
    exact absurd h4 (by show ¬ (((if (1 : Nat) = 0 then 0 else 1 : Int) : ZMod 7) * 1 = 0); decide)

/-- One iteration of the loop. -/
theorem exStuck_round (fuel k r : Nat) (hk : k ≤ 1) :
    lowrank_round exZero ((exStuck fuel).alone exZero exFf.over) 1 exUnit #[0]
      ⟨exStuckFact k, #[0], #[0], 1, 1, 1, 0, r⟩ =
    .ok (.cont ⟨exStuckFact 0, #[0], #[0], 1, 1, 1, 0, r + 1⟩) := by
  have e1 : schur_dense_randomized exZero exUnit #[0] 1 (exStuckFact k).U #[-1] #[0] (datatype_choose 7)
      #[0] 1 0 (fun k _ => if k = 0 then 0 else 1) (fun _ _ => 0) = .ok (#[0], #[0]) := by
    rcases (by omega : k = 0 ∨ k = 1) with rfl | rfl <;> decide +kernel
  have e2 : exFf.over.rref 7 1 1 #[0] = (0, #[0], #[0]) := by
    show (match rrefTable 1 1 #[0] with | some r => r | none => exFf.rref 7 1 1 #[0]) = _
    rw [show rrefTable 1 1 #[0] = some (0, #[0], #[0]) by decide +kernel]
  have e3 : update_U_after_rref exZero 0 1 #[0] (datatype_choose 7) #[0] #[0] (exStuckFact k) =
      .ok (exStuckFact 0) := by
    rcases (by omega : k = 0 ∨ k = 1) with rfl | rfl <;> decide +kernel
  have e4 := exStuck_test fuel k hk
  unfold lowrank_round
  rw [if_neg (show ¬ (min ((1 : Nat) : Int) 1 ≤ 0) by decide)]
  show (schur_dense_randomized exZero exUnit #[0] 1 (exStuckFact k).U #[-1] #[0] (datatype_choose 7)
      #[0] 1 0 (fun k _ => if k = 0 then 0 else 1) (fun _ _ => 0) >>= _) = _
  rw [e1, ok_bind]
  show lowrank_next _ _ _ _ _ _ (exFf.over.rref 7 1 1 #[0]) = _
  rw [e2]
  unfold lowrank_next lowrank_test
  rw [if_pos rfl]
  simp only
  show (test_completion exZero ((exStuck fuel).alone exZero exFf.over) exUnit #[0] 1 (exStuckFact k).U #[-1]
    >>= _) = _
  rw [e4, ok_bind, if_neg (by decide)]
  show (lowrank_weight 0 false 0 >>= _) = _
  rw [show lowrank_weight 0 false 0 = .ok 0 from rfl, ok_bind]
  show (update_U_after_rref exZero 0 1 #[0] (datatype_choose 7) #[0] #[0] (exStuckFact k) >>= _) = _
  rw [e3, ok_bind]
  rfl

/-- The low-rank method may never stop: the loop runs out of fuel, whatever the fuel.  When nothing is found
and the completion test fails, the random combinations of the next iterations are the same. -/
theorem C27_stuck (fuel : Nat) : ∃ env : Env, env.Possible 7 ∧ env.fuel = fuel ∧
    echelonize exZero env exLow exUnit = .error .fuel := by
  refine ⟨(exStuck fuel).alone exZero exFf.over, Env.alone_possible (e := exStuck fuel) (exStuck_draw fuel)
    exFf_correct.over, rfl, ?_⟩
  have h : lowrank exZero ((exStuck fuel).alone exZero exFf.over) exLow exUnit #[0] 1 (exStuckFact 1) =
      .error .fuel := by
    unfold lowrank
    rw [show cassert (decide (exLow.block > 0)) = .ok () from rfl, ok_bind,
      show csub exUnit.m (exStuckFact 1).U.n = .ok 1 from rfl, ok_bind]
    rw [whileFuel_forever (I := fun s => ∃ k r, k ≤ 1 ∧ s = ⟨exStuckFact k, #[0], #[0], 1, 1, 1, 0, r⟩)]
    · rfl
    · rintro s ⟨k, r, hk, rfl⟩
      exact ⟨_, exStuck_round fuel k r hk, 0, r + 1, by omega, rfl⟩
    · refine ⟨1, 0, le_rfl, ?_⟩
      show LowRank.mk _ (dense_alloc exZero (1 * 1)) (mkArr 1 exZero.nat) 1 1 1 0 0 = _
      rw [show dense_alloc exZero (1 * 1) = #[0] by decide +kernel, show mkArr 1 exZero.nat = #[0] by decide]
  unfold echelonize
  simp only
  rw [show echelonize_init exZero exLow.norm exUnit = .ok (exStuckFact 1) by decide +kernel, ok_bind]
  show (echelonize_rest exZero ((exStuck fuel).alone exZero exFf.over) exLow
    ⟨exUnit, 1, none, mkArr 1 exZero.nat, 0, exStuckFact 1, 0⟩ >>= _) = _
  have h2 : echelonize_rest exZero ((exStuck fuel).alone exZero exFf.over) exLow
    ⟨exUnit, 1, none, mkArr 1 exZero.nat, 0, exStuckFact 1, 0⟩ = .error .fuel := by
    unfold echelonize_rest echelonize_finish
    rw [if_neg (by decide), if_pos rfl, show csub 1 0 = .ok 1 from rfl, ok_bind, if_pos ⟨rfl, rfl⟩,
      show shift (mkArr 1 fun i => i) 0 = #[0] by decide +kernel]
    exact h
  rw [h2]
  rfl
end Spasm
