import Verif.Proofs.GreedyBuffer
import Verif.Props.Greedy

/-
C71: the transactional parallel search for pivots on machines with store buffers.  The theorems are about machines whose
atomic updates wait for the earlier writes of their thread, and are called `_partial` because OpenMP does not require it;
`C71_relaxed` shows that the claim is false without.
-/

namespace Spasm.Greedy

variable {T : Nat}

theorem Setup.inv {A : Csr} {pinv qinv : Array Int} {rows : Fin T → List Nat} (hs : Setup A pinv qinv rows)
    (jk : Junk) : Inv A qinv none (St.init A jk pinv qinv rows) :=
  inv_init jk hs.piv hs.once hs.disj hs.lt

theorem Setup.breach {A : Csr} {jk : Junk} {pinv qinv : Array Int} {rows : Fin T → List Nat}
    (hs : Setup A pinv qinv rows) {m : Buf T} (hr : BReach true A (Buf.init (St.init A jk pinv qinv rows)) m) :
    ∃ σ pd, GSim m σ ∧ Reach A (St.init A jk pinv qinv rows) σ ∧ Inv A qinv pd σ :=
  breach_sim hs.wf hs.nodup (hs.inv jk) (fun _ => rfl) hr

/-- C71 (safety). On a machine with store buffers whose atomic updates wait for the buffer of their thread, in every
interleaving no step has undefined behaviour and no assertion fails. -/
theorem C71_safe_partial (A : Csr) (jk : Junk) (pinv qinv : Array Int) (rows : Fin T → List Nat)
    (hs : Setup A pinv qinv rows) (m : Buf T) (hr : BReach true A (Buf.init (St.init A jk pinv qinv rows)) m)
    (t : Fin T) (r : C (Buf T)) (hst : bstep true A t m = some r) : ∃ m', r = .ok m' := by
  obtain ⟨σ, pd, h1, -, h3⟩ := hs.breach hr
  obtain ⟨m', -, e, -⟩ := h1.step hs.wf hs.nodup h3 hst
  exact ⟨m', e⟩

/-- C71 (refinement). On such a machine, the memory is, whenever no thread is in the critical section, in a state that is
reachable without buffers; in particular at the end. -/
theorem C71_refine_partial (A : Csr) (jk : Junk) (pinv qinv : Array Int) (rows : Fin T → List Nat)
    (hs : Setup A pinv qinv rows) (m : Buf T) (hr : BReach true A (Buf.init (St.init A jk pinv qinv rows)) m)
    (hl : m.s.lock = none) : Reach A (St.init A jk pinv qinv rows) m.s := by
  obtain ⟨σ, pd, h1, h2, h3⟩ := hs.breach hr
  cases h1 with
  | free _ _ _ => exact h2
  | crit h => rw [h.mlock] at hl; cases hl
  | left _ _ h _ => rw [h] at hl; cases hl

theorem BReach.unlocked {A : Csr} {jk : Junk} {pinv qinv : Array Int} {rows : Fin T → List Nat}
    (hs : Setup A pinv qinv rows) {m : Buf T} (hr : BReach true A (Buf.init (St.init A jk pinv qinv rows)) m)
    (hf : m.Finished) : m.s.lock = none := by
  obtain ⟨σ, pd, h1, h2, h3⟩ := hs.breach hr
  cases h1 with
  | free _ _ _ =>
    rcases hl : m.s.lock with _ | u
    · rfl
    · have := (h3.lock u).2 hl
      rw [(hf.1 u).1] at this; cases this
  | @crit _ t _ _ _ _ _ _ _ pub h =>
    have := h.pc
    rw [(hf.1 t).1] at this
    cases pub <;> cases this
  | @left t _ _ _ _ _ hp => rw [(hf.1 t).1] at hp; cases hp

/-- C71 (result). When all the threads are done, the pivots are a matching without alternating cycle that contains the
initial one; the value returned is the number of new pivots. -/
theorem C71_final_partial (A : Csr) (jk : Junk) (pinv qinv : Array Int) (rows : Fin T → List Nat)
    (hs : Setup A pinv qinv rows) (m : Buf T) (hr : BReach true A (Buf.init (St.init A jk pinv qinv rows)) m)
    (hf : m.Finished) :
    PivotSet A m.s.pinv m.s.qinv ∧ pivCount A.m qinv + m.s.npiv = pivCount A.m m.s.qinv ∧
    (∀ j, j < A.m → 0 ≤ qinv.g j → m.s.qinv.g j = qinv.g j) ∧
    ∀ i, i < A.n → 0 ≤ pinv.g i → m.s.pinv.g i = pinv.g i := by
  have h1 := C71_refine_partial A jk pinv qinv rows hs m hr (hr.unlocked hs hf)
  obtain ⟨k1, k2, -⟩ := C24_final A jk pinv qinv rows hs m.s h1 hf.1
  obtain ⟨-, k3, k4⟩ := C24_acyclic A jk pinv qinv rows hs m.s h1
  exact ⟨k1, k2, k3, k4⟩

/-- C71 (no deadlock). From every reachable state the end can be reached; and every state reachable without buffers is
reachable with buffers. -/
theorem C71_complete (A : Csr) (jk : Junk) (pinv qinv : Array Int) (rows : Fin T → List Nat)
    (hs : Setup A pinv qinv rows) :
    (∀ m, BReach true A (Buf.init (St.init A jk pinv qinv rows)) m → ∃ m', BReach true A m m' ∧ m'.Finished) ∧
    ∀ s, Reach A (St.init A jk pinv qinv rows) s →
      BReach true A (Buf.init (St.init A jk pinv qinv rows)) (Buf.init s) := by
  refine ⟨fun m hr => ?_, fun s hr => (breach_of_reach hs.wf hs.nodup (hs.inv jk) hr).1⟩
  obtain ⟨σ, pd, h1, h2, h3⟩ := hs.breach hr
  obtain ⟨σ1, k1, k2⟩ := h1.settle (A := A)
  obtain ⟨-, pd1, h4⟩ := breach_of_reach (strong := true) hs.wf hs.nodup h3 k2
  obtain ⟨μ, hμ⟩ := C24_progress A jk pinv qinv rows hs
  obtain ⟨-, -, s, k3, k4⟩ := hμ σ1 (h2.trans k2)
  exact ⟨Buf.init s, k1.trans (breach_of_reach hs.wf hs.nodup h4 k3).1, k4, fun _ => rfl⟩

/-- A possible outcome of `spasm_find_cycle_free_pivots` on a machine with store buffers; see `Outcome`. -/
def OutcomeBuf (strong : Bool) (A : Csr) (pinv qinv : Array Int) (r : Nat × Array Int × Array Int) : Prop :=
  ∃ (T : Nat) (jk : Junk) (rows : Fin T → List Nat) (m : Buf T), Setup A pinv qinv rows ∧
    (∀ i, i < A.n → ∃ t, i ∈ rows t) ∧
    BReach strong A (Buf.init (St.init A jk pinv qinv rows)) m ∧ m.Finished ∧ r = (m.s.npiv, m.s.pinv, m.s.qinv)

/-- C71 (outcomes). The possible outcomes are the same as without buffers; hence C24_extract, C25 and C27 hold there. -/
theorem C71_outcome_partial (A : Csr) (pinv qinv : Array Int) (r : Nat × Array Int × Array Int) :
    OutcomeBuf true A pinv qinv r ↔ Outcome A pinv qinv r := by
  constructor
  · rintro ⟨T, jk, rows, m, hs, hc, hr, hf, e⟩
    exact ⟨T, jk, rows, m.s, hs, hc, C71_refine_partial A jk pinv qinv rows hs m hr (hr.unlocked hs hf), hf.1, e⟩
  · rintro ⟨T, jk, rows, s, hs, hc, hr, hf, e⟩
    exact ⟨T, jk, rows, Buf.init s, hs, hc, (C71_complete A jk pinv qinv rows hs).2 s hr, ⟨hf, fun _ => rfl⟩, e⟩

/-- The hypotheses hold for the matrix of the example of C24, and it has an outcome. -/
example : Setup exG #[-1, -1] #[-1, -1, -1] (fun t : Fin 2 => [t.val]) ∧
    ∃ r, OutcomeBuf true exG #[-1, -1] #[-1, -1, -1] r := by
  refine ⟨exG_setup, ?_⟩
  obtain ⟨r, h⟩ := C24_outcome exG exG_wf exG_nodup #[-1, -1] #[-1, -1, -1] exG_setup.piv
  exact ⟨r, (C71_outcome_partial _ _ _ _).mpr h⟩

/-! ### Relaxed atomic updates

Two rows with entries in the same two columns, one row for each thread.  The first thread chooses column 0, increments `npiv`,
but its write to `qinv` has not reached the memory yet.  The second one reads `npiv`, then `qinv`, does not see the pivot,
and chooses column 1.  When it enters the critical section `npiv` has not changed since, so that it commits: the two pivots
make a cycle. -/

def exH : Csr :=
  { n := 2, m := 2, p := #[0, 2, 4], j := #[0, 1, 1, 0], x := none, F := Field.ofPrime 7 }

theorem exH_wf : exH.WF := Csr.wf_of_check (by decide +kernel)

theorem exH_nodup : exH.NoDup := by
  intro i hi k k' h1 h2 h3 h4
  have hi : i < 2 := hi
  revert h1 h2 h3 h4
  rcases (by omega : i = 0 ∨ i = 1) with rfl | rfl
  · show 0 ≤ k → k < 2 → 0 ≤ k' → k' < 2 → _
    intro _ h2 _ h4
    rcases (by omega : k = 0 ∨ k = 1) with rfl | rfl <;>
      rcases (by omega : k' = 0 ∨ k' = 1) with rfl | rfl <;> decide
  · show 2 ≤ k → k < 4 → 2 ≤ k' → k' < 4 → _
    intro h1 h2 h3 h4
    rcases (by omega : k = 2 ∨ k = 3) with rfl | rfl <;>
      rcases (by omega : k' = 2 ∨ k' = 3) with rfl | rfl <;> decide

theorem exH_setup : Setup exH #[-1, -1] #[-1, -1] (fun t : Fin 2 => [t.val]) := by
  refine ⟨exH_wf, exH_nodup, ⟨⟨rfl, rfl, by decide, by decide, by decide, by decide, by decide,
    by decide, ?_⟩, ?_⟩, by decide, by decide, by decide⟩
  · intro i hi h0
    have hi : i < 2 := hi
    rcases (by omega : i = 0 ∨ i = 1) with rfl | rfl <;> exact absurd h0 (by decide)
  · exact PAcyclic.of_check exH_wf ⟨by decide, by decide⟩ (fun _ => 0) (by decide +kernel)

/-- Runs a schedule: `(t, none)` is a program step of thread `t`, `(t, some k)` its pending write number `k` reaches the
memory. -/
def brun (strong : Bool) (A : Csr) : List (Fin T × Option Nat) → Buf T → Option (Buf T)
  | [], m => some m
  | (t, none) :: l, m =>
    match bstep strong A t m with
    | some (.ok m') => brun strong A l m'
    | _ => none
  | (t, some k) :: l, m =>
    match bput t k m with
    | some m' => brun strong A l m'
    | none => none

theorem brun_reach {strong : Bool} {A : Csr} {l : List (Fin T × Option Nat)} {m m' : Buf T}
    (h : brun strong A l m = some m') : BReach strong A m m' := by
  induction l generalizing m with
  | nil => cases h; exact .init
  | cons a l ih =>
    obtain ⟨t, _ | k⟩ := a
    · unfold brun at h
      split at h
      · rename_i m1 h1
        exact (BReach.step .init h1).trans (ih h)
      · cases h
    · unfold brun at h
      split at h
      · rename_i m1 h1
        exact (BReach.put .init h1).trans (ih h)
      · cases h

/-- The schedule described above. -/
def exSchedH : List (Fin 2 × Option Nat) :=
  List.replicate 6 (0, none) ++   -- row 0: start, scatter, search, column 0
  [(0, none), (0, none), (0, none), (0, none)] ++      -- critical section: entered, registered, journal, npiv := 1
  List.replicate 6 (1, none) ++   -- row 1: column 1
  [(0, some 0), (0, some 0), (0, some 0), (0, none), (0, none)] ++      -- the writes arrive, first thread done
  [(1, none), (1, none), (1, none), (1, some 0), (1, some 0), (1, some 0), (1, none), (1, none), (1, none)]

def exEndH : Option (Buf 2) :=
  brun false exH exSchedH (Buf.init (St.init exH default #[-1, -1] #[-1, -1] (fun t : Fin 2 => [t.val])))

theorem exEndH_eq : (match exEndH with
    | some m => decide (m.s.npiv = 2 ∧ m.s.pinv = #[0, 1] ∧ m.s.qinv = #[0, 1] ∧
        ∀ t, (m.s.th t).pc = .idle ∧ (m.s.th t).todo = [] ∧ m.buf t = [])
    | none => false) = true := by decide +kernel

/-- C71 (counterexample). If an atomic update may reach the memory before earlier writes of its thread, the search can end
with pivots that make an alternating cycle. -/
theorem C71_relaxed : ∃ (A : Csr) (pinv qinv : Array Int) (r : Nat × Array Int × Array Int),
    OutcomeBuf false A pinv qinv r ∧ ¬ PAcyclic A r.2.2 := by
  have h := exEndH_eq
  rcases hm : exEndH with _ | m
  · rw [hm] at h; cases h
  · rw [hm] at h
    obtain ⟨h1, h2, h3, h4⟩ := of_decide_eq_true h
    refine ⟨exH, #[-1, -1], #[-1, -1], (m.s.npiv, m.s.pinv, m.s.qinv),
      ⟨2, default, _, m, exH_setup, ?_, brun_reach hm, ⟨fun t => ⟨(h4 t).1, (h4 t).2.1⟩, fun t => (h4 t).2.2⟩, rfl⟩, ?_⟩
    · intro i hi
      exact ⟨⟨i, hi⟩, by simp⟩
    · show ¬ PAcyclic exH m.s.qinv
      rw [h3]
      intro hac
      refine hac 0 (by decide) ?_
      have e1 : PEdge exH #[0, 1] 0 1 := ⟨by decide, 1, by decide, by decide, rfl⟩
      have e2 : PEdge exH #[0, 1] 1 0 := ⟨by decide, 3, by decide, by decide, rfl⟩
      exact .tail (.single ⟨e1, by decide⟩) ⟨e2, by decide⟩

end Spasm.Greedy
