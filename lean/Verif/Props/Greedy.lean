import Verif.Proofs.GreedyStep
import Verif.Props.Extract

/-
C24: the transactional parallel search for pivots.
-/

namespace Spasm.Greedy

variable {T : Nat}

/-- Common hypotheses: a well-formed matrix without duplicate entry, an acyclic set of pivots to start
with, and rows of the matrix distributed among the threads, none of them twice. -/
structure Setup (A : Csr) (pinv qinv : Array Int) (rows : Fin T → List Nat) : Prop where
  wf : A.WF
  nodup : A.NoDup
  piv : PivotSet A pinv qinv
  once : ∀ t, (rows t).Nodup
  disj : ∀ t u, t ≠ u → ∀ i, i ∈ rows t → i ∉ rows u
  lt : ∀ t i, i ∈ rows t → i < A.n

theorem Setup.reach {A : Csr} {jk : Junk} {pinv qinv : Array Int} {rows : Fin T → List Nat}
    (hs : Setup A pinv qinv rows) {s : St T} (hr : Reach A (St.init A jk pinv qinv rows) s) :
    ∃ pd, Inv A qinv pd s := by
  induction hr with
  | init => exact ⟨none, inv_init jk hs.piv hs.once hs.disj hs.lt⟩
  | step _ hst ih =>
    obtain ⟨pd, hI⟩ := ih
    exact (inv_step hs.wf hs.nodup hI hst).1

/-- C24 (safety). In every interleaving no step has undefined behaviour and no assertion fails: the
queue, the marks and the journal are never accessed out of bounds. -/
theorem C24_safe (A : Csr) (jk : Junk) (pinv qinv : Array Int) (rows : Fin T → List Nat)
    (hs : Setup A pinv qinv rows) (s : St T) (hr : Reach A (St.init A jk pinv qinv rows) s)
    (t : Fin T) (r : C (St T)) (hst : step A t s = some r) : ∃ s', r = .ok s' := by
  obtain ⟨pd, hI⟩ := hs.reach hr
  have := inv_step hs.wf hs.nodup hI hst
  rw [Ok_iff] at this
  obtain ⟨s', h, -⟩ := this
  exact ⟨s', h⟩

/-- C24 (invariant). At every moment of every interleaving the pivots chosen so far are a matching
without alternating cycle, and the pivots given at the start are kept. -/
theorem C24_acyclic (A : Csr) (jk : Junk) (pinv qinv : Array Int) (rows : Fin T → List Nat)
    (hs : Setup A pinv qinv rows) (s : St T) (hr : Reach A (St.init A jk pinv qinv rows) s) :
    PivotSet A s.pinv s.qinv ∧ (∀ j, j < A.m → 0 ≤ qinv.g j → s.qinv.g j = qinv.g j) ∧
    ∀ i, i < A.n → 0 ≤ pinv.g i → s.pinv.g i = pinv.g i := by
  obtain ⟨pd, hI⟩ := hs.reach hr
  refine ⟨hI.sh.ps, hI.sh.keep, ?_⟩
  intro i hi h0
  have h1 := hs.piv.qp i hi h0
  have hlt := hs.piv.p_lt i hi
  have h2 := hI.sh.keep (pinv.g i).toNat (by omega) (by omega)
  have h3 := hI.sh.ps.pq (pinv.g i).toNat (by omega) (by omega)
  rw [h2, h1] at h3
  simp only [Int.toNat_natCast] at h3
  omega

/-- C24 (result). When all the threads are done, the pivots are a matching without alternating cycle
that contains the initial one; the value returned is the number of new pivots; each row has at most
one pivot. -/
theorem C24_final (A : Csr) (jk : Junk) (pinv qinv : Array Int) (rows : Fin T → List Nat)
    (hs : Setup A pinv qinv rows) (s : St T) (hr : Reach A (St.init A jk pinv qinv rows) s)
    (hf : s.Finished) :
    PivotSet A s.pinv s.qinv ∧ pivCount A.m qinv + s.npiv = pivCount A.m s.qinv ∧
    ∀ j j', j < A.m → j' < A.m → 0 ≤ s.qinv.g j → s.qinv.g j = s.qinv.g j' → j = j' := by
  obtain ⟨pd, hI⟩ := hs.reach hr
  have hl : s.lock = none := by
    rcases hl : s.lock with _ | u
    · rfl
    · have := (hI.lock u).2 hl
      rw [(hf u).1] at this
      cases this
  have hpd := hI.sh.free hl
  have hc := hI.sh.cnt
  rw [hpd] at hc
  simp only [Option.isSome_none, Bool.false_eq_true, if_false] at hc
  refine ⟨hI.sh.ps, by omega, ?_⟩
  intro j j' hj hj' h0 he
  have h1 := hI.sh.ps.pq j hj h0
  have h2 := hI.sh.ps.pq j' hj' (by omega)
  rw [he, h2] at h1
  omega

/-- C24 (termination, no deadlock). There is a measure that every step of every interleaving
decreases; as long as some thread is not done, some step is possible. Hence every execution ends, and
it ends with all the threads done. -/
theorem C24_progress (A : Csr) (jk : Junk) (pinv qinv : Array Int) (rows : Fin T → List Nat)
    (hs : Setup A pinv qinv rows) :
    ∃ μ : St T → Nat, ∀ s, Reach A (St.init A jk pinv qinv rows) s →
      (∀ t s', step A t s = some (.ok s') → μ s' < μ s) ∧
      (¬ s.Finished → ∃ t s', step A t s = some (.ok s')) ∧
      ∃ s', Reach A s s' ∧ s'.Finished := by
  refine ⟨St.mu A, fun s hr => ?_⟩
  have h1 : ∀ s, Reach A (St.init A jk pinv qinv rows) s → ∀ t s', step A t s = some (.ok s') →
      s'.mu A < s.mu A := by
    intro s hr t s' hst
    obtain ⟨pd, hI⟩ := hs.reach hr
    exact (inv_step hs.wf hs.nodup hI hst).2
  have h2 : ∀ s, Reach A (St.init A jk pinv qinv rows) s → ¬ s.Finished →
      ∃ t s', step A t s = some (.ok s') := by
    intro s hr hf
    obtain ⟨pd, hI⟩ := hs.reach hr
    obtain ⟨t, r, hst⟩ := progress hI hf
    obtain ⟨s', rfl⟩ := C24_safe A jk pinv qinv rows hs s hr t r hst
    exact ⟨t, s', hst⟩
  refine ⟨h1 s hr, h2 s hr, ?_⟩
  have key : ∀ k s, s.mu A ≤ k → Reach A (St.init A jk pinv qinv rows) s →
      ∃ s', Reach A s s' ∧ s'.Finished := by
    intro k
    induction k with
    | zero =>
      intro s hk hr
      by_cases hf : s.Finished
      · exact ⟨s, .init, hf⟩
      · obtain ⟨t, s', hst⟩ := h2 s hr hf
        have := h1 s hr t s' hst
        omega
    | succ k ih =>
      intro s hk hr
      by_cases hf : s.Finished
      · exact ⟨s, .init, hf⟩
      · obtain ⟨t, s', hst⟩ := h2 s hr hf
        have := h1 s hr t s' hst
        obtain ⟨s'', g1, g2⟩ := ih s' (by omega) (.step hr hst)
        refine ⟨s'', ?_, g2⟩
        clear g2
        induction g1 with
        | init => exact .step .init hst
        | step _ h ih => exact .step ih h
  exact key _ s (le_refl _) hr

/-- A possible outcome of `spasm_find_cycle_free_pivots`: some number of threads, some distribution of
the rows, some interleaving. -/
def Outcome (A : Csr) (pinv qinv : Array Int) (r : Nat × Array Int × Array Int) : Prop :=
  ∃ (T : Nat) (jk : Junk) (rows : Fin T → List Nat) (s : St T), Setup A pinv qinv rows ∧
    (∀ i, i < A.n → ∃ t, i ∈ rows t) ∧
    Reach A (St.init A jk pinv qinv rows) s ∧ s.Finished ∧ r = (s.npiv, s.pinv, s.qinv)

/-- C24 with C25: with the parallel search enabled, whatever its interleaving, the structural pivots
are extracted as specified. -/
theorem C24_extract (jk : Junk) (q : ℕ) [Fact q.Prime] (A0 A : Csr) (hA : A.WFV q) (hnd : A.NoDup)
    (hz : A.NoZero) (hm : A.m = A0.m) (p_in : Option (Array Nat)) (hp : PermSize p_in A.n)
    (fact : Lu) (complete : Bool)
    (h : Partial q A0 fact.U fact.qinv fact.Ltmp fact.p (A.entry q) A.n (permFun p_in) fact.U.n
      complete)
    (g : Array Int → Array Int → C (Nat × Array Int × Array Int))
    (hg : ∀ pinv qinv, PivotSet A pinv qinv → ∃ r, g pinv qinv = .ok r ∧ Outcome A pinv qinv r)
    (p : Array Nat) (hps : p.size = A.n) :
    Ok (pivots_extract_structural jk A p_in fact p (some g)) (fun r => ∃ pinv qinv,
      PivotSet A pinv qinv ∧ r.1 = pivCount A.m qinv ∧ (0 < A.p.g A.n → 0 < r.1) ∧
      Extracted q A0 A p_in fact complete pinv qinv r.1 r.2.1 r.2.2) := by
  refine C25_extract jk q A0 A hA hnd hz hm p_in hp fact complete h (some g) ?_ p hps
  intro g' hg' pinv qinv hP
  cases hg'
  obtain ⟨r, h1, T, jk', rows, s, hs, -, hr, hf, rfl⟩ := hg pinv qinv hP
  rw [h1, Ok_ok]
  obtain ⟨k1, k2, -⟩ := C24_final A jk' pinv qinv rows hs s hr hf
  exact ⟨k1, k2⟩

/-- An outcome always exists, for any number of threads. -/
theorem C24_outcome (A : Csr) (hA : A.WF) (hnd : A.NoDup) (pinv qinv : Array Int)
    (hP : PivotSet A pinv qinv) : ∃ r, Outcome A pinv qinv r := by
  have hs : Setup (T := 1) A pinv qinv (fun _ => List.range A.n) :=
    ⟨hA, hnd, hP, fun _ => List.nodup_range, fun t u h => absurd (Subsingleton.elim t u) h,
      fun _ i hi => List.mem_range.1 hi⟩
  obtain ⟨μ, hμ⟩ := C24_progress A default pinv qinv _ hs
  obtain ⟨-, -, s, h1, h2⟩ := hμ _ .init
  exact ⟨_, 1, default, _, s, hs, fun i hi => ⟨0, List.mem_range.2 hi⟩, h1, h2, rfl⟩

/-! ### A concrete case

Two rows with the same two columns, one row for each thread.  Both threads choose a column when there
is no pivot yet; the first one commits, the second one notices, examines the new pivot and gives up:
two pivots would make a cycle. -/

def exG : Csr :=
  { n := 2, m := 3, p := #[0, 2, 4], j := #[0, 1, 0, 1], x := none, F := Field.ofPrime 7 }

theorem exG_wf : exG.WF := Csr.wf_of_check (by decide +kernel)

theorem exG_nodup : exG.NoDup := by
  intro i hi k k' h1 h2 h3 h4
  have hi : i < 2 := hi
  revert h1 h2 h3 h4
  rcases (by omega : i = 0 ∨ i = 1) with rfl | rfl
  · show 0 ≤ k → k < 2 → 0 ≤ k' → k' < 2 → _
    intro _ h2 _ h4
    rcases (by omega : k = 0 ∨ k = 1) with rfl | rfl <;>
      rcases (by omega : k' = 0 ∨ k' = 1) with rfl | rfl <;> decide
  · show 2 ≤ k → k < 4 → 2 ≤ k' → k' < 4 → _
    intro h1 h2 h3 h4
    rcases (by omega : k = 2 ∨ k = 3) with rfl | rfl <;>
      rcases (by omega : k' = 2 ∨ k' = 3) with rfl | rfl <;> decide

theorem exG_setup : Setup exG #[-1, -1] #[-1, -1, -1] (fun t : Fin 2 => [t.val]) := by
  refine ⟨exG_wf, exG_nodup, ⟨⟨rfl, rfl, by decide, by decide, by decide, by decide, by decide,
    by decide, ?_⟩, ?_⟩, by decide, by decide, by decide⟩
  · intro i hi h0
    have hi : i < 2 := hi
    rcases (by omega : i = 0 ∨ i = 1) with rfl | rfl <;> exact absurd h0 (by decide)
  · exact PAcyclic.of_check exG_wf ⟨by decide, by decide⟩ (fun _ => 0) (by decide +kernel)

/-- Runs a schedule. -/
def exec (A : Csr) : List (Fin T) → St T → C (St T)
  | [], s => .ok s
  | t :: ts, s =>
    match step A t s with
    | none => .error .fuel
    | some r => r >>= exec A ts

/-- The interleaving described above. -/
example : (match exec exG ([0, 0, 1, 1, 0, 0, 0, 1, 1, 1, 0, 1, 0, 0, 0, 0, 1, 1, 1, 1, 1, 0, 1])
      (St.init exG default #[-1, -1] #[-1, -1, -1] (fun t : Fin 2 => [t.val])) with
    | .ok s => decide (s.npiv = 1 ∧ s.pinv = #[0, -1] ∧ s.qinv = #[0, -1, -1])
    | .error _ => false) = true := by decide +kernel

end Spasm.Greedy
