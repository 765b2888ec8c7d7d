import Verif.Proofs.RrefLoops

/-
C20: the final loops of spasm_rref are done by all the threads.  The order of their iterations does not matter.
-/

namespace Spasm

open Finset Commit

/-- C20 (final loops). The possible results of `spasm_rref`, the iterations of the final loops being done in any order, are
those of the model where these loops are sequential: C20_safe and C20_result are about all the executions. -/
theorem C20_loops (jk : Junk) (q : ℕ) (U : Csr) (qinv rq : Array Int) (h : Echelon q U qinv) (hrq : U.m ≤ rq.size)
    (R : Csr) (rq' : Array Int) : RrefRunAny jk U qinv rq R rq' ↔ RrefRun jk U qinv rq R rq' := by
  constructor
  · rintro ⟨T, rows, jobs, R0, k, s, l1, l2, hc, hk, hR0, hth, hr, hf, hR, p1, p2, hq⟩
    obtain ⟨k', R0', jobs', e1, e2, e3, e4⟩ := C20_safe jk q U qinv rq h hrq T rows hc
    obtain rfl : k = k' := by rw [hk] at e1; exact Except.ok.inj e1
    obtain rfl : R0 = R0' := by rw [hR0] at e2; exact Except.ok.inj e2
    obtain rfl : jobs = jobs' := funext fun t => by have := e3 t; rw [hth t] at this; exact Except.ok.inj this
    obtain ⟨a, ha⟩ := (e4 s hr).2.2.2 hf
    have hrun : RrefRun jk U qinv rq R a := ⟨T, rows, jobs, R0, k, s, hc, hk, hR0, hth, hr, hf, hR, by rw [hR]; exact ha⟩
    have hi := (C20_result jk q U qinv rq h hrq R a hrun).1
    rw [rref_qinv_order hi.ech.wfv.toWF (fun i hi' => hi.ech.ne i hi') (fun i k a b => hi.ech.pivot_inj a b)
      (by rw [hi.m_eq]; exact hrq) p1 p2] at hq
    exact ⟨T, rows, jobs, R0, k, s, hc, hk, hR0, hth, hr, hf, hR, hq⟩
  · rintro ⟨T, rows, jobs, R0, k, s, hc, hk, hR0, hth, hr, hf, hR, hq⟩
    exact ⟨T, rows, jobs, R0, k, s, _, _, hc, hk, hR0, hth, hr, hf, hR, List.Perm.refl _, List.Perm.refl _,
      by rw [← rref_qinv_eq]; exact hq⟩

/-- C20 (final loops, no failure). Whatever the order of the iterations, the final loops succeed and give the same array. -/
theorem C20_loops_safe (q : ℕ) (U R : Csr) (qinv rq rq' : Array Int) (jk : Junk) (h : Echelon q U qinv)
    (hrq : U.m ≤ rq.size) (hrun : RrefRun jk U qinv rq R rq') (l1 l2 : List Nat) (h1 : l1.Perm (List.range R.m))
    (h2 : l2.Perm (List.range R.n)) : rref_qinv_any R rq l1 l2 = .ok rq' := by
  have hi := (C20_result jk q U qinv rq h hrq R rq' hrun).1
  rw [rref_qinv_order hi.ech.wfv.toWF (fun i hi' => hi.ech.ne i hi') (fun i k a b => hi.ech.pivot_inj a b)
    (by rw [hi.m_eq]; exact hrq) h1 h2]
  obtain ⟨T, rows, jobs, R0, k, s, hc, hk, hR0, hth, hr, hf, hR, hq⟩ := hrun
  exact hq

/-- The hypotheses hold for the matrix of the examples of C20; here the iterations are done backwards. -/
example (jk : Junk) : ∃ R rq', RrefRun jk exU exUqinv #[5, 5, 5, 5] R rq' ∧ RrefRunAny jk exU exUqinv #[5, 5, 5, 5] R rq' ∧
    rref_qinv_any R #[5, 5, 5, 5] [3, 2, 1, 0] [1, 0] = .ok rq' := by
  obtain ⟨R, rq', hrun⟩ := exRrefRun jk
  have hi := (C20_result jk 7 exU exUqinv _ exU_echelon (by decide) R rq' hrun).1
  have hm : R.m = 4 := hi.m_eq
  have hn : R.n = 2 := hi.n_eq
  exact ⟨R, rq', hrun, (C20_loops jk 7 exU exUqinv _ exU_echelon (by decide) R rq').mpr hrun,
    C20_loops_safe 7 exU R exUqinv _ rq' jk exU_echelon (by decide) hrun _ _ (by rw [hm]; decide) (by rw [hn]; decide)⟩

end Spasm
