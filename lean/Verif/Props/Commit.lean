import Verif.Proofs.Commit
import Mathlib.Algebra.BigOperators.Fin

/-
C22: the commit protocol of spasm_schur, spasm_kernel and spasm_rref.
-/

namespace Spasm.Commit

variable {T : Nat}

/-- Common hypotheses: at least one buffer, initial counters within the initial capacities,
consistent rows, room for the row pointers and `p_out`. -/
structure Setup (cfg : Cfg) (cap used : Nat → Nat) (rowp tags : Array Nat)
    (jobs : Fin T → List Job) : Prop where
  nb : 0 < cfg.nb
  cap : ∀ b, b < cfg.nb → used b ≤ cap b
  ok : ∀ t, ∀ j ∈ jobs t, JobOk cfg j
  rowp : Multiset.card (∑ t, (jobs t : Multiset Job)) < rowp.size
  tags : Multiset.card (∑ t, (jobs t : Multiset Job)) ≤ tags.size

/-- C22 (safety). In every interleaving no step has undefined behaviour: every write goes through a
pointer to the current allocation, and within its size. -/
theorem C22_safe (cfg : Cfg) (junk : Nat → Int) (cap used : Nat → Nat)
    (mem : Nat → Nat → Nat → Int) (rowp tags : Array Nat) (jj : Job) (jobs : Fin T → List Job)
    (hs : Setup cfg cap used rowp tags jobs) (s : St T)
    (hr : Reach cfg junk (St.init cap used mem rowp tags jj jobs) s) (t : Fin T) (r : C (St T))
    (hst : step cfg junk t s = some r) : ∃ s', r = .ok s' := by
  obtain ⟨⟨log, hI⟩, -⟩ := reach_inv hs.nb hs.cap hs.ok hs.rowp hs.tags hr
  have := inv_step hs.nb hs.rowp hs.tags hI hst
  rw [Ok_iff] at this
  obtain ⟨s', h, -⟩ := this
  exact ⟨s', h⟩

/-- C22 (no data race). Two threads about to write never target the same cell, and nothing is
reallocated while some thread is writing. -/
theorem C22_no_race (cfg : Cfg) (junk : Nat → Int) (cap used : Nat → Nat)
    (mem : Nat → Nat → Nat → Int) (rowp tags : Array Nat) (jj : Job) (jobs : Fin T → List Job)
    (hs : Setup cfg cap used rowp tags jobs) (s : St T)
    (hr : Reach cfg junk (St.init cap used mem rowp tags jj jobs) s) (t u : Fin T) (htu : t ≠ u)
    (w : Wr) (ws : List Wr) (ht : (s.th t).pc = .write (w :: ws)) :
    (∀ v vs, (s.th u).pc = .write (v :: vs) → w.b = v.b →
      (s.th t).lo w.b + w.off ≠ (s.th u).lo v.b + v.off) ∧
    (∀ b, (s.th u).pc ≠ .realloc b) ∧ ∀ b c, (s.th u).pc ≠ .refresh b c := by
  obtain ⟨⟨log, hI⟩, -⟩ := reach_inv hs.nb hs.cap hs.ok hs.rowp hs.tags hr
  have hpos := hI.wph_pos (t := t) (by rw [ht]; rfl)
  refine ⟨fun v vs hu hb => hI.norace hs.nb htu ht hu hb, fun b hu => ?_, fun b c hu => ?_⟩
  · have := (hI.thr u).quiet (by rw [hu]; rfl); omega
  · have := (hI.thr u).quiet (by rw [hu]; rfl); omega

/-- C22 (no deadlock, termination). There is a measure that no step increases, that every step
decreases except the spinning of a thread waiting for writers (which does not change the state); as
long as some thread is not done, some step decreases it.  Hence every execution that is not stuck in
spinning forever while others could move terminates, and a finished state is always reachable. -/
theorem C22_progress (cfg : Cfg) (junk : Nat → Int) (cap used : Nat → Nat)
    (mem : Nat → Nat → Nat → Int) (rowp tags : Array Nat) (jj : Job) (jobs : Fin T → List Job)
    (hs : Setup cfg cap used rowp tags jobs) :
    ∃ μ : St T → Nat, ∀ s, Reach cfg junk (St.init cap used mem rowp tags jj jobs) s →
      (∀ t s', step cfg junk t s = some (.ok s') →
        μ s' < μ s ∨ (s' = s ∧ 0 < s.writing ∧ ∃ b, (s.th t).pc = .wait b)) ∧
      (¬ s.Finished → ∃ t s', step cfg junk t s = some (.ok s') ∧ μ s' < μ s) ∧
      ∃ s', Reach cfg junk s s' ∧ s'.Finished := by
  refine ⟨St.mu cfg, fun s hr => ?_⟩
  obtain ⟨⟨log, hI⟩, -⟩ := reach_inv hs.nb hs.cap hs.ok hs.rowp hs.tags hr
  exact ⟨fun t s' hst => mu_step hs.nb hI hst, fun hf => progress hs.nb hs.rowp hs.tags hI hf,
    completes hs.nb hs.rowp hs.tags ⟨log, hI⟩⟩

/-- C22 (result). When all the threads are done, the buffers contain the rows of all the threads,
each exactly once, one after the other in some order `log`, at the positions given by the row
pointers; what was there before is unchanged. -/
theorem C22_final (cfg : Cfg) (junk : Nat → Int) (cap used : Nat → Nat)
    (mem : Nat → Nat → Nat → Int) (rowp tags : Array Nat) (jj : Job) (jobs : Fin T → List Job)
    (hs : Setup cfg cap used rowp tags jobs) (s : St T)
    (hr : Reach cfg junk (St.init cap used mem rowp tags jj jobs) s) (hf : s.Finished) :
    ∃ log : List Job, (log : Multiset Job) = ∑ t, (jobs t : Multiset Job) ∧
      Laid cfg used mem log s ∧ s.rowp.g 0 = rowp.g 0 ∧ s.rowp.size = rowp.size ∧
      s.tags.size = tags.size := by
  obtain ⟨⟨log, hI⟩, h0⟩ := reach_inv hs.nb hs.cap hs.ok hs.rowp hs.tags hr
  obtain ⟨h1, h2⟩ := hI.laid hf
  exact ⟨log, h1, h2, h0, hI.rsize, hI.tsize⟩

/-! Concrete case: two buffers (S with arrays j and x, L with arrays i, j, x), two threads, three
rows, initial capacities 0 and 1 with one older entry in L: reallocations are needed. -/

def exCfg : Cfg :=
  { nb := 2, wid := fun b => if b = 0 then 2 else 3, need := fun _ l => l,
    grow := fun _ k _ => 2 * k + 4 }

/-- A row with one entry in S and two in L. -/
def exJob1 : Job :=
  { len := fun b => if b = 0 then 1 else 2,
    ws := [⟨1, 0, 0, 5⟩, ⟨1, 0, 1, 0⟩, ⟨1, 0, 2, 3⟩, ⟨0, 0, 0, 2⟩, ⟨0, 0, 1, -1⟩,
      ⟨1, 1, 0, 5⟩, ⟨1, 1, 1, 1⟩, ⟨1, 1, 2, 4⟩],
    tag := 5 }

/-- A row with two entries in S and none in L. -/
def exJob2 : Job :=
  { len := fun b => if b = 0 then 2 else 0,
    ws := [⟨0, 0, 0, 3⟩, ⟨0, 0, 1, 1⟩, ⟨0, 1, 0, 2⟩, ⟨0, 1, 1, 2⟩], tag := 7 }

def exJobs : Fin 2 → List Job := fun t => if t = 0 then [exJob1] else [exJob2, exJob2]

theorem exJob1_ok : JobOk exCfg exJob1 :=
  ⟨by decide, by decide, by decide, by decide, fun b _ => le_refl _, fun b _ k => by
    show k + (if b = 0 then 1 else 2) ≤ 2 * k + 4
    split <;> omega⟩

theorem exJob2_ok : JobOk exCfg exJob2 :=
  ⟨by decide, by decide, by decide, by decide, fun b _ => le_refl _, fun b _ k => by
    show k + (if b = 0 then 2 else 0) ≤ 2 * k + 4
    split <;> omega⟩

example : Setup exCfg (fun b => b) (fun b => b) #[0, 9, 9, 9] #[9, 9, 9] exJobs := by
  refine ⟨by decide, by decide, ?_, ?_, ?_⟩
  · intro t j hj
    unfold exJobs at hj
    split at hj
    · rw [List.mem_singleton] at hj; rw [hj]; exact exJob1_ok
    · have : j = exJob2 := by simpa using hj
      rw [this]; exact exJob2_ok
  · rw [Fin.sum_univ_two]; decide
  · rw [Fin.sum_univ_two]; decide

end Spasm.Commit
