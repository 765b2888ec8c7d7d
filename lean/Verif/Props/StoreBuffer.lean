import Verif.Proofs.StoreBuffer
import Verif.Props.Commit
import Verif.Props.Schur
import Verif.Props.Kernel

/-
C70: the parallel commit protocol on machines with store buffers.  The theorems are about machines whose atomic updates wait
for the earlier writes of their thread, and are called `_partial` because OpenMP does not require it; `C70_relaxed` shows
that the claim is false without.
-/

namespace Spasm.Commit

variable {T : Nat}

/-- C70 (safety). On a machine with store buffers whose atomic updates wait for the buffer of their thread, in every
interleaving, no program step has undefined behaviour, and no write reaches an allocation that has been freed. -/
theorem C70_safe_partial (cfg : Cfg) (junk : Nat → Int) (cap used : Nat → Nat)
    (mem : Nat → Nat → Nat → Int) (rowp tags : Array Nat) (jj : Job) (jobs : Fin T → List Job)
    (hs : Setup cfg cap used rowp tags jobs) (m : Buf T)
    (hr : BReach true cfg junk (Buf.init (St.init cap used mem rowp tags jj jobs)) m) (t : Fin T) (r : C (Buf T))
    (hst : bstep true cfg junk t m = some r ∨ ∃ k, bput t k m = some r) : ∃ m', r = .ok m' := by
  obtain ⟨σ, L, h1, h2⟩ := breach_sim hs.nb hs.cap hs.ok hs.rowp hs.tags hr
  obtain ⟨⟨log, hI⟩, -⟩ := reach_inv hs.nb hs.cap hs.ok hs.rowp hs.tags h2
  rcases hst with hst | ⟨k, hst⟩
  · obtain ⟨m', -, -, e, -, -⟩ := h1.step hs.nb hs.rowp hs.tags hI hst
    exact ⟨m', e⟩
  · obtain ⟨m', -, e, -, -⟩ := h1.drain hs.nb hI hst
    exact ⟨m', e⟩

/-- C70 (result). On such a machine, the memory is, whenever the buffers are empty, in a state that is reachable without
buffers; in particular at the end.  Hence everything proved about the results of `Reach` (C18-C22) holds there. -/
theorem C70_refine_partial (cfg : Cfg) (junk : Nat → Int) (cap used : Nat → Nat)
    (mem : Nat → Nat → Nat → Int) (rowp tags : Array Nat) (jj : Job) (jobs : Fin T → List Job)
    (hs : Setup cfg cap used rowp tags jobs) (m : Buf T)
    (hr : BReach true cfg junk (Buf.init (St.init cap used mem rowp tags jj jobs)) m) (hb : ∀ t, m.buf t = []) :
    Reach cfg junk (St.init cap used mem rowp tags jj jobs) m.s := by
  obtain ⟨σ, L, h1, h2⟩ := breach_sim hs.nb hs.cap hs.ok hs.rowp hs.tags hr
  have hL : L = [] := by
    rw [List.eq_nil_iff_forall_not_mem]
    intro e he
    have : e.2 ∈ m.buf e.1 := by
      rw [h1.buf e.1]
      exact List.mem_map.mpr ⟨e, List.mem_filter.mpr ⟨he, by simp⟩, rfl⟩
    rw [hb] at this; cases this
  have : σ = m.s := by rw [h1.flat, hL]; rfl
  rw [← this]; exact h2

/-- C70 (the rows). At the end, the memory contains the rows of all the threads, each exactly once, one after the other in
some order. -/
theorem C70_final_partial (cfg : Cfg) (junk : Nat → Int) (cap used : Nat → Nat)
    (mem : Nat → Nat → Nat → Int) (rowp tags : Array Nat) (jj : Job) (jobs : Fin T → List Job)
    (hs : Setup cfg cap used rowp tags jobs) (m : Buf T)
    (hr : BReach true cfg junk (Buf.init (St.init cap used mem rowp tags jj jobs)) m) (hf : m.Finished) :
    ∃ log : List Job, (log : Multiset Job) = ∑ t, (jobs t : Multiset Job) ∧ Laid cfg used mem log m.s := by
  obtain ⟨log, h1, h2, -⟩ := C22_final cfg junk cap used mem rowp tags jj jobs hs m.s
    (C70_refine_partial cfg junk cap used mem rowp tags jj jobs hs m hr hf.2) hf.1
  exact ⟨log, h1, h2⟩

/-- C70 (no deadlock). From every reachable state the end can be reached; and every state reachable without buffers is
reachable with buffers. -/
theorem C70_complete (cfg : Cfg) (junk : Nat → Int) (cap used : Nat → Nat)
    (mem : Nat → Nat → Nat → Int) (rowp tags : Array Nat) (jj : Job) (jobs : Fin T → List Job)
    (hs : Setup cfg cap used rowp tags jobs) :
    (∀ m, BReach true cfg junk (Buf.init (St.init cap used mem rowp tags jj jobs)) m →
      ∃ m', BReach true cfg junk m m' ∧ m'.Finished) ∧
    ∀ s, Reach cfg junk (St.init cap used mem rowp tags jj jobs) s →
      BReach true cfg junk (Buf.init (St.init cap used mem rowp tags jj jobs)) (Buf.init s) := by
  refine ⟨fun m hr => ?_, fun s hr => ?_⟩
  · obtain ⟨σ, L, h1, h2⟩ := breach_sim hs.nb hs.cap hs.ok hs.rowp hs.tags hr
    obtain ⟨⟨log, hI⟩, -⟩ := reach_inv hs.nb hs.cap hs.ok hs.rowp hs.tags h2
    obtain ⟨s', h3, h4⟩ := completes (junk := junk) hs.nb hs.rowp hs.tags ⟨log, hI⟩
    exact ⟨Buf.init s', (h1.drain_all hs.nb hI).trans (breach_of_reach hs.nb hs.rowp hs.tags ⟨log, hI⟩ h3).1,
      h4, fun _ => rfl⟩
  · exact (breach_of_reach hs.nb hs.rowp hs.tags
      ⟨[], inv_init cap used mem rowp tags jj jobs hs.cap hs.ok⟩ hr).1

/-! ### Relaxed atomic updates

Two threads with one row each; there is room for one entry.  The first thread writes its row and decrements `writing`,
but its writes have not reached the memory yet.  The second one sees that nobody is writing, and reallocates.  Then the
writes of the first thread arrive in the block that has been freed. -/

/-- One buffer with two arrays, as in `spasm_kernel`. -/
def exCfgK : Cfg := { nb := 1, wid := fun _ => 2, need := fun _ l => l, grow := fun _ k l => 2 * k + l }

/-- A row with one entry. -/
def exJobK (v : Int) : Job := { len := fun _ => 1, ws := [⟨0, 0, 0, v⟩, ⟨0, 0, 1, 1⟩], tag := 0 }

def exJobsK : Fin 2 → List Job := fun t => if t = 0 then [exJobK 3] else [exJobK 4]

def exStK : St 2 := St.init (fun _ => 1) (fun _ => 0) (fun _ _ _ => 0) #[0, 0, 0] #[0, 0] (exJobK 0) exJobsK

theorem exJobK_ok (v : Int) : JobOk exCfgK (exJobK v) := by
  refine ⟨?_, ?_, ?_, rfl, fun b _ => le_refl _, fun b _ k => ?_⟩
  · intro w hw
    simp only [exJobK, List.mem_cons, List.not_mem_nil, or_false] at hw
    rcases hw with rfl | rfl <;> simp [exCfgK, exJobK]
  · show [((0 : Nat), (0 : Nat), (0 : Nat)), (0, 0, 1)].Nodup
    decide
  · intro b hb c hc o ho
    simp only [exCfgK, exJobK] at hb hc ho
    have hb0 : b = 0 := by omega
    have ho0 : o = 0 := by omega
    subst hb0; subst ho0
    rcases (show c = 0 ∨ c = 1 by omega) with rfl | rfl
    · exact ⟨⟨0, 0, 0, v⟩, by simp [exJobK], rfl, rfl, rfl⟩
    · exact ⟨⟨0, 0, 1, 1⟩, by simp [exJobK], rfl, rfl, rfl⟩
  · show k + 1 ≤ 2 * k + 1
    omega

theorem exSetupK : Setup exCfgK (fun _ => 1) (fun _ => 0) #[0, 0, 0] #[0, 0] exJobsK := by
  refine ⟨by decide, by decide, ?_, ?_, ?_⟩
  · intro t j hj
    unfold exJobsK at hj
    split at hj <;> rw [List.mem_singleton] at hj <;> rw [hj] <;> exact exJobK_ok _
  · rw [Fin.sum_univ_two]; decide
  · rw [Fin.sum_univ_two]; decide

/-- Run a schedule: `(t, none)` is a program step of thread `t`, `(t, some k)` its pending write number `k` reaches the
memory. -/
def brun (strong : Bool) (cfg : Cfg) (junk : Nat → Int) {T : Nat} : List (Fin T × Option Nat) → Buf T → Option (Buf T)
  | [], m => some m
  | (t, a) :: l, m =>
    match (match a with | none => bstep strong cfg junk t m | some k => bput t k m) with
    | some (.ok m') => brun strong cfg junk l m'
    | _ => none

theorem brun_reach {strong : Bool} {cfg : Cfg} {junk : Nat → Int} {l : List (Fin T × Option Nat)} {m m' : Buf T}
    (h : brun strong cfg junk l m = some m') : BReach strong cfg junk m m' := by
  induction l generalizing m with
  | nil => cases h; exact .init
  | cons a l ih =>
    obtain ⟨t, a⟩ := a
    unfold brun at h
    split at h
    · rename_i m1 h1
      refine BReach.trans ?_ (ih h)
      cases a with
      | none => exact BReach.step .init h1
      | some k => exact BReach.put .init h1
    · cases h

def isUb {α : Type} : Option (C α) → Bool
  | some (.error .ub) => true
  | _ => false

/-- The first thread writes its row and leaves, then the second one reallocates. -/
def exSchedK : List (Fin 2 × Option Nat) :=
  [(0, none), (0, none), (0, none), (0, some 0), (0, some 0), (0, none), (0, none),   -- idle test reserve (2 writes) enter unlock
   (0, none), (0, none), (0, none), (0, none), (0, none), (0, none),      -- tag, write, write, end, rowptr, leave
   (1, none), (1, none), (1, none), (1, none), (1, some 0)]      -- idle, test, wait, realloc

theorem exSchedK_ub :
    (match brun false exCfgK (fun _ => 0) exSchedK (Buf.init exStK) with
      | some m => isUb (bput 0 1 m)
      | none => false) = true := by decide +kernel

/-- C70 (witness). If atomic updates do not wait for the buffer of their thread, a write can reach a block that has been
freed. -/
theorem C70_relaxed : ∃ m, BReach false exCfgK (fun _ => 0) (Buf.init exStK) m ∧
    ∃ t k, bput t k m = some (.error .ub) := by
  have h := exSchedK_ub
  cases hm : brun false exCfgK (fun _ => 0) exSchedK (Buf.init exStK) with
  | none => rw [hm] at h; cases h
  | some m =>
    rw [hm] at h
    refine ⟨m, brun_reach hm, 0, 1, ?_⟩
    simp only at h
    unfold isUb at h
    split at h
    · assumption
    · cases h

/-! ### The functions -/

open Finset


/-- C70 (Schur complement). On a machine with store buffers and strong atomic updates, the possible results of
`spasm_schur` are those of C21. -/
theorem C70_schur_partial (jk : Junk) (q : ℕ) (A : Csr) (p : Array Nat) (n : Nat) (U : Csr)
    (qinv : Array Int) (size : Nat) (L : Option Triplet) (p_in : Option (Array Nat))
    (p_out : Array Nat) (h : SchurPre q A p n U qinv L p_in p_out)
    (S : Csr) (L' : Option Triplet) (p_out' : Array Nat) :
    SchurRunBuf true jk A p n U qinv size L p_in p_out S L' p_out' ↔
      SchurRun jk A p n U qinv size L p_in p_out S L' p_out' := by
  have key : ∀ (T : Nat) (rows : Fin T → List Nat) (jobs : Fin T → List Job) (S0 : Csr),
      ∑ t, (rows t : Multiset Nat) = Multiset.range n →
      (∀ t, schur_thread jk A U qinv L.isSome p_in p (rows t) = .ok (jobs t)) →
      csr_alloc jk n A.m size A.F.p true = .ok S0 →
      ∃ cap used mem, schur_init S0 L p_out jobs = St.init cap used mem S0.p p_out ⟨fun _ => 0, [], 0⟩ jobs ∧
        Setup (schurCfg A.m L.isSome) cap used S0.p p_out jobs := by
    intro T rows jobs S0 hrows hth hS0
    have hal := csr_alloc_spec jk n A.m size true h.A_wfv.field_ok
    rw [hS0, Ok_ok] at hal
    have hj : ∀ t, List.Forall₂ (fun i job =>
        ∃ es ts, SchurJob q A U qinv L.isSome p_in (p.g i) job es ts) (rows t) (jobs t) := by
      intro t
      have := h.threads jk hrows t
      rwa [hth t, Ok_ok] at this
    obtain ⟨cap, used, mem, h1, h2, h3, h4, h5, h6, h7, h8, h9⟩ :=
      schur_reach (fun Z hZ => (h.L_wf Z hZ).1) h.out_size hrows hj hal.1
    exact ⟨cap, used, mem, h1, h4, h5, h6, h8, h9⟩
  constructor
  · rintro ⟨T, rows, jobs, S0, m, hrows, hth, hS0, hr, hf, hfin, ht⟩
    obtain ⟨cap, used, mem, h1, hs⟩ := key T rows jobs S0 hrows hth hS0
    refine ⟨T, rows, jobs, S0, m.s, hrows, hth, hS0, ?_, hf.1, hfin, ht⟩
    rw [h1] at hr ⊢
    exact C70_refine_partial _ _ _ _ _ _ _ _ _ hs m hr hf.2
  · rintro ⟨T, rows, jobs, S0, s, hrows, hth, hS0, hr, hf, hfin, ht⟩
    obtain ⟨cap, used, mem, h1, hs⟩ := key T rows jobs S0 hrows hth hS0
    refine ⟨T, rows, jobs, S0, Buf.init s, hrows, hth, hS0, ?_, ⟨hf, fun _ => rfl⟩, hfin, ht⟩
    rw [h1] at hr ⊢
    exact (C70_complete _ _ _ _ _ _ _ _ _ hs).2 s hr

/-- C70 (kernel). On a machine with store buffers and strong atomic updates, the possible results of `spasm_kernel` are
those of C18. -/
theorem C70_kernel_partial (jk : Junk) (q : ℕ) (U : Csr) (qinv : Array Int) (h : Echelon q U qinv) (K : Csr) :
    KernelRunBuf true jk U qinv K ↔ KernelRun jk U qinv K := by
  have key : ∀ (T : Nat) (cols : Fin T → List Nat) (jobs : Fin T → List Job) (Ut K0 : Csr) (utqinv : Array Int),
      ∑ t, (cols t : Multiset Nat) = Multiset.range U.m → kernel_pre jk U qinv = .ok (Ut, K0, utqinv) →
      (∀ t, kernel_thread jk U.n U.m Ut qinv utqinv (cols t) = .ok (jobs t)) →
      Setup kernelCfg (fun _ => K0.nzmax) (fun _ => 0) K0.p (mkArr U.m fun _ => 0) jobs := by
    intro T cols jobs Ut K0 utqinv hc hpre hth
    have hp := kernel_pre_spec jk h
    rw [hpre, Ok_ok] at hp
    obtain ⟨h1, h2, h3⟩ := hp
    obtain ⟨h4, h5, h6, h8, h9⟩ := rows_setup (cfg := kernelCfg) (N := U.m) rfl rfl (fun t => by
      have := h1 (cols t) (by
        intro j hj
        have : j ∈ ∑ t, (cols t : Multiset Nat) := (mem_sum_coe cols j).mpr ⟨t, hj⟩
        rw [hc] at this; exact Multiset.mem_range.mp this)
      rwa [hth t, Ok_ok] at this) (nonpiv_rows h hc).2 (Nat.sub_le _ _) h2
    exact ⟨h4, h5, h6, h8, h9⟩
  constructor
  · rintro ⟨T, cols, jobs, Ut, K0, utqinv, m, hc, hpre, hth, hr, hf, e⟩
    exact ⟨T, cols, jobs, Ut, K0, utqinv, m.s, hc, hpre, hth,
      C70_refine_partial _ _ _ _ _ _ _ _ _ (key T cols jobs Ut K0 utqinv hc hpre hth) m hr hf.2, hf.1, e⟩
  · rintro ⟨T, cols, jobs, Ut, K0, utqinv, s, hc, hpre, hth, hr, hf, e⟩
    exact ⟨T, cols, jobs, Ut, K0, utqinv, Buf.init s, hc, hpre, hth,
      (C70_complete _ _ _ _ _ _ _ _ _ (key T cols jobs Ut K0 utqinv hc hpre hth)).2 s hr, ⟨hf, fun _ => rfl⟩, e⟩

/-- C70 (reduced echelon form). On a machine with store buffers and strong atomic updates, the possible results of
`spasm_rref` are those of C20. -/
theorem C70_rref_partial (jk : Junk) (q : ℕ) (U : Csr) (qinv rq : Array Int) (h : Echelon q U qinv)
    (R : Csr) (rq' : Array Int) : RrefRunBuf true jk U qinv rq R rq' ↔ RrefRun jk U qinv rq R rq' := by
  have key : ∀ (T : Nat) (rows : Fin T → List Nat) (jobs : Fin T → List Job) (R0 : Csr) (k : Nat),
      ∑ t, (rows t : Multiset Nat) = Multiset.range U.n → csr_alloc jk U.n U.m k U.F.p true = .ok R0 →
      (∀ t, rref_thread jk U qinv (rows t) = .ok (jobs t)) →
      Setup (rrefCfg U.m) (fun _ => R0.nzmax) (fun _ => 0) R0.p (mkArr U.n fun _ => 0) jobs := by
    intro T rows jobs R0 k hc hR0 hth
    have hal := csr_alloc_spec jk U.n U.m k true h.wfv.field_ok
    rw [hR0, Ok_ok] at hal
    have hj : ∀ t, List.Forall₂ (fun i job =>
        ∃ es, RrefRow q U qinv i es ∧ RowJob (rrefCfg U.m) job es) (rows t) (jobs t) := by
      intro t
      have := rref_thread_spec jk h (rows t) (by
        intro j hj
        have : j ∈ ∑ t, (rows t : Multiset Nat) := (mem_sum_coe rows j).mpr ⟨t, hj⟩
        rw [hc] at this; exact Multiset.mem_range.mp this)
      rwa [hth t, Ok_ok] at this
    obtain ⟨h4, h5, h6, h8, h9⟩ := rows_setup (cfg := rrefCfg U.m) (N := U.n) rfl rfl hj
      (by rw [hc, Multiset.card_range]) (le_refl _) hal.1
    exact ⟨h4, h5, h6, h8, h9⟩
  constructor
  · rintro ⟨T, rows, jobs, R0, k, m, hc, hk, hR0, hth, hr, hf, e1, e2⟩
    exact ⟨T, rows, jobs, R0, k, m.s, hc, hk, hR0, hth,
      C70_refine_partial _ _ _ _ _ _ _ _ _ (key T rows jobs R0 k hc hR0 hth) m hr hf.2, hf.1, e1, e2⟩
  · rintro ⟨T, rows, jobs, R0, k, s, hc, hk, hR0, hth, hr, hf, e1, e2⟩
    exact ⟨T, rows, jobs, R0, k, Buf.init s, hc, hk, hR0, hth,
      (C70_complete _ _ _ _ _ _ _ _ _ (key T rows jobs R0 k hc hR0 hth)).2 s hr, ⟨hf, fun _ => rfl⟩, e1, e2⟩

/-- The hypotheses of the three theorems hold for the matrices of the examples of C18, C20 and C21. -/
example (jk : Junk) : SchurPre 7 exFA #[2, 0] 2 exU exUqinv (some exZ) (some #[3, 0, 1]) #[9, 9] ∧
    Echelon 7 exU exUqinv ∧ ∃ rq R rq', RrefRunBuf true jk exU exUqinv rq R rq' := by
  obtain ⟨R, rq, h⟩ := exRrefRun jk
  exact ⟨exSchurPre, exU_echelon, _, R, rq, (C70_rref_partial jk 7 exU exUqinv _ exU_echelon R rq).mpr h⟩

end Spasm.Commit
