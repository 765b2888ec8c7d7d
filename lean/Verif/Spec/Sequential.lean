import Verif.Model.Echelonize

/-
The functions with parallel phases, run by a single thread: one of their possible runs, which can be
computed (for examples).
-/

namespace Spasm

open Finset

/-- The steps of the only thread, until it can no longer move. -/
def Commit.runAlone (cfg : Commit.Cfg) (junk : Nat → Int) : Nat → Commit.St 1 → C (Commit.St 1)
  | 0, _ => .error .fuel
  | k + 1, s =>
    match Commit.step cfg junk 0 s with
    | none => .ok s
    | some (.error e) => .error e
    | some (.ok s') => Commit.runAlone cfg junk k s'

/-- `spasm_schur` with one thread. -/
def schurAlone (jk : Junk) (a : SchurIn) : C SchurOut := do
  let jobs ← schur_thread jk a.A a.U a.qinv a.L.isSome a.p_in a.p (List.range a.n)
  let S0 ← csr_alloc jk a.n a.A.m a.size a.A.F.p true
  let s ← Commit.runAlone (schurCfg a.A.m a.L.isSome) jk.int 10000 (schur_init S0 a.L a.p_out fun _ => jobs)
  cassert (match (s.th 0).pc with | .idle => (s.th 0).todo.isEmpty | _ => false)
  let r ← schur_finish jk s a.n a.A.m S0.F a.L
  .ok ⟨r.1, r.2, s.tags⟩

theorem Commit.runAlone_reach {cfg : Commit.Cfg} {junk : Nat → Int} {s0 : Commit.St 1} {k : Nat}
    {s s' : Commit.St 1} (h0 : Commit.Reach cfg junk s0 s) (h : Commit.runAlone cfg junk k s = .ok s') :
    Commit.Reach cfg junk s0 s' := by
  induction k generalizing s with
  | zero => cases h
  | succ k ih =>
    unfold Commit.runAlone at h
    split at h
    · cases h; exact h0
    · cases h
    · next s1 h1 => exact ih (.step h0 h1) h

theorem bind_eq_ok {α β : Type} {x : C α} {f : α → C β} {b : β} (h : (x >>= f) = .ok b) :
    ∃ a, x = .ok a ∧ f a = .ok b := by
  cases x with
  | error e => cases h
  | ok a => exact ⟨a, rfl, h⟩

theorem range_one {n : Nat} : ∑ t, ((fun _ : Fin 1 => List.range n) t : Multiset Nat) = Multiset.range n := by
  simp; rfl

theorem schurAlone_run {jk : Junk} {a : SchurIn} {o : SchurOut} (h : schurAlone jk a = .ok o) :
    SchurRun jk a.A a.p a.n a.U a.qinv a.size a.L a.p_in a.p_out o.S o.L o.p_out := by
  unfold schurAlone at h
  obtain ⟨jobs, h1, h⟩ := bind_eq_ok h
  obtain ⟨S0, h2, h⟩ := bind_eq_ok h
  obtain ⟨s, h3, h⟩ := bind_eq_ok h
  obtain ⟨_, h4, h⟩ := bind_eq_ok h
  obtain ⟨r, h5, h⟩ := bind_eq_ok h
  cases h
  refine ⟨1, fun _ => List.range a.n, fun _ => jobs, S0, s, range_one, fun _ => h1, h2,
    Commit.runAlone_reach .init h3, ?_, h5, rfl⟩
  intro t
  have : t = 0 := by omega
  subst this
  unfold cassert at h4
  split at h4
  · next h6 =>
    split at h4
    · next h7 => exact ⟨h6, by simpa using h7⟩
    · cases h4
  · simp at h4

/-- The steps of the only thread, until it has nothing left to do. -/
def denseSteps : Nat → DSt 1 → C (DSt 1)
  | 0, _ => .error .fuel
  | k + 1, s =>
    match dstep 0 s with
    | none => .ok s
    | some (.error e) => .error e
    | some (.ok s') => denseSteps k s'

/-- `spasm_schur_dense` with one thread. -/
def denseAlone (jk : Junk) (a : DenseIn) : C DenseOut := do
  let q ← prepare_q a.A.m a.qinv a.q
  let L1 ← schur_dense_room jk a.n a.U a.L
  let jobs ← schur_dense_thread jk a.A a.U a.qinv a.L.isSome a.p_in a.dt q a.p (List.range a.n)
  let s ← denseSteps 10000 (dense_init a.S a.p_out L1 fun _ => jobs)
  cassert (s.th 0).todo.isEmpty
  .ok ⟨s.S, q, s.po, L1.map s.toTriplet⟩

theorem denseSteps_reach {s0 : DSt 1} {k : Nat} {s s' : DSt 1} (h0 : DReach s0 s)
    (h : denseSteps k s = .ok s') : DReach s0 s' := by
  induction k generalizing s with
  | zero => cases h
  | succ k ih =>
    unfold denseSteps at h
    split at h
    · cases h; exact h0
    · cases h
    · next s1 h1 => exact ih (.step h0 h1) h

theorem denseAlone_run {jk : Junk} {a : DenseIn} {o : DenseOut} (h : denseAlone jk a = .ok o) :
    SchurDenseRun jk a o := by
  unfold denseAlone at h
  obtain ⟨q, h1, h⟩ := bind_eq_ok h
  obtain ⟨L1, h2, h⟩ := bind_eq_ok h
  obtain ⟨jobs, h3, h⟩ := bind_eq_ok h
  obtain ⟨s, h4, h⟩ := bind_eq_ok h
  obtain ⟨_, h5, h⟩ := bind_eq_ok h
  cases h
  refine ⟨1, fun _ => List.range a.n, fun _ => jobs, L1, s, range_one, h1, h2, fun _ => h3,
    denseSteps_reach .init h4, ?_, rfl, rfl, rfl⟩
  intro t
  have : t = 0 := by omega
  subst this
  unfold cassert at h5
  split at h5
  · next h6 => simpa using h6
  · cases h5

end Spasm
