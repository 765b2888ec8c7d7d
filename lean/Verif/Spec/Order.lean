import Verif.Spec.Sequential
import Mathlib.Data.Fin.VecNotation
import Mathlib.Algebra.BigOperators.Fin

/-
`spasm_schur` run by three threads, one row each, that execute one after the other in a given order: some of the possible
runs, which can be computed (for examples).
-/

namespace Spasm

open Finset

/-- The steps of thread `t`, until it can no longer move. -/
def Commit.runOne {T : Nat} (cfg : Commit.Cfg) (junk : Nat → Int) (t : Fin T) : Nat → Commit.St T → C (Commit.St T)
  | 0, _ => .error .fuel
  | k + 1, s =>
    match Commit.step cfg junk t s with
    | none => .ok s
    | some (.error e) => .error e
    | some (.ok s') => Commit.runOne cfg junk t k s'

/-- The threads of the list, one after the other. -/
def Commit.runOrder {T : Nat} (cfg : Commit.Cfg) (junk : Nat → Int) : List (Fin T) → Commit.St T → C (Commit.St T)
  | [], s => .ok s
  | t :: l, s =>
    match Commit.runOne cfg junk t 1000 s with
    | .error e => .error e
    | .ok s' => Commit.runOrder cfg junk l s'

theorem Commit.runOne_reach {T : Nat} {cfg : Commit.Cfg} {junk : Nat → Int} {s0 : Commit.St T} {t : Fin T} {k : Nat}
    {s s' : Commit.St T} (h0 : Commit.Reach cfg junk s0 s) (h : Commit.runOne cfg junk t k s = .ok s') :
    Commit.Reach cfg junk s0 s' := by
  induction k generalizing s with
  | zero => cases h
  | succ k ih =>
    unfold Commit.runOne at h
    split at h
    · cases h; exact h0
    · cases h
    · next s1 h1 => exact ih (.step h0 h1) h

theorem Commit.runOrder_reach {T : Nat} {cfg : Commit.Cfg} {junk : Nat → Int} {s0 : Commit.St T} {l : List (Fin T)}
    {s s' : Commit.St T} (h0 : Commit.Reach cfg junk s0 s) (h : Commit.runOrder cfg junk l s = .ok s') :
    Commit.Reach cfg junk s0 s' := by
  induction l generalizing s with
  | nil => cases h; exact h0
  | cons t l ih =>
    unfold Commit.runOrder at h
    split at h
    · cases h
    · next s1 h1 => exact ih (Commit.runOne_reach h0 h1) h

/-- `spasm_schur` on three rows, by three threads. -/
def schurThree (order : List (Fin 3)) (jk : Junk) (a : SchurIn) : C SchurOut := do
  cassert (decide (a.n = 3))
  let j0 ← schur_thread jk a.A a.U a.qinv a.L.isSome a.p_in a.p [0]
  let j1 ← schur_thread jk a.A a.U a.qinv a.L.isSome a.p_in a.p [1]
  let j2 ← schur_thread jk a.A a.U a.qinv a.L.isSome a.p_in a.p [2]
  let S0 ← csr_alloc jk a.n a.A.m a.size a.A.F.p true
  let s ← Commit.runOrder (schurCfg a.A.m a.L.isSome) jk.int order (schur_init S0 a.L a.p_out ![j0, j1, j2])
  cassert (decide (∀ t, (match (s.th t).pc with | .idle => (s.th t).todo.isEmpty | _ => false) = true))
  let r ← schur_finish jk s a.n a.A.m S0.F a.L
  .ok ⟨r.1, r.2, s.tags⟩

theorem schurThree_run {order : List (Fin 3)} {jk : Junk} {a : SchurIn} {o : SchurOut}
    (h : schurThree order jk a = .ok o) :
    SchurRun jk a.A a.p a.n a.U a.qinv a.size a.L a.p_in a.p_out o.S o.L o.p_out := by
  unfold schurThree at h
  obtain ⟨_, h0, h⟩ := bind_eq_ok h
  obtain ⟨j0, e0, h⟩ := bind_eq_ok h
  obtain ⟨j1, e1, h⟩ := bind_eq_ok h
  obtain ⟨j2, e2, h⟩ := bind_eq_ok h
  obtain ⟨S0, h2, h⟩ := bind_eq_ok h
  obtain ⟨s, h3, h⟩ := bind_eq_ok h
  obtain ⟨_, h4, h⟩ := bind_eq_ok h
  obtain ⟨r, h5, h⟩ := bind_eq_ok h
  cases h
  have hn : a.n = 3 := by
    unfold cassert at h0
    split at h0
    · next h6 => exact of_decide_eq_true h6
    · cases h0
  refine ⟨3, fun t => [t.val], ![j0, j1, j2], S0, s, ?_, ?_, h2,
    Commit.runOrder_reach .init h3, ?_, h5, rfl⟩
  · rw [hn, Fin.sum_univ_three]; decide
  · intro t
    match t with
    | 0 => exact e0
    | 1 => exact e1
    | 2 => exact e2
  · intro t
    unfold cassert at h4
    split at h4
    · next h6 =>
      have := of_decide_eq_true h6 t
      split at this
      · next h7 => exact ⟨h7, by simpa using this⟩
      · cases this
    · cases h4

end Spasm
