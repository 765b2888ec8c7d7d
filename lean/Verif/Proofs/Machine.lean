import Verif.Spec.Machine
import Verif.Props.Echelonize
import Verif.Props.Workspace
import Verif.Props.StoreBuffer

/-
The library on a machine with store buffers.
-/

namespace Spasm

open Finset Commit

theorem schur_mach_iff (jk : Junk) (q : ℕ) (a : SchurIn) (h : SchurPre q a.A a.p a.n a.U a.qinv a.L a.p_in a.p_out)
    (hb : a.A.m ≤ 715827882) (o : SchurOut) :
    SchurRunMach jk a o ↔ SchurRun jk a.A a.p a.n a.U a.qinv a.size a.L a.p_in a.p_out o.S o.L o.p_out := by
  rw [← C70_schur_partial jk q a.A a.p a.n a.U a.qinv a.size a.L a.p_in a.p_out h]
  have key : ∀ (T : Nat) (rows : Fin T → List Nat), ∑ t, (rows t : Multiset Nat) = Multiset.range a.n → ∀ t js,
      schur_thread_ws jk a.A a.U a.qinv a.L.isSome a.p_in a.p (rows t) = .ok js ↔
        schur_thread jk a.A a.U a.qinv a.L.isSome a.p_in a.p (rows t) = .ok js := by
    intro T rows hr t js
    refine sim_ok_iff (schur_thread_ws_sim h.m_eq (by omega)) ?_ js
    obtain ⟨v, e, -⟩ := Ok_iff.mp (h.threads jk hr t)
    exact ⟨v, e⟩
  constructor
  · rintro ⟨T, rows, jobs, S0, m, h1, h2, h3⟩
    exact ⟨T, rows, jobs, S0, m, h1, fun t => (key T rows h1 t _).mp (h2 t), h3⟩
  · rintro ⟨T, rows, jobs, S0, m, h1, h2, h3⟩
    exact ⟨T, rows, jobs, S0, m, h1, fun t => (key T rows h1 t _).mpr (h2 t), h3⟩

/-! ### The environment -/

/-- Another environment, with the same outcomes for matrices of at most 715827882 columns. -/
noncomputable def Env.narrow (env : Env) : Env :=
  { env with
    schur := fun k a => if a.A.m ≤ 715827882 then env.schur k a else (env.pick default env.ff).schur k a
    dense := fun k a => if a.A.m ≤ 715827882 then env.dense k a else (env.pick default env.ff).dense k a }

theorem Env.Machine.narrow {env : Env} {q : ℕ} (h : env.Machine q) : env.narrow.Possible q := by
  have hp := C27_env default q env h.draw env.ff h.ff
  refine ⟨fun k A pinv qinv => ?_, fun k a ha => ?_, fun k a ha => ?_, h.ff, h.draw⟩
  · have := h.greedy k A pinv qinv
    simp only [Greedy.C71_outcome_partial] at this
    exact this
  · show ∃ jk o, (if a.A.m ≤ 715827882 then env.schur k a else (env.pick default env.ff).schur k a) = .ok o ∧ _
    by_cases hb : a.A.m ≤ 715827882
    · obtain ⟨jk, o, h1, h2⟩ := h.schur k a hb ha
      exact ⟨jk, o, by rw [if_pos hb, h1], (schur_mach_iff jk q a ha hb o).mp h2⟩
    · simp only [if_neg hb]
      exact hp.schur k a ha
  · show ∃ jk o, (if a.A.m ≤ 715827882 then env.dense k a else (env.pick default env.ff).dense k a) = .ok o ∧ _
    by_cases hb : a.A.m ≤ 715827882
    · obtain ⟨jk, o, h1, h2⟩ := h.dense k a hb ha
      exact ⟨jk, o, by rw [if_pos hb, h1], (C69_dense jk q a ha hb o).mp h2⟩
    · simp only [if_neg hb]
      exact hp.dense k a ha

/-! ### The driver -/

theorem forBrkN_congr_inv {σ : Type} {f g : Nat → σ → C (Step σ)} (I : Nat → σ → Prop) (k lo : Nat) (s : σ) (h0 : I lo s)
    (h1 : ∀ i s, lo ≤ i → i < lo + k → I i s → f i s = g i s)
    (h2 : ∀ i s s', lo ≤ i → i < lo + k → I i s → g i s = .ok (.cont s') → I (i + 1) s') :
    forBrkN lo k s f = forBrkN lo k s g := by
  induction k generalizing lo s with
  | zero => rfl
  | succ k ih =>
    unfold forBrkN
    rw [h1 lo s (le_refl _) (by omega) h0]
    cases e : g lo s with
    | error _ => rfl
    | ok r =>
      cases r with
      | brk _ => rfl
      | cont s' =>
        exact ih (lo + 1) s' (h2 lo s s' (le_refl _) (by omega) h0 e) (fun i s a b => h1 i s (by omega) (by omega))
          (fun i s s' a b => h2 i s s' (by omega) (by omega))

theorem forBrk_congr_inv {σ : Type} {f g : Nat → σ → C (Step σ)} (I : Nat → σ → Prop) {lo hi : Nat} {s : σ} (h0 : I lo s)
    (h1 : ∀ i s, lo ≤ i → i < hi → I i s → f i s = g i s)
    (h2 : ∀ i s s', lo ≤ i → i < hi → I i s → g i s = .ok (.cont s') → I (i + 1) s') :
    forBrk lo hi s f = forBrk lo hi s g := by
  unfold forBrk
  rw [forBrkN_congr_inv I (hi - lo) lo s h0 (fun i s a b => h1 i s a (by omega)) (fun i s s' a b => h2 i s s' a (by omega))]

section
variable {q : ℕ} [Fact q.Prime] {A0 : Csr} {env : Env} {opts : Opts}

theorem round_narrow (jk : Junk) {s : Driver} (hb : s.A.m ≤ 715827882) (round : Nat) :
    echelonize_round jk env opts round s = echelonize_round jk env.narrow opts round s := by
  unfold echelonize_round echelonize_schur
  simp only [Env.narrow, if_pos hb]

theorem dense_narrow (jk : Junk) {A : Csr} (hb : A.m ≤ 715827882) (p : Array Nat) (n : Nat) (p_in : Option (Array Nat))
    (fact : Lu) : echelonize_dense jk env opts A p n p_in fact = echelonize_dense jk env.narrow opts A p n p_in fact := by
  have e : ∀ s, dense_round jk env opts A p n p_in s = dense_round jk env.narrow opts A p n p_in s := by
    intro s
    unfold dense_round dense_transfer
    simp only [Env.narrow, if_pos hb]
    rfl
  have el : ∀ p n f, lowrank jk env opts A p n f = lowrank jk env.narrow opts A p n f := fun _ _ _ => rfl
  unfold echelonize_dense
  simp only [e, el]

theorem finish_narrow (jk : Junk) (henv : env.narrow.Possible q) (hb : A0.m ≤ 715827882) {s : Driver}
    (h : RoundEnd q env.narrow opts A0 s) : mach_finish jk env opts s = echelonize_finish jk env.narrow opts s := by
  have hm := h.m_eq
  have hb' : s.A.m ≤ 715827882 := by omega
  obtain ⟨old, hP⟩ := h.part
  have hle := h.le
  have hps := h.p_size
  have hsz : s.n - s.npiv ≤ (shift s.p s.npiv).size := by simp; omega
  have hpn : ∀ i, i < s.n - s.npiv → (shift s.p s.npiv).g i < s.A.n := by
    intro i hi
    rw [g_shift (by omega)]; exact h.p_lt _ (by omega)
  unfold mach_finish echelonize_finish
  rw [csub_ok hle]
  simp only [ok_bind_eq]
  rw [C69_GPLU jk q A0 s.A h.wfv hm s.p_in h.perm _ _ hsz hpn s.fact _ old opts.complete hP ?_ hb', dense_narrow jk hb']
  · rfl
  · intro _ U qinv hU hUm
    obtain ⟨b, e, -⟩ := Ok_iff.mp (test_completion_spec jk h.wfv hU hUm hsz hpn henv.draw henv.ff)
    exact ⟨b, e⟩

/-- On the machine, the driver does what it does in some environment of C27 and C28 with the same dense library, random
numbers and decisions. -/
theorem mach_narrow (jk : Junk) (henv : env.Machine q) (hA0 : A0.WFV q) (hnd : A0.NoDup) (hz : A0.NoZero)
    (hb : A0.m ≤ 715827882) : mach_echelonize jk env opts A0 = echelonize jk env.narrow opts A0 := by
  have hp := henv.narrow
  unfold mach_echelonize echelonize
  simp only
  generalize opts.norm = op
  have hinit := echelonize_init_spec (opts := op) jk hA0
  rw [Ok_iff] at hinit
  obtain ⟨f, ef, f1, f2, f3, f4⟩ := hinit
  rw [ef]
  simp only [ok_bind_eq]
  have h0 : RoundInv q env.narrow op A0 0 ⟨A0, A0.n, none, mkArr A0.n jk.nat, 0, f, 0⟩ :=
    ⟨hA0, hnd, hz, rfl, rfl, fun a ha => (nomatch ha), by simp only; rw [f2]; exact f1, f4, f3, rfl,
      .inl ⟨rfl, rfl⟩, by simp only; omega⟩
  have hloop := Ok_forBrk (I := RoundInv q env.narrow op A0) (B := fun _ => RoundBrk q env.narrow op A0) (Nat.zero_le _) h0
    (fun i s _ hi hI => (echelonize_round_spec jk hp hi hI).mono fun r hr => by cases r <;> exact hr)
  rw [forBrk_congr_inv (RoundInv q env.narrow op A0) h0 (g := fun round s => echelonize_round jk env.narrow op round s)
    (fun i s _ _ hI => round_narrow jk (by rw [hI.m_eq]; exact hb) i)
    (fun i s s' _ hi hI e => (by
      have := echelonize_round_spec jk hp hi hI
      rw [e, Ok_ok] at this
      exact this))]
  rw [Ok_iff] at hloop
  obtain ⟨⟨k, s⟩, es, hs⟩ := hloop
  rw [es]
  simp only [ok_bind_eq]
  simp only at hs
  have hs' : RoundBrk q env.narrow op A0 s ∨ RoundInv q env.narrow op A0 op.max_round s :=
    hs.imp (fun h => h.2.2) (fun h => h.2)
  have hrest : mach_rest jk env op s = echelonize_rest jk env.narrow op s := by
    unfold mach_rest echelonize_rest
    rcases hs' with (⟨h1, -⟩ | ⟨h1, h2⟩) | h
    · rw [if_pos h1, if_pos h1]
    · rw [if_neg (by omega), if_neg (by omega), if_neg (by omega), if_neg (by omega)]
      exact finish_narrow jk hp hb h2
    · have := h.status
      rw [if_neg (by omega), if_pos this, if_neg (by omega), if_pos this]
      exact finish_narrow jk hp hb (h.end rfl)
  rw [hrest]

end

end Spasm
