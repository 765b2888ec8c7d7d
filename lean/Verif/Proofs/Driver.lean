import Verif.Proofs.DriverEnd

/-
The driver as a whole.
-/

namespace Spasm

open Finset

section
variable {q : ℕ} [Fact q.Prime] {A0 : Csr} {env : Env} {opts : Opts}

theorem echelonize_rest_spec {E : Err → Prop} (jk : Junk) (hEf : opts.tall = true → E .fuel)
    (henv : env.Possible q) (hA0 : A0.WFV q) (hnull : opts.max_round ≠ 0 ∨ jk.null0 = false)
    (hb : 0 < opts.block)
    (hw : opts.tall = true → E .ub ∨ ∀ k, k ≤ min A0.n A0.m → |env.weight| * 2 ^ k < 2 ^ 31)
    (hnorm : opts.L = true → opts.tall = false)
    (hpv : opts.L = true → opts.complete = false → opts.dense = true → NoSchur env opts)
    {s : Driver} (h : RoundBrk q env opts A0 s ∨ RoundInv q env opts A0 opts.max_round s) :
    WpE E (echelonize_rest jk env opts s) (Outcome q env opts A0) := by
  unfold echelonize_rest
  rcases h with (⟨h1, h2⟩ | ⟨h1, h2⟩) | h
  · rw [if_pos h1, WpE_ok]
    exact .inl h2
  · rw [if_neg (by omega), if_neg (by omega)]
    exact echelonize_finish_spec jk hEf henv hA0 hnull hb hw hnorm hpv h2
  · have := h.status
    rw [if_neg (by omega), if_pos this]
    exact echelonize_finish_spec jk hEf henv hA0 hnull hb hw hnorm hpv (h.end rfl)

/-- What is known of the result of the driver. -/
structure Result (q : ℕ) (env : Env) (opts : Opts) (A0 : Csr) (g : Lu) : Prop where
  ech : Echelon q g.U g.qinv
  m_eq : g.U.m = A0.m
  nodup : g.U.NoDup
  nozero : opts.L = false → g.U.RowsNonzero
  r_eq : g.r = g.U.n
  le : g.U.rowSpace q ≤ A0.rowSpace q
  tmp : g.Ltmp = none
  hasL : g.L.isSome = opts.L
  compl : opts.L = true → g.complete = opts.complete ∧ (g.U.n = 0 ∨ g.p.isSome = true)
  out : (g.U.rowSpace q = A0.rowSpace q ∧ ∀ L, g.L = some L → IsFact q A0 L g.U g.qinv g.p opts.complete) ∨
    NoMethod env opts ∨ (opts.L = false ∧ Early q env opts A0 g.U)

theorem echelonize_spec {E : Err → Prop} (jk : Junk) (hEf : opts.norm.tall = true → E .fuel)
    (henv : env.Possible q) (hA0 : A0.WFV q) (hnd : A0.NoDup) (hz : A0.NoZero)
    (hnull : opts.max_round ≠ 0 ∨ jk.null0 = false) (hb : 0 < opts.block)
    (hw : opts.norm.tall = true → E .ub ∨ ∀ k, k ≤ min A0.n A0.m → |env.weight| * 2 ^ k < 2 ^ 31)
    (hpv : opts.norm.L = true → opts.complete = false → opts.dense = true → NoSchur env opts) :
    WpE E (echelonize jk env opts A0) (Result q env opts.norm A0) := by
  unfold echelonize
  have hnorm : opts.norm.L = true → opts.norm.tall = false := by
    unfold Opts.norm
    intro h
    simp only at h ⊢
    rw [if_pos h]
  have e1 : opts.norm.max_round = opts.max_round := rfl
  have e2 : opts.norm.block = opts.block := rfl
  have e3 : opts.norm.dense = opts.dense := rfl
  have e4 : opts.norm.complete = opts.complete := rfl
  have e5 : NoSchur env opts = NoSchur env opts.norm := rfl
  rw [← e1] at hnull
  rw [← e2] at hb
  rw [← e3, ← e4, e5] at hpv
  simp only
  generalize opts.norm = op at *
  rw [WpE_bind]
  refine (echelonize_init_spec (opts := op) jk hA0).wpe.mono ?_
  rintro f ⟨f1, f2, f3, f4⟩
  rw [WpE_bind]
  refine (Ok_forBrk (I := RoundInv q env op A0) (B := fun _ => RoundBrk q env op A0) (Nat.zero_le _) ?_
    (fun i s _ hi hI => (echelonize_round_spec jk henv hi hI).mono ?_)).wpe.mono ?_
  · exact ⟨hA0, hnd, hz, rfl, rfl, fun a ha => (nomatch ha), by simp only; rw [f2]; exact f1, f4, f3, rfl,
      .inl ⟨rfl, rfl⟩, by simp only; omega⟩
  · intro r hr
    cases r <;> exact hr
  rintro ⟨k, s⟩ hs
  simp only at hs ⊢
  have hs' : RoundBrk q env op A0 s ∨ RoundInv q env op A0 op.max_round s :=
    hs.imp (fun h => h.2.2) (fun h => h.2)
  rw [WpE_bind]
  refine (echelonize_rest_spec jk hEf henv hA0 hnull hb hw hnorm hpv hs').mono ?_
  rintro f (hf | ⟨hg, nr, hf⟩ | ⟨hL, hf1, hf2, hf3, hf4⟩)
  · obtain ⟨-, L, v, o, old, hP, -⟩ := id hf
    refine (cleanup_held jk hf).wpe.mono ?_
    rintro g ⟨g1, g2, g3, g4, g5, g6, g7, g8, g9, g10⟩
    have hsp := hP.span
    rw [spanOf_zero, sup_bot_eq] at hsp
    exact ⟨g1, g2, g9, g10, g3, by rw [g4, hsp], g5, g6, g7, .inl ⟨g4.trans hsp, g8 rfl⟩⟩
  · obtain ⟨-, L, v, o, old, hP, -⟩ := id hf
    refine (cleanup_held jk hf).wpe.mono ?_
    rintro g ⟨g1, g2, g3, g4, g5, g6, g7, g8, g9, g10⟩
    exact ⟨g1, g2, g9, g10, g3, by rw [g4, ← hP.span]; exact le_sup_left, g5, g6, g7, .inr (.inl hg)⟩
  · refine (cleanup_noL jk hf3 hL).wpe.mono ?_
    rintro g ⟨g1, g2, g3, g4, g5, g6, g9, g10⟩
    refine ⟨g1, g2, g9, fun _ => g10 hf2, g3, by rw [g4]; exact hf3.le, g5.trans hf2, by rw [g6, hf1, hL]; rfl,
      fun e => (by rw [hL] at e; cases e), ?_⟩
    rcases hf4 with hf4 | ⟨k0, A, p, n, k1, k2, k4⟩
    · refine .inl ⟨g4.trans hf4, fun L e => ?_⟩
      rw [g6, hf1] at e; cases e
    · refine .inr (.inr ⟨hL, k0, A, p, n, by rw [g4]; exact k1, k2, ?_⟩)
      have hn : g.U.n = f.U.n := by
        rw [← g1.rank, ← hf3.ech.rank, g4]
      rw [hn]
      refine k4.imp id ?_
      rintro ⟨n', m1, m2, m3⟩
      refine ⟨n', m1, m2, fun k hk => ?_⟩
      rw [g4]
      exact m3 k hk

end

end Spasm
