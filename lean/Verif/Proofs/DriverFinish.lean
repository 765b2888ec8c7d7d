import Verif.Proofs.DriverRounds
import Verif.Proofs.Gplu

/-
The last phase of the driver.
-/

namespace Spasm

open Finset

/-- What is known at the end. -/
def Outcome (q : ℕ) (env : Env) (opts : Opts) (A0 : Csr) (f : Lu) : Prop :=
  Held q opts A0 f 0 ∨ (NoMethod env opts ∧ ∃ nr, Held q opts A0 f nr) ∨
  (opts.L = false ∧ f.L = none ∧ f.Ltmp = none ∧ Inner q A0 f ∧
    (f.U.rowSpace q = A0.rowSpace q ∨ Early q env opts A0 f.U))

section
variable {q : ℕ} [Fact q.Prime] {A0 : Csr} {env : Env} {opts : Opts}

/-- The bound on the rank is right for the initial matrix. -/
theorem early_bound {f : Lu} (hI : Inner q A0 f) (hA0 : A0.WFV q) {A : Csr} {p : Array Nat} {n : Nat}
    (hs : f.U.rowSpace q ⊔ spanOf (fun t => A.entry q (p.g t)) n = A0.rowSpace q) (hm : A.m = A0.m)
    (ho : A = A0 ∨ ¬ NoSchur env opts) (hn : min A.n A.m ≤ f.U.n) (hr : A0.n ≤ A.n + f.U.n)
    (ht : opts.tall = true ∨ ¬ (opts.dense = true ∧ env.full = true)) :
    f.U.rowSpace q = A0.rowSpace q ∨ Early q env opts A0 f.U := by
  by_cases h1 : A0.m ≤ f.U.n
  · exact .inl (hI.full hA0 h1)
  rcases ho with rfl | ho
  · refine .inl (hI.ech.span_of_count hI.le ?_)
    have := finrank_spanOf_le (A.entry q) A.n
    unfold Csr.rowSpace
    omega
  · exact .inr ⟨ht, A, p, n, hs, hm, .inl ⟨ho, by omega, by omega⟩⟩

theorem echelonize_finish_spec {E : Err → Prop} (jk : Junk) (hEf : opts.tall = true → E .fuel)
    (henv : env.Possible q) (hA0 : A0.WFV q) (hnull : opts.max_round ≠ 0 ∨ jk.null0 = false)
    (hb : 0 < opts.block)
    (hw : opts.tall = true → E .ub ∨ ∀ k, k ≤ min A0.n A0.m → |env.weight| * 2 ^ k < 2 ^ 31)
    (hnorm : opts.L = true → opts.tall = false)
    (hpv : opts.L = true → opts.complete = false → opts.dense = true → NoSchur env opts)
    {s : Driver} (h : RoundEnd q env opts A0 s) :
    WpE E (echelonize_finish jk env opts s) (Outcome q env opts A0) := by
  unfold echelonize_finish
  obtain ⟨old, hP⟩ := h.part
  have hle := h.le
  have hps := h.p_size
  have hm := h.m_eq
  have hroom := hP.room
  have h0 : 0 < s.fact.U.n ∨ jk.null0 = false := hnull.imp h.some id
  have hsz : s.n - s.npiv ≤ (shift s.p s.npiv).size := by simp; omega
  have hpn : ∀ i, i < s.n - s.npiv → (shift s.p s.npiv).g i < s.A.n := by
    intro i hi
    rw [g_shift (by omega)]; exact h.p_lt _ (by omega)
  have hLn : opts.L = false → s.fact.Ltmp = none := by
    intro e
    have := h.hasL
    rw [e] at this
    cases e : s.fact.Ltmp with
    | none => rfl
    | some _ => rw [e] at this; cases this
  rw [csub_ok hle]
  simp only [WpE_bind, WpE_ok]
  split
  · -- the low-rank method
    next hc =>
    have hL : opts.L = false := by
      cases e : opts.L with
      | false => rfl
      | true => rw [hnorm e] at hc; cases hc.1
    refine (lowrank_end jk (hEf hc.1) hA0 h.wfv hm hsz hpn h0 henv.draw henv.ff hb ?_ (hLn hL) hP
      (fun t ht => rfl)).mono ?_
    · exact (hw hc.1).imp id fun hw => hw _ (by omega)
    rintro f ⟨f1, f2, f3, f4, f5⟩
    refine .inr (.inr ⟨hL, f2.trans h.keep, f3, f1, f5.imp id ?_⟩)
    rintro ⟨n', g1, g2⟩
    exact ⟨.inl hc.1, s.A, _, _, f4, hm, .inr ⟨n', g1, fun e => (by rw [e] at hc; cases hc.1), g2⟩⟩
  split
  · -- the dense method
    next hn hc =>
    refine (echelonize_dense_spec jk hEf henv hA0 h.wfv hm h.perm hsz hpn h0 hb ?_ h.hasL hnorm ?_ hP).mono ?_
    · intro e
      exact (hw e).imp id fun hw k hk => hw k (by omega)
    · intro e1 e2
      have := hpv e1 e2 hc.1
      rcases h.orig with e | e
      · rw [e]
      · exact absurd this e
    rintro f ⟨f1, ⟨f2, v, o, f3⟩ | ⟨f2, f3, f4, k, f5, f6, f7⟩⟩
    · exact .inl ⟨f1.trans h.keep, f.Ltmp, v, o, old, f3, f2, rfl⟩
    · have hL : opts.L = false := by
        cases e : opts.L with
        | false => rfl
        | true => rw [hnorm e] at f2; cases f2
      refine .inr (.inr ⟨hL, f1.trans h.keep, f3, f4, ?_⟩)
      rcases f7 with f7 | f7 | ⟨n', g1, g2⟩
      · exact .inl f7
      · exact early_bound f4 hA0 f6 hm h.orig f7.1 (by have := h.rows; omega) (.inl f2)
      refine .inr ⟨.inl f2, s.A, _, _, f6, hm, .inr ⟨n', g1, fun e => (by rw [e] at f2; cases f2), g2⟩⟩
  split
  · -- GPLU
    next hn1 hn2 hn3 =>
    refine (Ok.wpe (gplu_gen jk h.wfv hm h.perm hsz hpn hP
      (tc := fun U qinv => test_completion jk env s.A (shift s.p s.npiv) (s.n - s.npiv) U qinv)
      (Tc := fun U qinv => Tested q env s.A (shift s.p s.npiv) (s.n - s.npiv) U) ?_)).mono ?_
    · intro _ U qinv hU hUm
      refine (test_completion_spec jk h.wfv hU hUm hsz hpn henv.draw henv.ff).mono ?_
      intro b hb'
      exact hb'.1
    rintro f ⟨L, i, f1, f2, f3, f4, f5, f6, f7, f8, f9, f10⟩
    by_cases hi : i = s.n - s.npiv
    · subst hi
      rw [Nat.sub_self] at f3
      refine .inl ⟨f9.trans h.keep, L, _, _, old, f3, f6.trans h.hasL, ?_⟩
      rw [f1]
      cases L <;> rfl
    · obtain ⟨e1, e2, e3⟩ := f10.resolve_left hi
      subst e2
      have hL : opts.L = false := by
        rw [← h.hasL, e1]; rfl
      have hs : f.U.rowSpace q ⊔ spanOf (fun t => s.A.entry q ((shift s.p s.npiv).g t)) (s.n - s.npiv) =
          A0.rowSpace q := by
        refine le_antisymm (sup_le f3.inner.le ?_) ?_
        · rw [← hP.span]; exact le_sup_right
        · rw [← f3.span]
          refine sup_le_sup_left (spanOf_le fun t ht => ?_) _
          exact mem_spanOf (f := fun t => s.A.entry q ((shift s.p s.npiv).g t)) (i := t + i) (by omega)
      refine .inr (.inr ⟨hL, f9.trans h.keep, f1, f3.inner, ?_⟩)
      rcases e3 with e3 | e3
      · exact early_bound f3.inner hA0 hs hm h.orig (by omega) (by have := h.rows; omega) (.inr hn2)
      · exact .inr ⟨.inr hn2, s.A, shift s.p s.npiv, s.n - s.npiv, hs, hm, .inr ⟨_, le_refl _, fun _ => rfl, e3⟩⟩
  · next hn1 hn2 hn3 =>
    rw [WpE_ok]
    exact .inr (.inl ⟨⟨by simpa using hn3, hn2, hn1⟩, _, h.keep, s.fact.Ltmp, _, _, _, hP, h.hasL, rfl⟩)

omit [Fact q.Prime] in
/-- State after the rounds. -/
theorem RoundInv.end {s : Driver} {round : Nat} (h : RoundInv q env opts A0 round s)
    (hr : round = opts.max_round) :
    RoundEnd q env opts A0 { s with npiv := 0, p := mkArr s.n fun i => i } := by
  have hn := h.n_eq
  have hg : ∀ t, t < s.A.n → (shift (mkArr s.n fun i => i) 0).g t = t := by
    intro t ht
    rw [g_shift (by simp; omega), g_mkArr _ _ _ (by omega), Nat.zero_add]
  refine ⟨h.wfv, h.m_eq, h.perm, Nat.zero_le _, by simp, ?_, ⟨s.fact.U.n, ?_⟩, h.hasL, h.keep,
    h.orig.imp And.right And.right, ?_, h.n_eq, h.rows⟩
  · intro k hk
    simp only at hk ⊢
    rw [g_mkArr _ _ _ hk]; omega
  · simp only
    rw [hn, Nat.sub_zero, ← hn]
    rw [hn] at *
    exact h.part.rename (fun t ht => by rw [hg t ht]) (fun t ht => by rw [hg t ht])
  · intro hne
    exact (h.orig.resolve_left (by omega)).1

end

end Spasm
