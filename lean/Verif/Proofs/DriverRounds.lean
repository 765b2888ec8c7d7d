import Verif.Proofs.DriverDense

/-
The rounds of the driver.
-/

namespace Spasm

open Finset

/-- The factorization is in progress, `nr` rows remain.  (The number of columns of `L` is irrelevant: it
is set at the end.) -/
def Held (q : ℕ) (opts : Opts) (A0 : Csr) (f : Lu) (nr : Nat) : Prop :=
  f.L = none ∧ ∃ L v o old, Partial q A0 f.U f.qinv L f.p v nr o old opts.complete ∧ L.isSome = opts.L ∧
    f.Ltmp.map (fun Z => { Z with m := f.U.n }) = L.map (fun Z => { Z with m := f.U.n })

/-- Rows which are zero need not be processed. -/
theorem Partial.zero_rest {q : ℕ} {A U : Csr} {qinv : Array Int} {v : Nat → Nat → ZMod q} {nr : Nat}
    {o : Nat → Nat} {old : Nat} {complete : Bool} {L : Option Triplet} {Lp : Option (Array Nat)}
    (h : Partial q A U qinv L Lp v nr o old complete) (hv : ∀ t, t < nr → v t = 0)
    (v' : Nat → Nat → ZMod q) (o' : Nat → Nat) : Partial q A U qinv L Lp v' 0 o' old complete := by
  have hroom := h.room
  refine ⟨h.ech, h.m_eq, h.psize, by omega, h.x_some, h.x_size, h.old_le, fun t ht => by omega, ?_,
    h.p_size, h.nodup, h.nozero, ?_⟩
  · rw [← h.span]
    refine le_antisymm (sup_le le_sup_left (spanOf_le fun t ht => by omega)) ?_
    refine sup_le le_sup_left (spanOf_le fun t ht => ?_)
    rw [hv t ht]
    exact Submodule.zero_mem _
  · intro Z hZ
    have g := h.L Z hZ
    refine ⟨g.wfv, g.n_eq, g.m_ge, g.has, g.P_lt, g.diag, g.upper, ?_, fun t ht => by omega,
      fun s t hs => by omega, fun k t hk ht => by omega, fun t ht => by omega, fun t ht => by omega⟩
    intro i hi hc c
    by_cases ho : ∃ t, t < nr ∧ o t = i
    · obtain ⟨t, ht, rfl⟩ := ho
      rw [g.rem t ht c, hv t ht, Pi.zero_apply, zero_add]
    · refine g.prod i hi ?_ c
      rcases hc with hc | ⟨hc, -⟩
      · exact .inl hc
      · exact .inr ⟨hc, fun t ht e => ho ⟨t, ht, e⟩⟩

/-- State before each round. -/
structure RoundInv (q : ℕ) (env : Env) (opts : Opts) (A0 : Csr) (round : Nat) (s : Driver) : Prop where
  wfv : s.A.WFV q
  nodup : s.A.NoDup
  nozero : s.A.NoZero
  m_eq : s.A.m = A0.m
  n_eq : s.n = s.A.n
  perm : PermSize s.p_in s.A.n
  part : Partial q A0 s.fact.U s.fact.qinv s.fact.Ltmp s.fact.p (s.A.entry q) s.A.n (permFun s.p_in)
    s.fact.U.n opts.complete
  hasL : s.fact.Ltmp.isSome = opts.L
  keep : s.fact.L = none
  status : s.status = 0
  orig : (round = 0 ∧ s.A = A0) ∨ (0 < s.fact.U.n ∧ ¬ NoSchur env opts)
  rows : s.A.n + s.fact.U.n = A0.n

/-- State before the last phase: the first `npiv` rows of `A`, in the order given by `p`, have been
processed. -/
structure RoundEnd (q : ℕ) (env : Env) (opts : Opts) (A0 : Csr) (s : Driver) : Prop where
  wfv : s.A.WFV q
  m_eq : s.A.m = A0.m
  perm : PermSize s.p_in s.A.n
  le : s.npiv ≤ s.n
  p_size : s.n ≤ s.p.size
  p_lt : ∀ k, k < s.n → s.p.g k < s.A.n
  part : ∃ old, Partial q A0 s.fact.U s.fact.qinv s.fact.Ltmp s.fact.p
    (fun t => s.A.entry q ((shift s.p s.npiv).g t)) (s.n - s.npiv)
    (fun t => permFun s.p_in ((shift s.p s.npiv).g t)) old opts.complete
  hasL : s.fact.Ltmp.isSome = opts.L
  keep : s.fact.L = none
  orig : s.A = A0 ∨ ¬ NoSchur env opts
  some : opts.max_round ≠ 0 → 0 < s.fact.U.n
  n_eq : s.n = s.A.n
  rows : s.A.n + s.fact.U.n = A0.n + s.npiv

/-- What the rounds end with. -/
def RoundBrk (q : ℕ) (env : Env) (opts : Opts) (A0 : Csr) (s : Driver) : Prop :=
  (s.status = 1 ∧ Held q opts A0 s.fact 0) ∨ (s.status = 2 ∧ RoundEnd q env opts A0 s)

section
variable {q : ℕ} {A0 : Csr} {env : Env} {opts : Opts}

/-- The rows that remain after the extraction of the pivots. -/
theorem RoundInv.extracted {s : Driver} {round npiv : Nat} {f : Lu} {p : Array Nat}
    (h : RoundInv q env opts A0 round s) {pinv qinv : Array Int} (hpos : 0 < npiv)
    (hx : Extracted q A0 s.A s.p_in s.fact opts.complete pinv qinv npiv f p) :
    RoundEnd q env opts A0 { s with npiv := npiv, fact := f, p := p } := by
  have hs := hx.order.size
  have hle := hx.order.le
  have hn := h.n_eq
  refine ⟨h.wfv, h.m_eq, h.perm, ?_, ?_, ?_, ⟨s.fact.U.n, ?_⟩, ?_, ?_, ?_, ?_, h.n_eq, ?_⟩
  · simp only; omega
  · simp only; omega
  · intro k hk
    simp only at hk ⊢
    exact hx.order.perm.1 k (by omega)
  · simp only
    rw [hn]
    refine hx.rest.rename (fun t ht => ?_) (fun t ht => ?_)
    · rw [g_shift (by omega), Nat.add_comm]
    · rw [g_shift (by omega), Nat.add_comm]
  · simp only
    have hL := h.hasL
    rw [← hL]
    cases e : s.fact.Ltmp with
    | none => rw [hx.noL e]
    | some Z =>
      obtain ⟨Z', -, -, e', -⟩ := hx.L Z e
      rw [e']; rfl
  · exact hx.keep.2.2.trans h.keep
  · exact h.orig.imp And.right And.right
  · intro _
    have := hx.n_eq
    simp only; omega
  · have := hx.n_eq
    have := h.rows
    simp only; omega

theorem echelonize_schur_spec (jk : Junk) (henv : env.Possible q) {s : Driver} {round : Nat}
    (h : RoundEnd q env opts A0 s) (hst : s.status = 0) (hpos : opts.max_round ≠ 0)
    (hno : round = 0 ∨ ¬ NoSchur env opts) (h1 : env.few round = false) (h2 : env.thick round = false) :
    Ok (echelonize_schur jk env round s) (RoundInv q env opts A0 (round + 1)) := by
  unfold echelonize_schur
  rw [csub_ok h.le, Ok_bind, Ok_ok, Ok_bind]
  obtain ⟨old, hP⟩ := h.part
  have hps := h.p_size
  have hle := h.le
  have hpre : SchurPre q s.A (shift s.p s.npiv) (s.n - s.npiv) s.fact.U s.fact.qinv s.fact.Ltmp s.p_in
      (mkArr (s.n - s.npiv) jk.nat) := by
    refine hP.pre h.wfv h.m_eq h.perm (by simp; omega) (fun i hi => ?_) (by simp) (le_refl _) (fun t ht => rfl)
    rw [g_shift (by omega)]
    exact h.p_lt _ (by omega)
  obtain ⟨jk', o, ho1, ho2⟩ := henv.schur round ⟨s.A, shift s.p s.npiv, s.n - s.npiv, s.fact.U, s.fact.qinv,
    env.size round, s.fact.Ltmp, s.p_in, mkArr (s.n - s.npiv) jk.nat⟩ hpre
  rw [ho1, Ok_ok, Ok_ok]
  obtain ⟨g1, g2, g3, g4, g5, g6, g7, -, g9⟩ := hP.schur jk' hpre ho2
  refine ⟨g2, g5, g6, g4.trans h.m_eq, g3.symm, ?_, ?_, g9.trans h.hasL, h.keep, hst, .inr ⟨h.some hpos, ?_⟩, ?_⟩
  · intro a ha
    simp only at ha ⊢
    cases ha
    rw [g7, g3]; simp
  · simp only
    rw [g3]
    exact g1
  · rcases hno with hno | hno
    · rw [hno] at h1 h2
      rintro (e | e | e)
      · exact hpos e
      · rw [h1] at e; cases e
      · rw [h2] at e; cases e
    · exact hno
  · have := h.rows
    have := h.n_eq
    simp only at g3 ⊢; omega

theorem echelonize_round_spec [Fact q.Prime] (jk : Junk) (henv : env.Possible q) {s : Driver}
    {round : Nat} (hr : round < opts.max_round) (h : RoundInv q env opts A0 round s) :
    Ok (echelonize_round jk env opts round s) (fun r => match r with
      | .cont s' => RoundInv q env opts A0 (round + 1) s'
      | .brk s' => RoundBrk q env opts A0 s') := by
  unfold echelonize_round
  rw [nnz_ok h.wfv.toWF, Ok_bind, Ok_ok]
  by_cases hk : s.A.p.g s.A.n = 0
  · rw [if_pos hk, Ok_ok]
    refine .inl ⟨rfl, h.keep, s.fact.Ltmp, fun _ _ => 0, id, _, h.part.zero_rest (fun t ht => ?_) _ _, h.hasL, rfl⟩
    ext c
    refine Csr.entry_eq_zero_of_not_inRow ?_
    rintro ⟨k, k1, k2, -⟩
    have := h.wfv.toWF.row_lt ht k2
    omega
  rw [if_neg hk, Ok_bind]
  have hx := C25_extract jk q A0 s.A h.wfv h.nodup h.nozero h.m_eq s.p_in h.perm s.fact opts.complete h.part
    (if opts.greedy then some (env.greedy round s.A) else none) ?_ (mkArr s.n jk.nat) (by simp [h.n_eq])
  · refine hx.mono ?_
    rintro ⟨npiv, f, p⟩ ⟨pinv, qinv, -, -, h4, h5⟩
    simp only at h4 h5 ⊢
    have hE := h.extracted (h4 (by omega)) h5
    split
    · rw [Ok_ok]
      exact .inr ⟨rfl, hE.1, hE.2, hE.3, hE.4, hE.5, hE.6, hE.7, hE.8, hE.9, hE.10, hE.11, hE.12, hE.13⟩
    · next hn =>
      rw [not_or] at hn
      rw [Ok_bind]
      refine (echelonize_schur_spec jk henv hE h.status (by omega) (h.orig.imp And.left And.right)
        (by simpa using hn.1) (by simpa using hn.2)).mono ?_
      intro s' hs'
      rw [Ok_ok]
      exact hs'
  · intro g hg pinv qinv hP
    split at hg
    · cases hg
      obtain ⟨r, h1, T, jk', rows, s', hs, -, hr, hf, rfl⟩ := henv.greedy round s.A pinv qinv
        (Greedy.C24_outcome s.A h.wfv.toWF h.nodup pinv qinv hP)
      rw [h1, Ok_ok]
      obtain ⟨k1, k2, -⟩ := Greedy.C24_final s.A jk' pinv qinv rows hs s' hr hf
      exact ⟨k1, k2⟩
    · cases hg

end

end Spasm
