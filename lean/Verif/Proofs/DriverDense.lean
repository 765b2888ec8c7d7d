import Verif.Proofs.DriverSchur
import Verif.Proofs.DriverLowrank
import Verif.Spec.Driver

/-
`echelonize_dense`.
-/

namespace Spasm

open Finset

@[simp] theorem size_shift (p : Array Nat) (k : Nat) : (shift p k).size = p.size - k := by
  unfold shift; simp

theorem g_shift {p : Array Nat} {k i : Nat} (h : k + i < p.size) : (shift p k).g i = p.g (k + i) := by
  unfold shift; rw [g_mkArr _ _ _ (by omega)]

/-- Runs exist. -/
theorem exists_dense_run (jk : Junk) {q : ℕ} {a : DenseIn} (h : DensePre q a) :
    ∃ o, SchurDenseRun jk a o := by
  have hrows : ∑ t, ((fun _ : Fin 1 => List.range a.n) t : Multiset Nat) = Multiset.range a.n := by
    simp; rfl
  obtain ⟨qa, L1, jobs, h1, h2, h3, h4⟩ := C29_safe jk q a h 1 _ hrows
  obtain ⟨-, -, s, h5, h6⟩ := h4 _ .init
  exact ⟨⟨s.S, qa, s.po, L1.map s.toTriplet⟩, 1, _, jobs, L1, s, hrows, h1, h2, h3, h5, h6, rfl, rfl, rfl⟩

theorem exists_schur_run (jk : Junk) {q : ℕ} {a : SchurIn}
    (h : SchurPre q a.A a.p a.n a.U a.qinv a.L a.p_in a.p_out) :
    ∃ o : SchurOut, SchurRun jk a.A a.p a.n a.U a.qinv a.size a.L a.p_in a.p_out o.S o.L o.p_out := by
  have hrows : ∑ t, ((fun _ : Fin 1 => List.range a.n) t : Multiset Nat) = Multiset.range a.n := by
    simp; rfl
  obtain ⟨S0, jobs, h1, h2, h3⟩ := C21_safe jk q a.A a.p a.n a.U a.qinv a.size a.L a.p_in a.p_out h 1 _ hrows
  obtain ⟨-, -, ⟨s, h5, h6⟩, -⟩ := h3 _ .init
  obtain ⟨-, -, -, h7⟩ := h3 s h5
  obtain ⟨o, ho⟩ := h7 h6
  exact ⟨⟨o.1, o.2, s.tags⟩, 1, _, jobs, S0, s, hrows, h2, h1, h5, h6, ho, rfl⟩

/-- The preconditions of the elimination. -/
theorem Partial.pre {q : ℕ} {A0 A : Csr} (hA : A.WFV q) (hm : A.m = A0.m) {p_in : Option (Array Nat)}
    (hin : PermSize p_in A.n) {p p_out : Array Nat} {n nr : Nat} (hp : n ≤ p.size)
    (hpn : ∀ i, i < n → p.g i < A.n) (hout : n ≤ p_out.size) {U : Csr} {qinv : Array Int}
    {L : Option Triplet} {Lp : Option (Array Nat)} {v : Nat → Nat → ZMod q} {o : Nat → Nat} {old : Nat}
    {complete : Bool} (hn : n ≤ nr) (h : Partial q A0 U qinv L Lp v nr o old complete)
    (ho : ∀ t, t < n → o t = permFun p_in (p.g t)) : SchurPre q A p n U qinv L p_in p_out where
  A_wfv := hA
  ech := h.ech
  m_eq := h.m_eq.trans hm.symm
  p_size := hp
  p_lt := hpn
  in_size := hin
  out_size := hout
  L_wf := by
    intro Z hZ
    have hL := h.L Z hZ
    have := h.room
    have := hL.m_ge
    refine ⟨hL.wfv.toWF, hL.wfv.has_x, by omega, fun k hk => ?_⟩
    rw [← ho k hk, hL.n_eq]
    exact hL.rem_lt k (by omega)

/-- State of the loop. -/
structure ChunkInv (q : ℕ) (opts : Opts) (A0 A : Csr) (p : Array Nat) (n : Nat) (p_in : Option (Array Nat))
    (fact0 : Lu) (old : Nat) (s : DenseSt) : Prop where
  part : Partial q A0 s.fact.U s.fact.qinv s.fact.Ltmp s.fact.p
    (fun t => A.entry q (p.g (s.processed + t))) (n - s.processed)
    (fun t => permFun p_in (p.g (s.processed + t))) old opts.complete
  proc : s.processed ≤ n
  un : fact0.U.n ≤ s.fact.U.n
  keep : s.fact.L = fact0.L
  hasL : s.fact.Ltmp.isSome = opts.L
  S_size : opts.block.toNat * (A.m - s.fact.U.n) ≤ s.S.size
  q_size : A.m - s.fact.U.n ≤ s.q.size
  out : opts.block.toNat ≤ s.p_out.size
  piv : opts.L = true → opts.complete = false → A0.n ≤ s.pivotal.size ∧
    ∀ t, t < n - s.processed → s.pivotal.g (permFun p_in (p.g (s.processed + t))) = false

section
variable {q : ℕ} [Fact q.Prime] {A0 A : Csr} {p : Array Nat} {n : Nat} {env : Env} {opts : Opts}
  {p_in : Option (Array Nat)} {fact : Lu} {old : Nat}

theorem dense_transfer_spec (jk : Junk) (hm : A.m = A0.m) (hff : env.ff.Correct q) {s : DenseSt}
    (hs : ChunkInv q opts A0 A p n p_in fact old s) (h0 : 0 < s.fact.U.n ∨ jk.null0 = false) {Sn : Nat}
    (hSn : Sn ≤ n - s.processed) {a : DenseIn} (haU : a.U = s.fact.U) (haq : a.qinv = s.fact.qinv)
    (haL : a.L = s.fact.Ltmp) (haA : a.A = A) (han : a.n = Sn) (hain : a.p_in = p_in)
    (hap : ∀ t, t < Sn → a.p.g t = p.g (s.processed + t)) (haout : Sn ≤ a.p_out.size)
    {o : DenseOut} {w0 : Nat → Nat → Int} {ℓ : Nat → Nat → ZMod q} (hin : ChunkIn q a o w0 ℓ)
    {lnz : Nat} (hlnz : ∀ Z, s.fact.Ltmp = some Z → lnz = Z.nz) :
    Ok (dense_transfer jk env opts q Sn (A.m - s.fact.U.n) lnz o s.pivotal { s.fact with Ltmp := o.L })
      (fun x => Partial q A0 x.1.U x.1.qinv x.1.Ltmp x.1.p
          (fun t => A.entry q (p.g (s.processed + Sn + t))) (n - (s.processed + Sn))
          (fun t => permFun p_in (p.g (s.processed + Sn + t))) old opts.complete ∧
        s.fact.U.n ≤ x.1.U.n ∧ x.1.L = s.fact.L ∧ x.1.Ltmp.isSome = opts.L ∧ x.2.1.size = o.S.size ∧
        x.2.2.size = s.pivotal.size ∧
        (opts.L = true → opts.complete = false → ∀ t, t < n - (s.processed + Sn) →
          x.2.2.g (permFun p_in (p.g (s.processed + Sn + t))) = false)) := by
  have hp := hs.part
  have hn : n - s.processed = a.n + (n - (s.processed + Sn)) := by omega
  have hsum : ∀ t, s.processed + (Sn + t) = s.processed + Sn + t := fun t => by omega
  rw [hn] at hp
  have hcells := hin.cells
  have hbal := hin.bal
  rw [haA, haU, han] at hcells hbal
  unfold dense_transfer
  simp only
  have hL := hs.hasL
  by_cases hoL : opts.L = true
  · rw [if_pos hoL]
    rw [hoL] at hL
    obtain ⟨Z0, hZ0⟩ := Option.isSome_iff_exists.1 hL
    obtain ⟨Lp, hLp, -⟩ := hp.p_size hL
    rw [hZ0, hLp] at hp
    obtain ⟨w', c1, c2, c3⟩ := hff.lu Sn (A.m - s.fact.U.n) o.S w0 hcells hbal
    generalize env.ff.lu q Sn (A.m - s.fact.U.n) o.S = R at c1 c2 c3
    have := chunk_run_lu jk haU haq (by rw [haA, hm]; exact hp.m_eq.symm) (haL.trans hZ0) hLp hp
      (fun t ht => by rw [haA, hap t (by omega)]) (fun t ht => by rw [hain, hap t (by omega)])
      (by omega) hin (r := R.1) (S := R.2.1) (w := w') (P := R.2.2.1) (Q := R.2.2.2)
      (by rw [haA, haU, han]; exact c2) (by rw [haA, haU, han]; exact c1) (h0.imp (fun _ => by omega) id)
      (datatype_choose q) (pivotal := s.pivotal) (fun hc => by
        have := hs.piv hoL hc
        rw [hn] at this
        exact this)
    rw [haA, haU, han] at this
    rw [hlnz Z0 hZ0, Ok_bind]
    refine this.mono ?_
    rintro ⟨f, pv⟩ ⟨f1, f2, ⟨Z', Lp', f3⟩, -, -, f4, f5⟩
    rw [Ok_ok]
    simp only [hsum] at f1 f5
    refine ⟨f1, by simp only at f2 ⊢; omega, ?_, ?_, c3, f4, fun _ hc t ht => f5 hc t ht⟩
    · simp only at f3 ⊢; rw [f3]
    · simp only at f3 ⊢; rw [f3, hoL]; rfl
  · rw [if_neg hoL]
    simp only [Bool.not_eq_true] at hoL
    rw [hoL] at hL
    have hLn : s.fact.Ltmp = none := by
      cases e : s.fact.Ltmp with
      | none => rfl
      | some _ => rw [e] at hL; cases hL
    have hoLn : o.L = none := hin.L_none (haL.trans hLn)
    have hfact : ({ s.fact with Ltmp := o.L } : Lu) = s.fact := by
      rw [hoLn, ← hLn]
    rw [hfact]
    obtain ⟨w', c1, c2, c3⟩ := hff.rref Sn (A.m - s.fact.U.n) o.S w0 hcells hbal
    generalize env.ff.rref q Sn (A.m - s.fact.U.n) o.S = R at c1 c2 c3
    have := chunk_run_rref jk haU haq (by rw [haA, hm]; exact hp.m_eq.symm) hLn hp
      (fun t ht => by rw [haA, hap t (by omega)]) hin (r := R.1) (S := R.2.1) (w := w') (Q := R.2.2)
      (by rw [haA, haU, han]; exact c2) (by rw [haA, haU, han]; exact c1) (h0.imp (fun _ => by omega) id)
      (datatype_choose q)
    rw [haA, haU, han] at this
    rw [Ok_bind]
    refine this.mono ?_
    rintro f ⟨f1, f2, f3, -, -⟩
    rw [Ok_ok]
    simp only [hsum] at f1
    refine ⟨f1, by simp only; omega, ?_, ?_, c3, rfl, fun h => by rw [hoL] at h; cases h⟩
    · simp only; rw [f3]
    · simp only; rw [f3, hoL]; simp only; rw [hLn]; rfl

theorem dense_round_spec (jk : Junk) (henv : env.Possible q) (hA : A.WFV q) (hm : A.m = A0.m)
    (hin : PermSize p_in A.n) (hp : n ≤ p.size) (hpn : ∀ i, i < n → p.g i < A.n)
    (h0 : 0 < fact.U.n ∨ jk.null0 = false) {s : DenseSt} (hl : s.lowrank = false)
    (hs : ChunkInv q opts A0 A p n p_in fact old s) :
    Ok (dense_round jk env opts A p n p_in s) (fun r => match r with
      | .cont s' => (ChunkInv q opts A0 A p n p_in fact old s' ∧ s'.lowrank = false) ∧
          n - s'.processed < n - s.processed
      | .brk s' => ChunkInv q opts A0 A p n p_in fact old s' ∧
          (opts.block ≤ 0 ∨ (s'.processed = n ∧ s'.lowrank = false) ∨
            (opts.tall = true ∧ s'.lowrank = true))) := by
  have hP := hs.part
  have hnm := hP.ech.n_le
  have hUm := hP.m_eq
  have hproc := hs.proc
  have hun := hs.un
  unfold dense_round
  simp only
  by_cases hSn : min opts.block ((n : Int) - s.processed) ≤ 0
  · rw [if_pos hSn, Ok_ok]
    refine ⟨hs, ?_⟩
    by_cases hb : opts.block ≤ 0
    · exact .inl hb
    · exact .inr (.inl ⟨by omega, hl⟩)
  rw [if_neg hSn, csub_ok (by omega), Ok_bind, Ok_ok, Ok_bind]
  have hN1 : (min opts.block ((n : Int) - s.processed)).toNat ≤ opts.block.toNat := by omega
  have hN2 : (min opts.block ((n : Int) - s.processed)).toNat ≤ n - s.processed := by omega
  have hN3 : 0 < (min opts.block ((n : Int) - s.processed)).toNat := by omega
  generalize (min opts.block ((n : Int) - s.processed)).toNat = Sn at hN1 hN2 hN3
  have hlnz : Ok (dense_lnz opts s.fact) (fun lnz => ∀ Z, s.fact.Ltmp = some Z → lnz = Z.nz) := by
    have hL := hs.hasL
    unfold dense_lnz
    split
    · next e =>
      rw [e] at hL
      obtain ⟨Z0, hZ0⟩ := Option.isSome_iff_exists.1 hL
      rw [hZ0, Ok_bind, Ok_deref_some, Ok_ok]
      intro Z hZ; cases hZ; rfl
    · next e =>
      rw [Ok_ok]
      intro Z hZ
      rw [hZ] at hL
      exact absurd hL.symm e
  refine hlnz.mono ?_
  intro lnz hlnz
  rw [Ok_bind]
  have hout := hs.out
  have hpre : DensePre q ⟨A, shift p s.processed, Sn, p_in, s.fact.U, s.fact.qinv, s.fact.Ltmp, s.S,
      datatype_choose A.F.p, s.q, s.p_out⟩ := by
    refine ⟨hP.pre hA hm hin (by simp; omega) ?_ (by simp only; omega) hN2 ?_, ?_, hs.q_size⟩
    · intro i hi
      simp only at hi ⊢
      rw [g_shift (by omega)]; exact hpn _ (by omega)
    · intro t ht
      simp only at ht ⊢
      rw [g_shift (by omega)]
    · exact le_trans (Nat.mul_le_mul_right _ hN1) hs.S_size
  obtain ⟨jk', o, ho1, ho2⟩ := henv.dense s.round _ hpre
  rw [ho1, Ok_ok, Ok_bind, hA.good.p_eq]
  obtain ⟨w0, ℓ, hci⟩ := chunk_in jk' hpre (by simp only; rw [hA.good.p_eq]) ho2
  refine (dense_transfer_spec jk hm henv.ff hs (h0.imp (fun _ => by omega) id) hN2 rfl rfl rfl rfl rfl rfl
    (fun t ht => g_shift (by omega)) (by simp only; omega) hci hlnz).mono ?_
  rintro ⟨f, S, pv⟩ ⟨f1, f2, f3, f4, f5, f6, f7⟩
  simp only at f1 f2 f3 f4 f5 f6 f7
  have hSs := hci.S_size
  have hqs := hci.q_size
  have hos := hci.out_size
  simp only at hSs hqs hos
  have hI : ∀ b, ChunkInv q opts A0 A p n p_in fact old
      ⟨f, S, o.q, o.p_out, pv, s.processed + Sn, s.round + 1, b⟩ := by
    intro b
    refine ⟨f1, by simp only; omega, by simp only; omega, f3.trans hs.keep, f4, ?_, ?_, ?_, ?_⟩
    · simp only
      rw [f5, hSs]
      exact le_trans (Nat.mul_le_mul_left _ (by omega)) hs.S_size
    · have := hs.q_size
      simp only; omega
    · simp only; omega
    · intro h1 h2
      have := (hs.piv h1 h2).1
      exact ⟨by simp only; omega, f7 h1 h2⟩
  cases hlow : (opts.tall && env.yield s.round) with
  | true =>
    rw [if_pos rfl, Ok_ok]
    refine ⟨hI _, .inr (.inr ⟨?_, ?_⟩)⟩
    · rw [Bool.and_eq_true] at hlow; exact hlow.1
    · simp
  | false =>
    rw [if_neg (by simp), Ok_ok]
    exact ⟨⟨hI _, by simp [hl]⟩, by simp only; omega⟩

/-- All the rows are found if `U` has as many rows as possible. -/
theorem Inner.full {f : Lu} (h : Inner q A0 f) (hA : A0.WFV q) (hn : A0.m ≤ f.U.n) :
    f.U.rowSpace q = A0.rowSpace q := by
  have := h.ech.n_le
  have hm := h.m_eq
  refine le_antisymm h.le (spanOf_le fun i hi => h.ech.full (by omega) fun c hc => ?_)
  exact hA.toWF.entry_ge hi (by omega)

theorem Inner.exact {f1 f : Lu} (h : Inner q A0 f) (hA : A0.WFV q) {v : Nat → Nat → ZMod q}
    (hv : f1.U.rowSpace q ⊔ spanOf v n = A0.rowSpace q) (h1 : Inner q A0 f1)
    (hn : f.U.n = f1.U.n + min n (A0.m - f1.U.n)) : f.U.rowSpace q = A0.rowSpace q := by
  by_cases hm : A0.m ≤ f.U.n
  · exact h.full hA hm
  · refine h.ech.span_of_count h.le ?_
    rw [← hv]
    refine le_trans (finrank_sup_le _ _) ?_
    rw [h1.ech.rank]
    have := finrank_spanOf_le v n
    omega

/-- The low-rank method, seen from a factorization in progress. -/
theorem lowrank_end {E : Err → Prop} (jk : Junk) (hEf : E .fuel) (hA0 : A0.WFV q) (hA : A.WFV q)
    (hm : A.m = A0.m) (hp : n ≤ p.size) (hpn : ∀ i, i < n → p.g i < A.n)
    (h0 : 0 < fact.U.n ∨ jk.null0 = false) (hd : ∀ k i, Small q (env.draw k i)) (hff : env.ff.Correct q)
    (hb : 0 < opts.block) (hw : E .ub ∨ |env.weight| * 2 ^ min n (A.m - fact.U.n) < 2 ^ 31)
    (hL : fact.Ltmp = none) {v : Nat → Nat → ZMod q} {o : Nat → Nat} {complete : Bool}
    (h : Partial q A0 fact.U fact.qinv fact.Ltmp fact.p v n o old complete)
    (hv : ∀ t, t < n → v t = A.entry q (p.g t)) :
    WpE E (lowrank jk env opts A p n fact) (fun f => Inner q A0 f ∧ f.L = fact.L ∧ f.Ltmp = none ∧
      f.U.rowSpace q ⊔ spanOf (fun t => A.entry q (p.g t)) n = A0.rowSpace q ∧
      (f.U.rowSpace q = A0.rowSpace q ∨ ∃ n', n' ≤ n ∧ Tested q env A p n' f.U)) := by
  have hs := h.span
  rw [spanOf_congr hv] at hs
  refine (lowrank_spec jk hEf hA hm hp hpn (fun t ht => ?_) h.room h0 hd hff hb h.inner hw).mono ?_
  · rw [← hs]
    exact Submodule.mem_sup_right (mem_spanOf (f := fun t => A.entry q (p.g t)) ht)
  rintro f ⟨f1, f2, f3, f4, f5, f6⟩
  refine ⟨f1, by rw [f2], by rw [f2]; exact hL, ?_, ?_⟩
  · refine le_antisymm (sup_le f1.le ?_) ?_
    · rw [← hs]; exact le_sup_right
    · rw [← hs]; exact sup_le_sup_right f3 _
  · rcases f6 with f6 | f6
    · rw [hm] at f6
      exact .inl (f1.exact hA0 hs h.inner f6)
    · exact .inr ⟨_, by omega, f6⟩

/-- The dense method. -/
theorem echelonize_dense_spec {E : Err → Prop} (jk : Junk) (hEf : opts.tall = true → E .fuel) (henv : env.Possible q)
    (hA0 : A0.WFV q) (hA : A.WFV q) (hm : A.m = A0.m) (hin : PermSize p_in A.n) (hp : n ≤ p.size)
    (hpn : ∀ i, i < n → p.g i < A.n) (h0 : 0 < fact.U.n ∨ jk.null0 = false) (hb : 0 < opts.block)
    (hw : opts.tall = true → E .ub ∨ ∀ k, k ≤ min n (A.m - fact.U.n) → |env.weight| * 2 ^ k < 2 ^ 31)
    (hL : fact.Ltmp.isSome = opts.L) (hnorm : opts.L = true → opts.tall = false)
    (hpv : opts.L = true → opts.complete = false → A0.n ≤ A.n)
    (h : Partial q A0 fact.U fact.qinv fact.Ltmp fact.p (fun t => A.entry q (p.g t)) n
      (fun t => permFun p_in (p.g t)) old opts.complete) :
    WpE E (echelonize_dense jk env opts A p n p_in fact) (fun f => f.L = fact.L ∧
      ((f.Ltmp.isSome = opts.L ∧ ∃ v o, Partial q A0 f.U f.qinv f.Ltmp f.p v 0 o old opts.complete) ∨
       (opts.tall = true ∧ f.Ltmp = none ∧ Inner q A0 f ∧ ∃ k, k ≤ n ∧
        f.U.rowSpace q ⊔ spanOf (fun t => A.entry q ((shift p k).g t)) (n - k) = A0.rowSpace q ∧
        (f.U.rowSpace q = A0.rowSpace q ∨ (min A.n A.m ≤ f.U.n ∧ fact.U.n ≤ f.U.n) ∨
          ∃ n', n' ≤ n - k ∧ Tested q env A (shift p k) n' f.U)))) := by
  have hnm := h.ech.n_le
  have hUm := h.m_eq
  unfold echelonize_dense
  rw [cassert, if_pos (by simpa using hb), WpE_bind, WpE_ok, csub_ok (by omega), WpE_bind, WpE_ok, WpE_bind]
  refine (Ok_whileFuel (fun s => n - s.processed)
    (I := fun s => ChunkInv q opts A0 A p n p_in fact old s ∧ s.lowrank = false)
    (Q := fun s => ChunkInv q opts A0 A p n p_in fact old s ∧ ((s.processed = n ∧ s.lowrank = false) ∨
            (opts.tall = true ∧ s.lowrank = true)))
    (fun s hs => (dense_round_spec jk henv hA hm hin hp hpn h0 hs.2 hs.1).mono ?_) (n + 1) _ ?_
    (by simp only; omega)).wpe.mono ?_
  · rintro (s' | s') hs'
    · exact hs'
    · exact ⟨hs'.1, hs'.2.resolve_left (by omega)⟩
  · refine ⟨⟨?_, Nat.zero_le _, le_refl _, rfl, hL, by unfold dense_alloc; simp, by simp, by simp, ?_⟩, rfl⟩
    · simp only [Nat.zero_add, Nat.sub_zero]
      exact h
    · intro h1 h2
      have := hpv h1 h2
      refine ⟨by simp; omega, fun t ht => ?_⟩
      simp only [Nat.zero_add, Nat.sub_zero] at ht ⊢
      obtain ⟨Z, hZ⟩ := Option.isSome_iff_exists.1 (hL.trans h1)
      exact g_mkArr _ _ _ (lt_of_lt_of_le ((h.L Z hZ).rem_lt t ht) this)
  rintro s ⟨hs, hend⟩
  have hproc := hs.proc
  have hun := hs.un
  simp only
  rcases hend with ⟨e1, e2⟩ | ⟨e1, e2⟩
  · rw [if_neg (by rw [e2]; simp), WpE_ok]
    have := hs.part
    rw [e1, Nat.sub_self] at this
    exact ⟨hs.keep, .inl ⟨hs.hasL, _, _, this⟩⟩
  · have hLf : opts.L = false := by
      cases e : opts.L with
      | false => rfl
      | true => rw [hnorm e] at e1; cases e1
    have hLn : s.fact.Ltmp = none := by
      have := hs.hasL
      rw [hLf] at this
      cases e : s.fact.Ltmp with
      | none => rfl
      | some _ => rw [e] at this; cases this
    have hv : ∀ t, t < n - s.processed → A.entry q (p.g (s.processed + t)) =
        A.entry q ((shift p s.processed).g t) := fun t ht => by rw [g_shift (by omega)]
    split
    · next hc =>
      refine (lowrank_end jk (hEf e1) hA0 hA hm (by simp; omega) (fun i hi => ?_) (h0.imp (fun _ => by omega) id)
        henv.draw henv.ff hb ?_ hLn hs.part hv).mono ?_
      · rw [g_shift (by omega)]; exact hpn _ (by omega)
      · exact (hw e1).imp id fun hw => hw _ (by omega)
      rintro f ⟨f1, f2, f3, f4, f5⟩
      refine ⟨f2.trans hs.keep, .inr ⟨e1, f3, f1, s.processed, hproc, f4, ?_⟩⟩
      rcases f5 with f5 | f5
      · exact .inl f5
      · exact .inr (.inr f5)
    · next hc =>
      rw [WpE_ok]
      refine ⟨hs.keep, ?_⟩
      by_cases hn : n ≤ s.processed
      · have := hs.part
        rw [show n - s.processed = 0 by omega] at this
        exact .inl ⟨hs.hasL, _, _, this⟩
      · refine .inr ⟨e1, hLn, hs.part.inner, s.processed, hproc, ?_, .inr (.inl ⟨?_, hun⟩)⟩
        · rw [← hs.part.span, spanOf_congr hv]
        · rw [e2] at hc
          simp only [and_true] at hc
          omega

end

end Spasm
