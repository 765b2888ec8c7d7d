import Verif.Props.Echelonize

/-
The elimination with an early abort, when the answers of the completion test vary.
-/

namespace Spasm

open Finset

section
variable {σ : Type}

/-- The states of a loop in which a condition holds, in the first `k` iterations. -/
def loopStates (r : Nat → σ → C (Step σ)) (P : σ → Bool) : Nat → Nat → σ → List σ
  | 0, _, _ => []
  | k + 1, lo, s => (if P s then [s] else []) ++ match r lo s with
    | .ok (.cont s') => loopStates r P k (lo + 1) s'
    | _ => []

/-- Two loops have the same outcome, unless their bodies differ in a state reached by a third loop. -/
theorem forBrkN_couple {f g r : Nat → σ → C (Step σ)} {P : σ → Bool} {Bad : σ → Prop}
    (h1 : ∀ i s, f i s = g i s ∨ (P s = true ∧ Bad s))
    (h2 : ∀ i s s', f i s = .ok (.cont s') → r i s = .ok (.cont s')) (k : Nat) : ∀ lo s,
    forBrkN lo k s f = forBrkN lo k s g ∨ ∃ t ∈ loopStates r P k lo s, Bad t := by
  induction k with
  | zero => intro lo s; exact .inl rfl
  | succ k ih =>
    intro lo s
    rcases h1 lo s with h | ⟨h, h'⟩
    · rw [forBrkN, forBrkN, ← h]
      cases hf : f lo s with
      | error e => exact .inl rfl
      | ok x =>
        cases x with
        | brk s' => exact .inl rfl
        | cont s' =>
          rcases ih (lo + 1) s' with e | ⟨t, ht, hb⟩
          · exact .inl e
          · refine .inr ⟨t, ?_, hb⟩
            rw [loopStates, h2 _ _ _ hf]
            exact List.mem_append_right _ ht
    · refine .inr ⟨s, ?_, h'⟩
      rw [loopStates, h]
      simp

/-- Such states are far apart if the condition requires a counter to be large. -/
theorem loopStates_length {r : Nat → σ → C (Step σ)} {P : σ → Bool} {pot : σ → Nat} {K : Nat}
    (h1 : ∀ i s s', r i s = .ok (.cont s') → pot s' ≤ if P s then 0 else pot s + 1)
    (h2 : ∀ s, P s = true → K ≤ pot s) (k : Nat) : ∀ lo s,
    (loopStates r P k lo s).length * K ≤ pot s + k := by
  induction k with
  | zero => intro lo s; simp [loopStates]
  | succ k ih =>
    intro lo s
    rw [loopStates, List.length_append, add_mul]
    have e1 : (if P s = true then [s] else []).length * K ≤ if P s then pot s else 0 := by
      split
      · simpa using h2 s (by assumption)
      · simp
    generalize (if P s = true then [s] else []).length * K = X at *
    cases hr : r lo s with
    | error e =>
      simp only [List.length_nil]
      split at e1 <;> omega
    | ok x =>
      cases x with
      | brk s' =>
        simp only [List.length_nil]
        split at e1 <;> omega
      | cont s' =>
        have := ih (lo + 1) s'
        have := h1 _ _ _ hr
        simp only
        split at e1 <;> rename_i hP
        · rw [if_pos hP] at this
          omega
        · rw [if_neg hP] at this
          omega

end

/-- Is it time to test? -/
def gplu_time (n : Nat) (s : Gplu) : Bool :=
  decide (s.L.isNone ∧ s.done = false ∧ s.since > 10 ∧ s.since > n / 100)

/-- The body of the loop. -/
def gplu_body (jk : Junk) (A : Csr) (p : Array Nat) (n : Nat) (p_in : Option (Array Nat))
    (tc : Csr → Array Int → C Bool) (i : Nat) (s : Gplu) : C (Step Gplu) := do
  if s.L.isNone ∧ s.U.n = min A.n A.m then .ok (.brk s)
  else do
    let stop ← gplu_test (gplu_time n s) tc s
    if stop then .ok (.brk s)
    else do
      let inew ← rd p i
      let s ← gplu_row jk A p_in inew (if gplu_time n s then { s with done := true } else s)
      .ok (.cont s)

/-- The state before the loop. -/
def gplu_start (jk : Junk) (A : Csr) (fact : Lu) (unz : Nat) : Gplu :=
  ⟨fact.U, unz, fact.qinv, fact.Ltmp, match fact.Ltmp with | some L => L.nz | none => 0, fact.p, 0, false,
    ⟨0, 0, mkArr A.m fun _ => 0, mkArr A.m fun _ => 0, mkArr A.m fun _ => 0⟩, mkArr A.m jk.int⟩

theorem gplu_loop (jk : Junk) (A : Csr) (p : Array Nat) (n : Nat) (p_in : Option (Array Nat)) (fact : Lu)
    (tc : Csr → Array Int → C Bool) : gplu jk A p n p_in fact tc = (do
      let unz ← nnz fact.U
      let (_, s) ← forBrk 0 n (gplu_start jk A fact unz) (gplu_body jk A p n p_in tc)
      .ok { fact with U := s.U, qinv := s.qinv, p := s.Lp,
                      Ltmp := s.L.map fun L => { L with nz := s.lnz, m := s.U.n } }) := rfl

theorem bind_val {α β : Type} {c : C α} {f : α → C β} {b : β} (h : c >>= f = .ok b) :
    ∃ a, c = .ok a ∧ f a = .ok b := by
  cases c with
  | error e => cases h
  | ok a => exact ⟨a, rfl, h⟩

/-- The counters after one row. -/
theorem gplu_row_since {jk : Junk} {A : Csr} {p_in : Option (Array Nat)} {inew : Nat} {s s' : Gplu}
    (h : gplu_row jk A p_in inew s = .ok s') :
    (s'.since = 0 ∧ s'.done = false) ∨ (s'.since = s.since + 1 ∧ s'.done = s.done) := by
  unfold gplu_row at h
  obtain ⟨U, -, h⟩ := bind_val h
  obtain ⟨L, -, h⟩ := bind_val h
  obtain ⟨i, -, h⟩ := bind_val h
  obtain ⟨w, -, h⟩ := bind_val h
  obtain ⟨t, -, h⟩ := bind_val h
  simp only at h
  split at h
  · cases h
    exact .inr ⟨rfl, rfl⟩
  · obtain ⟨_, -, h⟩ := bind_val h
    obtain ⟨_, -, h⟩ := bind_val h
    obtain ⟨_, -, h⟩ := bind_val h
    obtain ⟨_, -, h⟩ := bind_val h
    obtain ⟨_, -, h⟩ := bind_val h
    obtain ⟨_, -, h⟩ := bind_val h
    obtain ⟨_, -, h⟩ := bind_val h
    obtain ⟨_, -, h⟩ := bind_val h
    obtain ⟨_, -, h⟩ := bind_val h
    cases h
    exact .inl ⟨rfl, rfl⟩

/-- The elimination, whatever the answers of the test: there are a few matrices, which do not depend on these
answers, such that some row remains for each of them, and the outcome is right unless the test says that nothing
remains for one of them. -/
theorem gplu_fails {q : ℕ} [Fact q.Prime] (jk : Junk) {A0 A : Csr} (hA : A.WFV q) (hm : A.m = A0.m)
    {p_in : Option (Array Nat)} (hp : PermSize p_in A.n) {p : Array Nat} {n : Nat}
    (hps : n ≤ p.size) (hpn : ∀ k, k < n → p.g k < A.n) {fact : Lu} {old : Nat} {complete : Bool}
    (h : Partial q A0 fact.U fact.qinv fact.Ltmp fact.p (fun t => A.entry q (p.g t)) n
      (fun t => permFun p_in (p.g t)) old complete)
    (hrank : fact.Ltmp = none → A.m ≤ A.n ∨ fact.U.n + n ≤ A.n ∨ ∀ U qinv, Echelon q U qinv →
      U.rowSpace q ≤ A0.rowSpace q → U.n = A.n → U.rowSpace q = A0.rowSpace q) :
    ∃ l : List Csr, l.length * (max 10 (n / 100) + 1) ≤ n ∧
      (∀ U ∈ l, ∃ t, t < n ∧ A.entry q (p.g t) ∉ U.rowSpace q) ∧
      ∀ tc : Csr → Array Int → C Bool,
        (∀ U qinv, Echelon q U qinv → U.m = A.m → ∃ b, tc U qinv = .ok b) →
        Ok (gplu jk A p n p_in fact tc) (fun f => ∃ L v o,
          f.Ltmp = L.map (fun Z => { Z with m := f.U.n }) ∧
          Partial q A0 f.U f.qinv L f.p v 0 o old complete ∧ fact.U.n ≤ f.U.n ∧
          L.isSome = fact.Ltmp.isSome ∧ f.r = fact.r ∧ f.complete = fact.complete ∧ f.L = fact.L) ∨
        ∃ U ∈ l, ∃ qinv, Echelon q U qinv ∧ U.m = A.m ∧ tc U qinv = .ok true := by
  classical
  let Done (U : Csr) : Prop := ∀ t, t < n → A.entry q (p.g t) ∈ U.rowSpace q
  let s0 := gplu_start jk A fact (fact.U.p.g fact.U.n)
  let l := loopStates (gplu_body jk A p n p_in fun _ _ => .ok false) (gplu_time n) n 0 s0
  refine ⟨(l.map Gplu.U).filter fun U => decide (¬ Done U), ?_, ?_, ?_⟩
  · have hl := loopStates_length (r := gplu_body jk A p n p_in fun _ _ => .ok false) (P := gplu_time n)
      (pot := fun s => if s.done then 0 else s.since) (K := max 10 (n / 100) + 1) ?_ ?_ n 0 s0
    · refine (Nat.mul_le_mul_right _ ((List.length_filter_le _ _).trans_eq (List.length_map _))).trans ?_
      refine hl.trans_eq ?_
      simp [s0, gplu_start]
    · intro i s s' hs
      unfold gplu_body at hs
      split at hs
      · cases hs
      · obtain ⟨b, hb, hs⟩ := bind_val hs
        split at hs
        · cases hs
        · obtain ⟨k, -, hs⟩ := bind_val hs
          obtain ⟨t, ht, hs⟩ := bind_val hs
          cases hs
          rcases gplu_row_since ht with ⟨e1, e2⟩ | ⟨e1, e2⟩
          · simp only [e1, ite_self, Nat.zero_le]
          · by_cases hP : gplu_time n s = true
            · rw [if_pos hP] at e1 e2 ⊢
              simp only at e2
              simp [e2]
            · rw [if_neg hP] at e1 e2 ⊢
              rw [e1, e2]
              cases s.done <;> simp
    · intro s hs
      unfold gplu_time at hs
      obtain ⟨-, h1, h2, h3⟩ := of_decide_eq_true hs
      rw [h1]
      simp only [Bool.false_eq_true, if_false]
      omega
  · intro U hU
    have := of_decide_eq_true (List.mem_filter.1 hU).2
    simp only [Done] at this
    push Not at this
    exact this
  · intro tc htot
    let tc' : Csr → Array Int → C Bool := fun U qinv =>
      if ¬ Done U ∧ Echelon q U qinv ∧ U.m = A.m then .ok false else tc U qinv
    have hnz : nnz fact.U = .ok (fact.U.p.g fact.U.n) := nnz_ok h.ech.wfv.toWF
    have hk := forBrkN_couple (f := gplu_body jk A p n p_in tc) (g := gplu_body jk A p n p_in tc')
      (r := gplu_body jk A p n p_in fun _ _ => .ok false) (P := gplu_time n)
      (Bad := fun s => ¬ Done s.U ∧ Echelon q s.U s.qinv ∧ s.U.m = A.m ∧ tc s.U s.qinv = .ok true)
      ?_ ?_ n 0 s0
    · rcases hk with e | ⟨s, hs, b1, b2, b3, b4⟩
      · left
        have e' : gplu jk A p n p_in fact tc = gplu jk A p n p_in fact tc' := by
          rw [gplu_loop, gplu_loop, hnz]
          simp only [forBrk, Nat.sub_zero, bind, Except.bind] at e ⊢
          rw [show gplu_start jk A fact (fact.U.p.g fact.U.n) = s0 from rfl, e]
        rw [e']
        refine gplu_spec jk hA hm hp hps hpn h hrank fun _ U qinv hU hUm => ?_
        by_cases hD : Done U
        · obtain ⟨b, hb⟩ := htot U qinv hU hUm
          simp only [tc']
          rw [if_neg (fun hh => hh.1 hD), hb, Ok_ok]
          exact fun _ => hD
        · simp only [tc']
          rw [if_pos ⟨hD, hU, hUm⟩, Ok_ok]
          exact fun hh => nomatch hh
      · right
        exact ⟨s.U, List.mem_filter.2 ⟨List.mem_map_of_mem hs, decide_eq_true b1⟩, s.qinv, b2, b3, b4⟩
    · intro i s
      unfold gplu_body
      by_cases hc : s.L.isNone = true ∧ s.U.n = min A.n A.m
      · rw [if_pos hc, if_pos hc]
        exact .inl rfl
      · rw [if_neg hc, if_neg hc]
        unfold gplu_test
        by_cases hP : gplu_time n s = true
        · simp only [if_pos hP, tc']
          by_cases hD : ¬ Done s.U ∧ Echelon q s.U s.qinv ∧ s.U.m = A.m
          · rw [if_pos hD]
            obtain ⟨b, hb⟩ := htot s.U s.qinv hD.2.1 hD.2.2
            rw [hb]
            cases b with
            | true => exact .inr ⟨hP, hD.1, hD.2.1, hD.2.2, rfl⟩
            | false => exact .inl rfl
          · rw [if_neg hD]
            exact .inl rfl
        · simp only [if_neg hP]
          exact .inl trivial
    · intro i s s' hs
      unfold gplu_body at hs ⊢
      split at hs
      · cases hs
      · next hc =>
        rw [if_neg hc]
        obtain ⟨b, hb, hs⟩ := bind_val hs
        split at hs
        · cases hs
        · unfold gplu_test
          simp only [ite_self]
          exact hs

section
variable {q : ℕ} [Fact q.Prime] {A0 : Csr} {env : Env} {opts : Opts}

/-- The rest of the driver, whatever the random numbers. -/
theorem echelonize_finish_fails (jk : Junk) (henv : env.Possible q)
    (ht : opts.tall = false)
    (hs : NoSchur env opts ∨ 2 * Module.finrank (ZMod q) (A0.rowSpace q) ≤ A0.n)
    (hg : opts.gplu = true) (hd : ¬ (opts.dense = true ∧ env.full = true)) {s : Driver}
    (h : RoundEnd q env opts A0 s) :
    ∃ B p n, ∃ l : List Csr, n ≤ A0.n ∧ l.length * (max 10 (n / 100) + 1) ≤ n ∧
      (∀ U ∈ l, ∃ t, t < n ∧ B.entry q (p.g t) ∉ U.rowSpace q) ∧
      ∀ d : Nat → Nat → Int, (∀ k i, Small q (d k i)) →
        Ok (echelonize_finish jk { env with draw := d } opts s) (fun f => Held q opts A0 f 0) ∨
        ∃ U ∈ l, Tested q { env with draw := d } B p n U := by
  obtain ⟨old, hP⟩ := h.part
  have hle := h.le
  have hps := h.p_size
  have hm := h.m_eq
  have hroom := hP.room
  have hrow := h.rows
  have hr : s.fact.Ltmp = none → s.A.m ≤ s.A.n ∨ s.fact.U.n + (s.n - s.npiv) ≤ s.A.n ∨ ∀ U qinv, Echelon q U qinv →
      U.rowSpace q ≤ A0.rowSpace q → U.n = s.A.n → U.rowSpace q = A0.rowSpace q := by
    intro _
    rcases hs with hs | hs
    · have hA : s.A = A0 := h.orig.resolve_right fun hn => hn hs
      exact .inr (.inl (by rw [hA]; omega))
    · refine .inr (.inr fun U qinv hU hle hUn => hU.span_of_count hle ?_)
      have := Submodule.finrank_mono (le_sup_left.trans hP.span.le)
      rw [hP.ech.rank] at this
      omega
  have hsz : s.n - s.npiv ≤ (shift s.p s.npiv).size := by simp; omega
  have hpn : ∀ i, i < s.n - s.npiv → (shift s.p s.npiv).g i < s.A.n := by
    intro i hi
    rw [g_shift (by omega)]; exact h.p_lt _ (by omega)
  obtain ⟨l, l1, l2, l3⟩ := gplu_fails jk h.wfv hm h.perm hsz hpn hP hr
  refine ⟨s.A, shift s.p s.npiv, s.n - s.npiv, l, by omega, l1, l2, fun d hd' => ?_⟩
  have hff := henv.ff
  have htc : ∀ U qinv, Echelon q U qinv → U.m = s.A.m → Ok (test_completion jk { env with draw := d } s.A
      (shift s.p s.npiv) (s.n - s.npiv) U qinv) (fun b => b = true ↔
        Tested q { env with draw := d } s.A (shift s.p s.npiv) (s.n - s.npiv) U) :=
    fun U qinv hU hUm => test_completion_spec jk h.wfv hU hUm hsz hpn hd' hff
  rcases l3 (fun U qinv => test_completion jk { env with draw := d } s.A (shift s.p s.npiv) (s.n - s.npiv) U qinv)
    (fun U qinv hU hUm => (Ok_iff.1 (htc U qinv hU hUm)).imp fun b hb => hb.1) with g | ⟨U, hU, qinv, g1, g2, g3⟩
  · left
    unfold echelonize_finish
    rw [csub_ok hle, Ok_bind, Ok_ok, if_neg (fun hh => by rw [ht] at hh; cases hh.1), if_neg hd, if_pos hg]
    refine g.mono ?_
    rintro f ⟨L, v, o, f1, f2, f3, f4, f5, f6, f7⟩
    refine ⟨f7.trans h.keep, L, v, o, old, f2, f4.trans h.hasL, ?_⟩
    rw [f1]
    cases L <;> rfl
  · right
    have := htc U qinv g1 g2
    rw [g3, Ok_ok] at this
    exact ⟨U, hU, this.1 rfl⟩

/-- The driver, whatever the random numbers. -/
theorem echelonize_fails (jk : Junk) (henv : env.Possible q) (hA0 : A0.WFV q) (hnd : A0.NoDup)
    (hz : A0.NoZero) (hL : opts.L = false) (hc : opts.complete = false)
    (ht : opts.tall = false)
    (hs : NoSchur env opts ∨ 2 * Module.finrank (ZMod q) (A0.rowSpace q) ≤ A0.n)
    (hg : opts.gplu = true) (hd : ¬ (opts.dense = true ∧ env.full = true)) :
    ∃ B p n, ∃ l : List Csr, n ≤ A0.n ∧ l.length * (max 10 (n / 100) + 1) ≤ n ∧
      (∀ U ∈ l, ∃ t, t < n ∧ B.entry q (p.g t) ∉ U.rowSpace q) ∧
      ∀ d : Nat → Nat → Int, (∀ k i, Small q (d k i)) →
        Ok (echelonize jk { env with draw := d } opts A0) (fun f => Echelon q f.U f.qinv ∧ f.U.m = A0.m ∧
          f.U.n = f.r ∧ f.r = (A0.toMat q).rank ∧ f.U.rowSpace q = A0.rowSpace q) ∨
        ∃ U ∈ l, Tested q { env with draw := d } B p n U := by
  have e : opts.norm = opts := by
    cases opts; simp_all [Opts.norm]
  obtain ⟨f, hf, f1, f2, f3, f4⟩ := Ok_iff.1 (echelonize_init_spec (q := q) (opts := opts) jk hA0)
  have hr := Ok_forBrk (I := RoundInv q env opts A0) (B := fun _ => RoundBrk q env opts A0) (lo := 0)
    (hi := opts.max_round) (s := ⟨A0, A0.n, none, mkArr A0.n jk.nat, 0, f, 0⟩)
    (f := fun round s => echelonize_round jk env opts round s) (Nat.zero_le _)
    ⟨hA0, hnd, hz, rfl, rfl, fun a ha => (nomatch ha), by simp only; rw [f2]; exact f1, f4, f3, rfl,
      .inl ⟨rfl, rfl⟩, by simp only; omega⟩
    (fun i s _ hi hI => (echelonize_round_spec jk henv hi hI).mono (by
      intro r hr
      cases r <;> exact hr))
  obtain ⟨⟨k, s⟩, hs1, hs2⟩ := Ok_iff.1 hr
  have hfin : ∀ d, Ok (echelonize_rest jk { env with draw := d } opts s) (fun f => Held q opts A0 f 0) →
      Ok (echelonize jk { env with draw := d } opts A0) (fun f => Echelon q f.U f.qinv ∧ f.U.m = A0.m ∧
          f.U.n = f.r ∧ f.r = (A0.toMat q).rank ∧ f.U.rowSpace q = A0.rowSpace q) := by
    intro d hd
    unfold echelonize
    simp only
    rw [e, hf, Ok_bind, Ok_ok]
    rw [show (fun round s => echelonize_round jk { env with draw := d } opts round s) =
      (fun round s => echelonize_round jk env opts round s) from rfl, hs1, Ok_bind, Ok_ok, Ok_bind]
    refine hd.mono fun f hf => ?_
    obtain ⟨-, L, v, o, old, hP, -⟩ := id hf
    refine (cleanup_held jk hf).mono ?_
    rintro g ⟨g1, g2, g3, g4, g5, g6, g7, g8, -⟩
    have hsp := hP.span
    rw [spanOf_zero, sup_bot_eq] at hsp
    have g4' := g4.trans hsp
    exact ⟨g1, g2, g3.symm, by rw [g3, ← g1.rank, g4', finrank_rowSpace hA0.toWF], g4'⟩
  have hs' : RoundBrk q env opts A0 s ∨ RoundInv q env opts A0 opts.max_round s :=
    hs2.imp (fun h => h.2.2) (fun h => h.2)
  rcases hs' with (⟨h1, h2⟩ | ⟨h1, h2⟩) | h
  · refine ⟨A0, #[], 0, [], Nat.zero_le _, by simp, fun U hU => (nomatch hU), fun d _ => .inl (hfin d ?_)⟩
    unfold echelonize_rest
    rw [if_pos h1, Ok_ok]
    exact h2
  · obtain ⟨B, p, n, l, l0, l1, l2, l3⟩ := echelonize_finish_fails jk henv ht hs hg hd h2
    refine ⟨B, p, n, l, l0, l1, l2, fun d hd' => (l3 d hd').imp (fun g => hfin d ?_) id⟩
    unfold echelonize_rest
    rw [if_neg (by omega), if_neg (by omega)]
    exact g
  · obtain ⟨B, p, n, l, l0, l1, l2, l3⟩ := echelonize_finish_fails jk henv ht hs hg hd (h.end rfl)
    refine ⟨B, p, n, l, l0, l1, l2, fun d hd' => (l3 d hd').imp (fun g => hfin d ?_) id⟩
    have := h.status
    unfold echelonize_rest
    rw [if_neg (by omega), if_pos this]
    exact g

end

end Spasm
