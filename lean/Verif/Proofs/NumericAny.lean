import Verif.Proofs.Numeric

/-
The decisions of the driver that are made with floating-point numbers, for all matrices and all options: every run of
`echelonize_num` is undefined or is a run of `echelonize` for some decisions.
-/

namespace Spasm

open Finset

theorem i32_cases (x : Int) : i32 x = .ok x ∨ i32 x = .error .ub := by
  unfold i32
  split
  · exact .inl rfl
  · exact .inr rfl

theorem Dbl.toI32_cases (d : Dbl) : (∃ w, d.toI32 = .ok w) ∨ d.toI32 = .error .ub := by
  cases d with
  | fin x =>
    unfold Dbl.toI32
    rcases i32_cases (truncQ x) with h | h
    · exact .inl ⟨_, h⟩
    · exact .inr h
  | _ => exact .inr rfl

theorem csub_cases (a b : Nat) : (∃ c, csub a b = .ok c) ∨ csub a b = .error .ub := by
  unfold csub
  split
  · exact .inl ⟨_, rfl⟩
  · exact .inr rfl

theorem num_lowrank_any (jk : Junk) (env : Env) (nm : Num) (opts : Opts) (A : Csr) (p : Array Nat)
    (n : Nat) (fact : Lu) : num_lowrank jk env nm opts A p n fact = .error .ub ∨ ∃ less weight,
    num_lowrank jk env nm opts A p n fact =
      lowrank jk { env with less := less, weight := weight } opts A p n fact := by
  cases hb : cassert (decide (opts.block > 0)) with
  | error e =>
    refine .inr ⟨fun _ => false, 0, ?_⟩
    unfold num_lowrank lowrank
    rw [hb]; rfl
  | ok u =>
    rcases csub_cases A.m fact.U.n with ⟨Sm, hS⟩ | hS
    · rcases Dbl.toI32_cases (if nm.o.low_rank_start_weight.lt (.fin 0) then
        (((Dbl.fin nm.mlog).mul (Dbl.ofInt n)).div (Dbl.ofInt (min n Sm : Nat))).ceil
          else nm.o.low_rank_start_weight) with ⟨w, hw⟩ | hw
      · obtain ⟨y, hy⟩ := whileFuel_choices (F := num_lowrank_round jk env opts.block A p)
          (G := fun d s => lowrank_round jk { env with less := fun _ => d } opts.block A p s) (rd := LowRank.round)
          false (num_lowrank_round_eq jk env opts.block A p)
          (fun s s' hs => by
            obtain ⟨d, hd⟩ := num_lowrank_round_eq jk env opts.block A p s
            rw [hd] at hs
            exact lowrank_round_next hs)
          env.fuel ⟨fact, dense_alloc jk (opts.block.toNat * Sm), mkArr Sm jk.nat, n, Sm, min n Sm, w, 0⟩
        refine .inr ⟨y, w, ?_⟩
        unfold num_lowrank lowrank
        rw [hb, hS]
        have := hy y fun _ _ => rfl
        show (num_weight nm n Sm >>= fun w => _) = _
        unfold num_weight
        rw [hw]
        show (whileFuel env.fuel _ _ >>= fun s => _) = _
        rw [this]
        rfl
      · refine .inl ?_
        unfold num_lowrank
        rw [hb, hS]
        show (num_weight nm n Sm >>= fun w => _) = _
        unfold num_weight
        rw [hw]
        rfl
    · refine .inl ?_
      unfold num_lowrank
      rw [hb, hS]
      rfl

theorem num_dense_any (jk : Junk) (env : Env) (nm : Num) (opts : Opts) (A : Csr) (p : Array Nat)
    (n : Nat) (p_in : Option (Array Nat)) (fact : Lu) : num_dense jk env nm opts A p n p_in fact = .error .ub ∨
    ∃ yield less weight, num_dense jk env nm opts A p n p_in fact =
      echelonize_dense jk { env with yield := yield, less := less, weight := weight } opts A p n p_in fact := by
  obtain ⟨Sm, hSm⟩ : ∃ x, csub A.m fact.U.n = x := ⟨_, rfl⟩
  cases hb : cassert (decide (opts.block > 0)) with
  | error e =>
    refine .inr ⟨fun _ => false, fun _ => false, 0, ?_⟩
    unfold num_dense echelonize_dense
    rw [hb]; rfl
  | ok u =>
    cases Sm with
    | error e =>
      refine .inr ⟨fun _ => false, fun _ => false, 0, ?_⟩
      unfold num_dense echelonize_dense
      rw [hb, hSm]; rfl
    | ok Sm =>
      obtain ⟨y, hy⟩ := whileFuel_choices (F := num_dense_round jk env nm opts A p n p_in)
        (G := fun d s => dense_round jk { env with yield := fun _ => d } opts A p n p_in s) (rd := DenseSt.round)
        false (num_dense_round_eq jk env nm opts A p n p_in)
        (fun s s' hs => by
          obtain ⟨d, hd⟩ := num_dense_round_eq jk env nm opts A p n p_in s
          rw [hd] at hs
          exact dense_round_next hs)
        (n + 1) ⟨fact, dense_alloc jk (opts.block.toNat * Sm), mkArr Sm jk.nat,
          mkArr opts.block.toNat jk.nat, mkArr A.n fun _ => false, 0, 0, false⟩
      have e := hy y fun _ _ => rfl
      have e1 : num_dense jk env nm opts A p n p_in fact =
          (whileFuel (n + 1) ⟨fact, dense_alloc jk (opts.block.toNat * Sm), mkArr Sm jk.nat,
            mkArr opts.block.toNat jk.nat, mkArr A.n fun _ => false, 0, 0, false⟩
            (num_dense_round jk env nm opts A p n p_in) >>= fun s =>
          if min ((A.n : Int) - s.fact.U.n) ((A.m : Int) - s.fact.U.n) > 0 ∧ n > s.processed ∧ s.lowrank = true then
            num_lowrank jk env nm opts A (shift p s.processed) (n - s.processed) s.fact
          else .ok s.fact) := by
        unfold num_dense
        rw [hb, hSm]; rfl
      have e2 : ∀ less weight,
          echelonize_dense jk { env with yield := y, less := less, weight := weight } opts A p n p_in fact =
          (whileFuel (n + 1) ⟨fact, dense_alloc jk (opts.block.toNat * Sm), mkArr Sm jk.nat,
            mkArr opts.block.toNat jk.nat, mkArr A.n fun _ => false, 0, 0, false⟩
            (num_dense_round jk env nm opts A p n p_in) >>= fun s =>
          if min ((A.n : Int) - s.fact.U.n) ((A.m : Int) - s.fact.U.n) > 0 ∧ n > s.processed ∧ s.lowrank = true then
            lowrank jk { env with yield := y, less := less, weight := weight } opts A (shift p s.processed)
              (n - s.processed) s.fact
          else .ok s.fact) := by
        intro less weight
        unfold echelonize_dense
        rw [hb, hSm, e]; rfl
      revert e1 e2
      generalize whileFuel (n + 1) (⟨fact, dense_alloc jk (opts.block.toNat * Sm),
          mkArr Sm jk.nat, mkArr opts.block.toNat jk.nat, mkArr A.n fun _ => false, 0, 0, false⟩ : DenseSt)
          (num_dense_round jk env nm opts A p n p_in) = x
      intro e1 e2
      cases x with
      | error er => exact .inr ⟨y, fun _ => false, 0, by rw [e1, e2]; rfl⟩
      | ok s =>
        by_cases hc : min ((A.n : Int) - s.fact.U.n) ((A.m : Int) - s.fact.U.n) > 0 ∧ n > s.processed ∧ s.lowrank = true
        · rcases num_lowrank_any jk { env with yield := y } nm opts A (shift p s.processed) (n - s.processed) s.fact with
            hl | ⟨less, weight, hl⟩
          · refine .inl ?_
            rw [e1]
            exact (if_pos hc).trans hl
          · refine .inr ⟨y, less, weight, ?_⟩
            rw [e1, e2]
            exact (if_pos hc).trans (hl.trans (if_pos hc).symm)
        · refine .inr ⟨y, fun _ => false, 0, ?_⟩
          rw [e1, e2]
          exact (if_neg hc).trans (if_neg hc).symm

/-- A loop with decisions, which may be undefined. -/
theorem forBrkN_any {σ τ δ : Type} {pr : σ → τ} {F : Nat → σ → C (Step σ)} {G : δ → Nat → τ → C (Step τ)}
    {P : Nat → σ → Prop} {B : σ → Prop} {hi : Nat} (d0 : δ)
    (hF : ∀ i s, i < hi → P i s → F i s = .error .ub ∨ ∃ d r, F i s = .ok r ∧ G d i (pr s) = .ok (r.map pr) ∧
      match r with
      | .cont s' => P (i + 1) s'
      | .brk s' => B s') :
    ∀ k i s, i + k = hi → P i s → forBrkN i k s F = .error .ub ∨ ∃ r, forBrkN i k s F = .ok r ∧
      (B r.2 ∨ P hi r.2) ∧ ∃ y : Nat → δ, ∀ h : Nat → δ,
      (∀ j, i ≤ j → h j = y j) → forBrkN i k (pr s) (fun j t => G (h j) j t) = .ok (r.1, pr r.2) := by
  intro k
  induction k with
  | zero =>
    intro i s hk hP
    obtain rfl : i = hi := by omega
    exact .inr ⟨_, rfl, .inr hP, fun _ => d0, fun h _ => rfl⟩
  | succ k ih =>
    intro i s hk hP
    rcases hF i s (by omega) hP with h1 | ⟨d, r, h1, h2, h3⟩
    · refine .inl ?_
      unfold forBrkN
      rw [h1]; rfl
    cases r with
    | brk s' =>
      refine .inr ⟨(i, s'), ?_, .inl h3, fun _ => d, fun h hh => ?_⟩
      · unfold forBrkN
        rw [h1]; rfl
      · unfold forBrkN
        simp only [hh _ (le_refl _), h2]
        rfl
    | cont s' =>
      rcases ih (i + 1) s' (by omega) h3 with h4 | ⟨r, r1, r2, y, hy⟩
      · refine .inl ?_
        unfold forBrkN
        rw [h1]; exact h4
      refine .inr ⟨r, ?_, r2, fun j => if j = i then d else y j, fun h hh => ?_⟩
      · unfold forBrkN
        rw [h1]; exact r1
      · have h0 : h i = d := (hh _ (le_refl _)).trans (if_pos rfl)
        unfold forBrkN
        simp only [h0, h2]
        refine hy h fun j hj => ?_
        exact (hh j (by omega)).trans (if_neg (by omega))

section
variable {q : ℕ} {A0 : Csr} {opts : Opts}

theorem num_round_any [Fact q.Prime] (jk : Junk) {env : Env} (henv : env.Possible q)
    (hm : A0.m < 2 ^ 31) (hn : A0.n < 2 ^ 31) (nm : Num) {round : Nat} {s : NumDriver}
    (hlt : round < opts.max_round) (h : RoundInv q env.calm opts A0 round s.d) :
    num_round jk env nm opts round s = .error .ub ∨
    ∃ d r, num_round jk env nm opts round s = .ok r ∧
      echelonize_round jk (env.fixed d) opts round s.d = .ok (r.map NumDriver.d) ∧
      match r with
      | .cont s' => RoundInv q env.calm opts A0 (round + 1) s'.d
      | .brk s' => s'.d.status = 1 ∨ (s'.d.status = 2 ∧ RoundEnd q env.calm opts A0 s'.d) := by
  by_cases hr : Leaves jk env nm opts A0 round s.d
  · exact .inr (num_round_leaves jk henv hm hn nm hlt h hr)
  unfold Leaves at hr
  push Not at hr
  obtain ⟨hk, npiv, f, p, hx, hfew, hpos, hu⟩ := hr
  have hE := h.pivots jk henv hk
  rw [hx, Ok_ok] at hE
  simp only at hE
  refine .inl ?_
  have e1 : num_round jk env nm opts round s = num_next jk env nm round { s.d with npiv := npiv, fact := f, p := p } := by
    unfold num_round
    rw [nnz_ok h.wfv.toWF]
    show (if _ then _ else _) = _
    rw [if_neg hk, hx]
    show (if num_few nm npiv s.d.n ((s.d.A.m : Int) - f.U.n) then _ else _) = _
    rw [if_neg (by simp [hfew])]
  rw [e1]
  obtain ⟨old, hP⟩ := hE.part
  have hle := hE.le
  have hps := hE.p_size
  have hU := hP.ech.n_le
  have hmm := hP.m_eq
  have hme := hE.m_eq
  simp only at hle hps hP hU hmm hme hpos
  have hp : ∀ k, k < s.d.n - npiv → (shift p npiv).g k < s.d.A.n := by
    intro k hk
    rw [g_shift (by omega)]
    exact hE.p_lt _ (by simp only; omega)
  obtain ⟨n1, -, -⟩ := C56_nan jk q s.d.A (shift p npiv) (s.d.n - npiv) f.U f.qinv hE.wfv hP.ech (by rw [hmm, hme])
    (by simp; omega) hp hpos (by omega) 100 (nm.rand round)
  unfold num_next num_density
  rw [csub_ok hle]
  show (estimate_density jk s.d.A (shift p npiv) (s.d.n - npiv) f.U f.qinv 100 (nm.rand round) >>= fun density => _) = _
  rw [n1]
  show (if nm.o.sparsity_threshold.lt .nan then _ else _) = _
  have : nm.o.sparsity_threshold.lt .nan = false := by
    cases nm.o.sparsity_threshold <;> rfl
  rw [if_neg (by simp [this])]
  unfold num_size
  rw [csub_ok hle]
  rfl

theorem num_finish_any [Fact q.Prime] (jk : Junk) (env : Env) (nm : Num) (density : Dbl) {e : Env} {s : Driver}
    (hE : RoundEnd q e opts A0 s) : num_finish jk env nm opts density s = .error .ub ∨
    ∃ skinny full yield less weight, num_finish jk env nm opts density s =
        echelonize_finish jk (env.ending skinny full yield less weight) opts s := by
  have key : ∀ skinny full yield less weight, echelonize_finish jk (env.ending skinny full yield less weight) opts s =
      if opts.tall ∧ skinny = true then lowrank jk { env with less := less, weight := weight } opts s.A (shift s.p s.npiv)
        (s.n - s.npiv) s.fact
      else if opts.dense ∧ full = true then echelonize_dense jk { env with yield := yield, less := less, weight := weight }
        opts s.A (shift s.p s.npiv) (s.n - s.npiv) s.p_in s.fact
      else if opts.gplu then gplu jk s.A (shift s.p s.npiv) (s.n - s.npiv) s.p_in s.fact fun U qinv =>
        test_completion jk env s.A (shift s.p s.npiv) (s.n - s.npiv) U qinv
      else .ok s.fact := by
    intro skinny full yield less weight
    unfold echelonize_finish
    rw [csub_ok hE.le]
    rfl
  have key2 : num_finish jk env nm opts density s =
      if opts.tall ∧ num_skinny nm (s.n - s.npiv) ((s.A.m : Int) - s.fact.U.n) = true then
        num_lowrank jk env nm opts s.A (shift s.p s.npiv) (s.n - s.npiv) s.fact
      else if opts.dense ∧ nm.o.sparsity_threshold.lt density = true then
        num_dense jk env nm opts s.A (shift s.p s.npiv) (s.n - s.npiv) s.p_in s.fact
      else if opts.gplu then gplu jk s.A (shift s.p s.npiv) (s.n - s.npiv) s.p_in s.fact fun U qinv =>
        test_completion jk env s.A (shift s.p s.npiv) (s.n - s.npiv) U qinv
      else .ok s.fact := by
    unfold num_finish
    rw [csub_ok hE.le]
    rfl
  by_cases h1 : opts.tall ∧ num_skinny nm (s.n - s.npiv) ((s.A.m : Int) - s.fact.U.n) = true
  · rcases num_lowrank_any jk env nm opts s.A (shift s.p s.npiv) (s.n - s.npiv) s.fact with h | ⟨less, weight, h⟩
    · exact .inl (by rw [key2, if_pos h1, h])
    · exact .inr ⟨true, false, fun _ => false, less, weight, by rw [key, key2, if_pos h1, h, if_pos ⟨h1.1, rfl⟩]⟩
  · by_cases h2 : opts.dense ∧ nm.o.sparsity_threshold.lt density = true
    · rcases num_dense_any jk env nm opts s.A (shift s.p s.npiv) (s.n - s.npiv) s.p_in s.fact with
        h | ⟨yield, less, weight, h⟩
      · exact .inl (by rw [key2, if_neg h1, if_pos h2, h])
      · refine .inr ⟨false, true, yield, less, weight, ?_⟩
        rw [key, key2, if_neg h1, if_pos h2, h]
        exact ((if_neg (fun h => by cases h.2)).trans (if_pos ⟨h2.1, rfl⟩)).symm
    · refine .inr ⟨false, false, fun _ => false, fun _ => false, 0, ?_⟩
      rw [key, key2, if_neg h1, if_neg h2]
      exact ((if_neg (fun h => by cases h.2)).trans (if_neg (fun h => by cases h.2))).symm

theorem num_rest_any [Fact q.Prime] (jk : Junk) (env : Env) (nm : Num) {e : Env} {s : NumDriver}
    (h : (s.d.status = 1 ∨ (s.d.status = 2 ∧ RoundEnd q e opts A0 s.d)) ∨ RoundInv q e opts A0 opts.max_round s.d) :
    num_rest jk env nm opts s = .error .ub ∨
    ∃ skinny full yield less weight, num_rest jk env nm opts s =
      echelonize_rest jk (env.ending skinny full yield less weight) opts s.d := by
  unfold num_rest echelonize_rest
  rcases h with (h | ⟨h, hE⟩) | h
  · refine .inr ⟨false, false, fun _ => false, fun _ => false, 0, ?_⟩
    rw [if_pos h, if_pos h]
  · rw [if_neg (by omega), if_neg (by omega)]
    rcases num_finish_any jk env nm s.density hE with hh | ⟨a, b, c, d, w, hh⟩
    · exact .inl hh
    refine .inr ⟨a, b, c, d, w, ?_⟩
    rw [if_neg (by omega), if_neg (by omega), hh]
  · have hs := h.status
    rw [if_neg (by omega), if_pos hs]
    rcases num_finish_any jk env nm s.density (h.end rfl) with hh | ⟨a, b, c, d, w, hh⟩
    · exact .inl hh
    refine .inr ⟨a, b, c, d, w, ?_⟩
    rw [if_neg (by omega), if_pos hs, hh]

end

theorem echelonize_num_any {q : ℕ} [Fact q.Prime] (jk : Junk) {env : Env} (henv : env.Possible q) (nm : Num)
    {opts : Opts} {A : Csr} (hA : A.WFV q) (hnd : A.NoDup) (hz : A.NoZero)
    (hn : A.n < 2 ^ 31) (hm : A.m < 2 ^ 31) : echelonize_num jk env nm opts A = .error .ub ∨
    ∃ env' : Env, env.Agree env' ∧ echelonize_num jk env nm opts A = echelonize jk env' opts A := by
  unfold echelonize_num echelonize
  simp only
  generalize opts.norm = op
  have h0 := echelonize_init_spec (opts := op) jk hA
  rw [Ok_iff] at h0
  obtain ⟨f, h0, f1, f2, f3, f4⟩ := h0
  rw [h0, nnz_ok hA.toWF]
  have hI : RoundInv q env.calm op A 0 ⟨A, A.n, none, mkArr A.n jk.nat, 0, f, 0⟩ :=
    ⟨hA, hnd, hz, rfl, rfl, fun a ha => (nomatch ha), by simp only; rw [f2]; exact f1, f4, f3, rfl, .inl ⟨rfl, rfl⟩, by simp only; omega⟩
  rcases forBrkN_any (pr := NumDriver.d) (F := fun round s => num_round jk env nm op round s)
    (G := fun d round s => echelonize_round jk (env.fixed d) op round s)
    (P := fun i s => RoundInv q env.calm op A i s.d)
    (B := fun s => s.d.status = 1 ∨ (s.d.status = 2 ∧ RoundEnd q env.calm op A s.d)) (hi := op.max_round) (false, false, 0)
    (fun i s hi hP => by
      rcases num_round_any jk henv hm hn nm hi hP with h | ⟨d, r, a1, a2, a3⟩
      · exact .inl h
      · exact .inr ⟨d, r, a1, a2, by cases r <;> exact a3⟩)
    op.max_round 0 ⟨⟨A, A.n, none, mkArr A.n jk.nat, 0, f, 0⟩, num_density0 A (A.p.g A.n)⟩ (by omega) hI with
    r1 | ⟨r, r1, hend, y, hy⟩
  · refine .inl ?_
    show (forBrk 0 op.max_round _ (fun round s => num_round jk env nm op round s) >>= fun r => _) = _
    unfold forBrk
    rw [Nat.sub_zero, r1]
    rfl
  rcases num_rest_any jk env nm hend with hrest | ⟨sk, fu, yi, le, w, hrest⟩
  · refine .inl ?_
    show (forBrk 0 op.max_round _ (fun round s => num_round jk env nm op round s) >>= fun r => _) = _
    unfold forBrk
    rw [Nat.sub_zero, r1]
    show (num_rest jk env nm op r.2 >>= fun fact => _) = _
    rw [hrest]
    rfl
  refine .inr ⟨{ env with
      few := fun i => (y i).1, thick := fun i => (y i).2.1, size := fun i => (y i).2.2, skinny := sk, full := fu,
      yield := yi, less := le, weight := w },
    ⟨rfl, rfl, rfl, rfl, rfl, rfl, rfl, rfl⟩, ?_⟩
  have hy' := hy y fun _ _ => rfl
  show (forBrk 0 op.max_round _ (fun round s => num_round jk env nm op round s) >>= fun r => _) =
    (forBrk 0 op.max_round _ (fun j t => echelonize_round jk (env.fixed (y j)) op j t) >>= fun r => _)
  unfold forBrk
  rw [Nat.sub_zero, r1, hy']
  show (num_rest jk env nm op r.2 >>= fun fact => _) = _
  rw [hrest]
  rfl

end Spasm
