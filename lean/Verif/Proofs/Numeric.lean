import Verif.Model.Numeric
import Verif.Props.Density
import Verif.Proofs.Driver

/-
The decisions of the driver that are made with floating-point numbers: every run of `echelonize_num` is a run of
`echelonize` for some decisions.
-/

namespace Spasm

open Finset

/-! ### Loops with decisions -/

theorem whileFuel_choices {σ δ : Type} {F : σ → C (Step σ)} {G : δ → σ → C (Step σ)} {rd : σ → Nat} (d0 : δ)
    (hF : ∀ s, ∃ d, F s = G d s) (hrd : ∀ s s', F s = .ok (.cont s') → rd s' = rd s + 1) :
    ∀ fuel s, ∃ y : Nat → δ, ∀ h : Nat → δ, (∀ i, rd s ≤ i → h i = y i) →
      whileFuel fuel s F = whileFuel fuel s (fun s => G (h (rd s)) s) := by
  intro fuel
  induction fuel with
  | zero => exact fun s => ⟨fun _ => d0, fun h _ => rfl⟩
  | succ k ih =>
    intro s
    obtain ⟨d, hd⟩ := hF s
    cases hs : F s with
    | error e =>
      refine ⟨fun _ => d, fun h hh => ?_⟩
      unfold whileFuel
      simp only [hh _ (le_refl _), ← hd, hs]
      rfl
    | ok r =>
      cases r with
      | brk s' =>
        refine ⟨fun _ => d, fun h hh => ?_⟩
        unfold whileFuel
        simp only [hh _ (le_refl _), ← hd, hs]
        rfl
      | cont s' =>
        obtain ⟨y, hy⟩ := ih s'
        have hr := hrd s s' hs
        refine ⟨fun i => if i = rd s then d else y i, fun h hh => ?_⟩
        have h0 : h (rd s) = d := (hh _ (le_refl _)).trans (if_pos rfl)
        unfold whileFuel
        simp only [h0, ← hd, hs]
        refine hy h fun i hi => ?_
        exact (hh i (by omega)).trans (if_neg (by omega))

/-- The image of an outcome. -/
def Step.map {σ τ : Type} (f : σ → τ) : Step σ → Step τ
  | .cont s => .cont (f s)
  | .brk s => .brk (f s)

theorem forBrkN_choices {σ τ δ : Type} {pr : σ → τ} {F : Nat → σ → C (Step σ)} {G : δ → Nat → τ → C (Step τ)}
    {P : Nat → σ → Prop} {hi : Nat} (d0 : δ)
    (hF : ∀ i s, i < hi → P i s → ∃ d r, F i s = .ok r ∧ G d i (pr s) = .ok (r.map pr) ∧
      ∀ s', r = .cont s' → P (i + 1) s') :
    ∀ k i s, i + k = hi → P i s → ∃ r, forBrkN i k s F = .ok r ∧ ∃ y : Nat → δ, ∀ h : Nat → δ,
      (∀ j, i ≤ j → h j = y j) → forBrkN i k (pr s) (fun j t => G (h j) j t) = .ok (r.1, pr r.2) := by
  intro k
  induction k with
  | zero => exact fun i s _ _ => ⟨_, rfl, fun _ => d0, fun h _ => rfl⟩
  | succ k ih =>
    intro i s hk hP
    obtain ⟨d, r, h1, h2, h3⟩ := hF i s (by omega) hP
    cases r with
    | brk s' =>
      refine ⟨(i, s'), ?_, fun _ => d, fun h hh => ?_⟩
      · unfold forBrkN
        rw [h1]; rfl
      · unfold forBrkN
        simp only [hh _ (le_refl _), h2]
        rfl
    | cont s' =>
      obtain ⟨r, r1, y, hy⟩ := ih (i + 1) s' (by omega) (h3 s' rfl)
      refine ⟨r, ?_, fun j => if j = i then d else y j, fun h hh => ?_⟩
      · unfold forBrkN
        rw [h1]; exact r1
      · have h0 : h i = d := (hh _ (le_refl _)).trans (if_pos rfl)
        unfold forBrkN
        simp only [h0, h2]
        refine hy h fun j hj => ?_
        exact (hh j (by omega)).trans (if_neg (by omega))

/-- Any failure is accepted. -/
theorem WpE.any {α : Type} {x : C α} {Q : α → Prop} (h : ∀ a, Q a) : WpE (fun _ => True) x Q := by
  cases x with
  | error e => trivial
  | ok a => exact h a

/-! ### Conversions -/

theorem truncQ_nonneg {x : ℚ} (h : 0 ≤ x) : truncQ x = ⌊x⌋ := if_pos h

/-- Size of a block with a given density. -/
theorem area_toI64 {d : ℚ} (d0 : 0 ≤ d) (d1 : d ≤ 1) {n k : Nat} (hn : n < 2 ^ 31) (hk : k < 2 ^ 31) :
    ∃ z, (((Dbl.fin d).mul (Dbl.ofInt n)).mul (Dbl.ofInt k)).toI64 = .ok z := by
  have hnq : (0 : ℚ) ≤ n := by positivity
  rw [Dbl.ofInt_nat (by omega), Dbl.ofInt_nat (by omega), Dbl.mul_fin, Dbl.mul_fin]
  have y0 : 0 ≤ rnd 53 (d * n) := rnd_nonneg 53 (by positivity)
  have y1 : rnd 53 (d * n) ≤ n := by
    refine rnd_le_int 53 (k := (n : Int)) (by positivity) ?_ (by exact_mod_cast (by omega : n < 2 ^ 53))
    push_cast
    nlinarith
  set y := rnd 53 (d * n) with hy
  have z0 : 0 ≤ rnd 53 (y * k) := rnd_nonneg 53 (by positivity)
  have hle : y * (k : ℚ) ≤ 2 ^ 31 * 2 ^ 31 := by
    have a : y ≤ 2 ^ 31 := y1.trans (by exact_mod_cast hn.le)
    have b : (k : ℚ) ≤ 2 ^ 31 := by exact_mod_cast hk.le
    exact mul_le_mul a b (by positivity) (by positivity)
  have z2 : rnd 53 (y * k) < 2 ^ 63 := by
    have e := rnd_err 53 (y * k)
    rw [abs_of_nonneg (by positivity : 0 ≤ y * (k : ℚ)), abs_le] at e
    have e2 := e.2
    have : y * k / 2 ^ 53 ≤ 2 ^ 31 * 2 ^ 31 / 2 ^ 53 := div_le_div_of_nonneg_right hle (by positivity)
    norm_num at *
    linarith
  have f0 : 0 ≤ ⌊rnd 53 (y * k)⌋ := Int.floor_nonneg.mpr z0
  have f2 : ⌊rnd 53 (y * k)⌋ < 2 ^ 63 := by
    have : (⌊rnd 53 (y * k)⌋ : ℚ) < 2 ^ 63 := lt_of_le_of_lt (Int.floor_le _) z2
    exact_mod_cast this
  have := (Ok_i64 (x := ⌊rnd 53 (y * k)⌋) (Q := fun _ => True)).mpr ⟨⟨by omega, f2⟩, trivial⟩
  rw [Ok_iff] at this
  obtain ⟨z, hz, -⟩ := this
  exact ⟨z, by unfold Dbl.toI64; simp only [truncQ_nonneg z0]; exact hz⟩

/-- What is assumed of the options and of the C library. -/
structure Num.Fine (nm : Num) : Prop where
  mlog_nonneg : 0 ≤ nm.mlog
  mlog_le : nm.mlog ≤ 5
  ratio : nm.o.tall_and_skinny_ratio.lt (.fin 0) = false
  start : nm.o.low_rank_start_weight.lt (.fin 0) = true ∨ ∃ w, nm.o.low_rank_start_weight.toI32 = .ok w

theorem num_weight_ok {nm : Num} (h : nm.Fine) {n Sm : Nat} (hn : 0 < n) (hS : 0 < Sm) (hn2 : n < 2 ^ 28) :
    ∃ w, num_weight nm n Sm = .ok w := by
  unfold num_weight
  by_cases hl : nm.o.low_rank_start_weight.lt (.fin 0) = true
  · rw [if_pos hl]
    have h0 := h.mlog_nonneg
    have h5 := h.mlog_le
    have hnq : (0 : ℚ) < n := by exact_mod_cast hn
    have hk : 0 < min n Sm := by omega
    have hkq : (1 : ℚ) ≤ ((min n Sm : Nat) : ℚ) := by exact_mod_cast hk
    rw [Dbl.ofInt_nat (by omega), Dbl.ofInt_nat (by omega), Dbl.mul_fin, Dbl.div_fin (by positivity)]
    have a0 : 0 ≤ rnd 53 (nm.mlog * n) := rnd_nonneg 53 (by positivity)
    have b5 : (5 * n : ℕ) < 2 ^ 53 := by omega
    have a1 : rnd 53 (nm.mlog * n) ≤ ((5 * n : ℕ) : Int) := by
      refine rnd_le_int 53 (by positivity) ?_ (by exact_mod_cast b5)
      push_cast
      nlinarith
    set a := rnd 53 (nm.mlog * n)
    have c0 : 0 ≤ a / ((min n Sm : Nat) : ℚ) := by positivity
    have c1 : a / ((min n Sm : Nat) : ℚ) ≤ ((5 * n : ℕ) : Int) := (div_le_self a0 hkq).trans a1
    have r0 := rnd_nonneg 53 c0
    have r1 := rnd_le_int 53 c0 c1 (by exact_mod_cast b5)
    set r := rnd 53 (a / ((min n Sm : Nat) : ℚ))
    have e0 : 0 ≤ ⌈r⌉ := Int.ceil_nonneg r0
    have e1 : ⌈r⌉ ≤ ((5 * n : ℕ) : Int) := Int.ceil_le.mpr r1
    have := (Ok_i32 (x := ⌈r⌉) (Q := fun _ => True)).mpr ⟨⟨by omega, by omega⟩, trivial⟩
    rw [Ok_iff] at this
    obtain ⟨z, hz, -⟩ := this
    refine ⟨z, ?_⟩
    unfold Dbl.ceil Dbl.toI32
    simp only
    rw [truncQ_nonneg (by exact_mod_cast e0), Int.floor_intCast]
    exact hz
  · rw [if_neg hl]
    exact h.start.resolve_left hl

/-! ### Low-rank and dense methods -/

theorem num_lowrank_round_eq (jk : Junk) (env : Env) (block : Int) (A : Csr) (p : Array Nat) (s : LowRank) :
    ∃ d : Bool, num_lowrank_round jk env block A p s = lowrank_round jk { env with less := fun _ => d } block A p s := by
  unfold num_lowrank_round lowrank_round
  simp only
  split
  · exact ⟨false, rfl⟩
  · cases schur_dense_randomized jk A p s.n s.fact.U s.fact.qinv s.S (datatype_choose A.F.p) s.q
      (min (s.rank_ub : Int) block).toNat s.w env.draw (env.rand s.round) with
    | error e => exact ⟨false, rfl⟩
    | ok o => exact ⟨_, rfl⟩

theorem lowrank_round_next {jk : Junk} {env : Env} {block : Int} {A : Csr} {p : Array Nat} {s s' : LowRank}
    (h : lowrank_round jk env block A p s = .ok (.cont s')) : s'.round = s.round + 1 := by
  have key : WpE (fun _ => True) (lowrank_round jk env block A p s)
      (fun r => ∀ s', r = .cont s' → s'.round = s.round + 1) := by
    unfold lowrank_round
    simp only
    split
    · rw [WpE_ok]; intro s' h; cases h
    · rw [WpE_bind]
      refine WpE.any fun o => ?_
      unfold lowrank_next
      rw [WpE_bind]
      refine WpE.any fun stop => ?_
      split
      · rw [WpE_ok]; intro s' h; cases h
      · rw [WpE_bind]
        refine WpE.any fun w => ?_
        rw [WpE_bind]
        refine WpE.any fun f => ?_
        rw [WpE_bind]
        refine WpE.any fun a => ?_
        rw [WpE_bind]
        refine WpE.any fun b => ?_
        rw [WpE_bind]
        refine WpE.any fun c => ?_
        rw [WpE_ok]
        intro s' h
        cases h
        rfl
  rw [h, WpE_ok] at key
  exact key s' rfl

theorem num_lowrank_eq (jk : Junk) (env : Env) {nm : Num} (h : nm.Fine) (opts : Opts) (A : Csr) (p : Array Nat)
    {n : Nat} {fact : Lu} (hn : 0 < n) (hn2 : n < 2 ^ 28) (hu : fact.U.n < A.m) : ∃ less weight,
    num_lowrank jk env nm opts A p n fact =
      lowrank jk { env with less := less, weight := weight } opts A p n fact := by
  obtain ⟨w, hw⟩ := num_weight_ok h hn (by omega : 0 < A.m - fact.U.n) hn2
  obtain ⟨y, hy⟩ := whileFuel_choices (F := num_lowrank_round jk env opts.block A p)
    (G := fun d s => lowrank_round jk { env with less := fun _ => d } opts.block A p s) (rd := LowRank.round)
    false (num_lowrank_round_eq jk env opts.block A p)
    (fun s s' hs => by
      obtain ⟨d, hd⟩ := num_lowrank_round_eq jk env opts.block A p s
      rw [hd] at hs
      exact lowrank_round_next hs)
    env.fuel ⟨fact, dense_alloc jk (opts.block.toNat * (A.m - fact.U.n)), mkArr (A.m - fact.U.n) jk.nat, n,
      A.m - fact.U.n, min n (A.m - fact.U.n), w, 0⟩
  refine ⟨y, w, ?_⟩
  unfold num_lowrank lowrank
  rw [csub_ok hu.le]
  have := hy y fun _ _ => rfl
  cases cassert (decide (opts.block > 0)) with
  | error e => rfl
  | ok _ =>
    show (num_weight nm n (A.m - fact.U.n) >>= fun w => _) = _
    rw [hw]
    show (whileFuel env.fuel _ _ >>= fun s => _) = _
    rw [this]
    rfl

theorem num_dense_round_eq (jk : Junk) (env : Env) (nm : Num) (opts : Opts) (A : Csr) (p : Array Nat) (n : Nat)
    (p_in : Option (Array Nat)) (s : DenseSt) : ∃ d : Bool, num_dense_round jk env nm opts A p n p_in s =
      dense_round jk { env with yield := fun _ => d } opts A p n p_in s := by
  unfold num_dense_round dense_round
  simp only
  split
  · exact ⟨false, rfl⟩
  · cases csub A.m s.fact.U.n with
    | error e => exact ⟨false, rfl⟩
    | ok Sm =>
      cases dense_lnz opts s.fact with
      | error e => exact ⟨false, rfl⟩
      | ok lnz =>
        cases h : env.dense s.round ⟨A, shift p s.processed, (min opts.block ((n : Int) - s.processed)).toNat, p_in,
            s.fact.U, s.fact.qinv, s.fact.Ltmp, s.S, datatype_choose A.F.p, s.q, s.p_out⟩ with
        | error e => exact ⟨false, by simp only [bind, Except.bind]⟩
        | ok o => exact ⟨_, by simp only [bind, Except.bind]; rfl⟩

theorem dense_round_next {jk : Junk} {env : Env} {opts : Opts} {A : Csr} {p : Array Nat} {n : Nat}
    {p_in : Option (Array Nat)} {s s' : DenseSt}
    (h : dense_round jk env opts A p n p_in s = .ok (.cont s')) : s'.round = s.round + 1 := by
  have key : WpE (fun _ => True) (dense_round jk env opts A p n p_in s)
      (fun r => ∀ s', r = .cont s' → s'.round = s.round + 1) := by
    unfold dense_round
    simp only
    split
    · rw [WpE_ok]; intro s' h; cases h
    · rw [WpE_bind]
      refine WpE.any fun Sm => ?_
      rw [WpE_bind]
      refine WpE.any fun lnz => ?_
      rw [WpE_bind]
      refine WpE.any fun o => ?_
      rw [WpE_bind]
      refine WpE.any fun x => ?_
      split
      · rw [WpE_ok]; intro s' h; cases h
      · rw [WpE_ok]; intro s' h; cases h; rfl
  rw [h, WpE_ok] at key
  exact key s' rfl

theorem num_dense_eq (jk : Junk) (env : Env) {nm : Num} (h : nm.Fine) (opts : Opts) (A : Csr) (p : Array Nat)
    {n : Nat} (p_in : Option (Array Nat)) {fact : Lu} (hn2 : n < 2 ^ 28) : ∃ yield less weight,
    num_dense jk env nm opts A p n p_in fact =
      echelonize_dense jk { env with yield := yield, less := less, weight := weight } opts A p n p_in fact := by
  obtain ⟨Sm, hSm⟩ : ∃ x, csub A.m fact.U.n = x := ⟨_, rfl⟩
  cases hb : cassert (decide (opts.block > 0)) with
  | error e =>
    refine ⟨fun _ => false, fun _ => false, 0, ?_⟩
    unfold num_dense echelonize_dense
    rw [hb]; rfl
  | ok u =>
    cases Sm with
    | error e =>
      refine ⟨fun _ => false, fun _ => false, 0, ?_⟩
      unfold num_dense echelonize_dense
      rw [hb, hSm]; rfl
    | ok Sm =>
      obtain ⟨y, hy⟩ := whileFuel_choices (F := num_dense_round jk env nm opts A p n p_in)
        (G := fun d s => dense_round jk { env with yield := fun _ => d } opts A p n p_in s) (rd := DenseSt.round)
        false (num_dense_round_eq jk env nm opts A p n p_in)
        (fun s s' hs => by
          obtain ⟨d, hd⟩ := num_dense_round_eq jk env nm opts A p n p_in s
          rw [hd] at hs
          exact dense_round_next hs)
        (n + 1) ⟨fact, dense_alloc jk (opts.block.toNat * Sm), mkArr Sm jk.nat,
          mkArr opts.block.toNat jk.nat, mkArr A.n fun _ => false, 0, 0, false⟩
      have e := hy y fun _ _ => rfl
      have main : ∀ less weight, (∀ s : DenseSt, whileFuel (n + 1) (⟨fact, dense_alloc jk (opts.block.toNat * Sm),
          mkArr Sm jk.nat, mkArr opts.block.toNat jk.nat, mkArr A.n fun _ => false, 0, 0, false⟩ : DenseSt)
          (num_dense_round jk env nm opts A p n p_in) = .ok s →
          min ((A.n : Int) - s.fact.U.n) ((A.m : Int) - s.fact.U.n) > 0 ∧ n > s.processed ∧ s.lowrank = true →
          num_lowrank jk env nm opts A (shift p s.processed) (n - s.processed) s.fact =
            lowrank jk { env with yield := y, less := less, weight := weight } opts A (shift p s.processed)
              (n - s.processed) s.fact) →
          num_dense jk env nm opts A p n p_in fact =
            echelonize_dense jk { env with yield := y, less := less, weight := weight } opts A p n p_in fact := by
        intro less weight hl
        unfold num_dense echelonize_dense
        rw [hb, hSm]
        show (whileFuel (n + 1) _ (num_dense_round jk env nm opts A p n p_in) >>= fun s => _) =
          (whileFuel (n + 1) _ (fun s => dense_round jk { env with yield := fun _ => y s.round } opts A p n p_in s)
            >>= fun s => _)
        rw [← e]
        cases hr : whileFuel (n + 1) (⟨fact, dense_alloc jk (opts.block.toNat * Sm),
          mkArr Sm jk.nat, mkArr opts.block.toNat jk.nat, mkArr A.n fun _ => false, 0, 0, false⟩ : DenseSt)
          (num_dense_round jk env nm opts A p n p_in) with
        | error e => rfl
        | ok s =>
          show (if _ then _ else _) = (if _ then _ else _)
          split
          · next hc => exact hl s hr hc
          · rfl
      cases hr : whileFuel (n + 1) (⟨fact, dense_alloc jk (opts.block.toNat * Sm),
          mkArr Sm jk.nat, mkArr opts.block.toNat jk.nat, mkArr A.n fun _ => false, 0, 0, false⟩ : DenseSt)
          (num_dense_round jk env nm opts A p n p_in) with
      | error er =>
        refine ⟨y, fun _ => false, 0, main _ _ fun s hs => ?_⟩
        rw [hr] at hs; cases hs
      | ok s =>
        by_cases hc : min ((A.n : Int) - s.fact.U.n) ((A.m : Int) - s.fact.U.n) > 0 ∧ n > s.processed ∧ s.lowrank = true
        · obtain ⟨less, weight, hl⟩ := num_lowrank_eq jk env h opts A (shift p s.processed) (n := n - s.processed)
            (fact := s.fact) (by omega) (by omega) (by omega)
          refine ⟨y, less, weight, main _ _ fun s' hs _ => ?_⟩
          rw [hr] at hs; cases hs
          exact hl
        · refine ⟨y, fun _ => false, 0, main _ _ fun s' hs hc' => ?_⟩
          rw [hr] at hs; cases hs
          exact absurd hc' hc

/-! ### Rounds -/

section
variable {q : ℕ} {A0 : Csr} {opts : Opts}

/-- There is room for the rows that remain: if there are any, some column is not pivotal. -/
def Roomy (q : ℕ) (A : Csr) : Prop := A.n ≤ A.m ∨ (A.toMat q).rank < A.m

theorem Roomy.col [Fact q.Prime] (h : Roomy q A0) (hA0 : A0.WFV q) {e : Env} {s : Driver}
    (hE : RoundEnd q e opts A0 s) (hn : 0 < s.n - s.npiv) : s.fact.U.n < A0.m := by
  obtain ⟨old, hP⟩ := hE.part
  have hroom := hP.room
  rcases h with h | h
  · omega
  · refine lt_of_le_of_lt ?_ h
    rw [← hP.ech.rank, ← finrank_rowSpace hA0.toWF]
    exact Submodule.finrank_mono (le_sup_left.trans hP.span.le)

theorem RoundEnd.dens [Fact q.Prime] (jk : Junk) {e : Env} {s : Driver}
    (hE : RoundEnd q e opts A0 s) (hcol : 0 < s.n - s.npiv → s.fact.U.n < A0.m) (hm : A0.m < 2 ^ 31) (nm : Num)
    (round : Nat) : ∃ d : ℚ, num_density jk nm round s = .ok (.fin d) ∧ 0 ≤ d ∧ d ≤ 1 := by
  obtain ⟨old, hP⟩ := hE.part
  have hle := hE.le
  have hps := hE.p_size
  unfold num_density
  rw [csub_ok hle]
  show ∃ d : ℚ, estimate_density jk s.A (shift s.p s.npiv) (s.n - s.npiv) s.fact.U s.fact.qinv 100 (nm.rand round) =
    .ok (.fin d) ∧ _
  by_cases h0 : s.n - s.npiv = 0
  · refine ⟨0, ?_, le_refl _, by norm_num⟩
    unfold estimate_density
    rw [if_pos h0]
  · have hp : ∀ k, k < s.n - s.npiv → (shift s.p s.npiv).g k < s.A.n := by
      intro k hk
      rw [g_shift (by omega)]
      exact hE.p_lt _ (by omega)
    have hm' : s.fact.U.m = s.A.m := by rw [hP.m_eq, hE.m_eq]
    choose V hV using fun (k : Nat) (hk : k < s.n - s.npiv) => exists_reduced hE.wfv hP.ech hm' (hp k hk)
    obtain ⟨d, d1, d2, d3, -⟩ := C56_estimate_partial jk q s.A (shift s.p s.npiv) (s.n - s.npiv) s.fact.U
      s.fact.qinv hE.wfv hP.ech hm' (by simp; omega) hp (by omega)
      (by rw [hE.m_eq]; exact hcol (by omega)) (by rw [hE.m_eq]; exact hm) 100 (by norm_num) (by norm_num)
      (nm.rand round) (fun k => if hk : k < s.n - s.npiv then V k hk else fun _ => 0)
      (fun k hk => by simp only [dif_pos hk]; exact hV k hk)
    exact ⟨d, d1, d2, d3⟩

theorem RoundEnd.room [Fact q.Prime] (jk : Junk) {e : Env} {s : Driver}
    (hE : RoundEnd q e opts A0 s) (hcol : 0 < s.n - s.npiv → s.fact.U.n < A0.m) (hm : A0.m < 2 ^ 31)
    (hn : A0.n < 2 ^ 31) (nm : Num) (round : Nat) {d : ℚ} (d0 : 0 ≤ d) (d1 : d ≤ 1) : ∃ size, num_size jk nm round s (.fin d) = .ok size := by
  obtain ⟨old, hP⟩ := hE.part
  have hle := hE.le
  have hps := hE.p_size
  have hroom := hP.room
  have hU := hP.ech.n_le
  rw [hP.m_eq] at hU
  unfold num_size
  rw [csub_ok hle]
  have e1 : (s.A.m : Int) - s.fact.U.n = ((A0.m - s.fact.U.n : Nat) : Int) := by
    rw [hE.m_eq]; omega
  obtain ⟨z, hz⟩ := area_toI64 d0 d1 (n := s.n - s.npiv) (k := A0.m - s.fact.U.n) (by omega) (by omega)
  have hp : ∀ k, k < s.n - s.npiv → (shift s.p s.npiv).g k < s.A.n := by
    intro k hk
    rw [g_shift (by omega)]
    exact hE.p_lt _ (by omega)
  have h2 := C56_size_partial jk q s.A (shift s.p s.npiv) (s.n - s.npiv) s.fact.U s.fact.qinv hE.wfv hP.ech
    (by rw [hP.m_eq, hE.m_eq]) (by simp; omega) hp
    (by
      rw [hE.m_eq]
      by_cases h0 : s.n - s.npiv = 0
      · exact .inr h0
      · exact .inl (hcol (by omega)))
    (by rw [hE.m_eq]; exact hm) (by omega) (fun i => nm.rand round (100 + i)) (.fin d) (.inr ⟨d, rfl, d0, d1⟩)
  rw [Ok_iff] at h2
  obtain ⟨size, h3, -⟩ := h2
  refine ⟨size, ?_⟩
  show ((((Dbl.fin d).mul (Dbl.ofInt ((s.n - s.npiv : Nat) : Int))).mul
    (Dbl.ofInt ((s.A.m : Int) - s.fact.U.n))).toI64 >>= fun _ => _) = _
  rw [e1, hz]
  exact h3

/-- The pivots of a round. -/
theorem RoundInv.pivots [Fact q.Prime] (jk : Junk) {env : Env} (henv : env.Possible q) {e : Env} {s : Driver} {round : Nat}
    (h : RoundInv q e opts A0 round s) (hk : s.A.p.g s.A.n ≠ 0) :
    Ok (pivots_extract_structural jk s.A s.p_in s.fact (mkArr s.n jk.nat)
      (if opts.greedy then some (env.greedy round s.A) else none))
      (fun r => RoundEnd q e opts A0 { s with npiv := r.1, fact := r.2.1, p := r.2.2 }) := by
  have hx := C25_extract jk q A0 s.A h.wfv h.nodup h.nozero h.m_eq s.p_in h.perm s.fact opts.complete h.part
    (if opts.greedy then some (env.greedy round s.A) else none) ?_ (mkArr s.n jk.nat) (by simp [h.n_eq])
  · refine hx.mono ?_
    rintro ⟨npiv, f, p⟩ ⟨pinv, qinv, -, -, h4, h5⟩
    exact h.extracted (h4 (by omega)) h5
  · intro g hg pinv qinv hP
    split at hg
    · cases hg
      obtain ⟨r, h1, T, jk', rows, s', hs, -, hr, hf, rfl⟩ := henv.greedy round s.A pinv qinv
        (Greedy.C24_outcome s.A h.wfv.toWF h.nodup pinv qinv hP)
      rw [h1, Ok_ok]
      obtain ⟨k1, k2, -⟩ := Greedy.C24_final s.A jk' pinv qinv rows hs s' hr hf
      exact ⟨k1, k2⟩
    · cases hg

/-- No early abort. -/
def Env.calm (env : Env) : Env := { env with few := fun _ => false, thick := fun _ => false }

/-- Fixed decisions in the rounds. -/
def Env.fixed (env : Env) (d : Bool × Bool × Nat) : Env :=
  { env with few := fun _ => d.1, thick := fun _ => d.2.1, size := fun _ => d.2.2 }

theorem Env.Possible.fixed {env : Env} (h : env.Possible q) (d : Bool × Bool × Nat) :
    (env.fixed d).Possible q := ⟨h.1, h.2, h.3, h.4, h.5⟩

/-- The pivots of a round leave a column for the rows that remain, if they are enough. -/
def Leaves (jk : Junk) (env : Env) (nm : Num) (opts : Opts) (A0 : Csr) (round : Nat) (s : Driver) : Prop :=
  s.A.p.g s.A.n ≠ 0 → ∀ npiv f p, pivots_extract_structural jk s.A s.p_in s.fact (mkArr s.n jk.nat)
      (if opts.greedy then some (env.greedy round s.A) else none) = .ok (npiv, f, p) →
    num_few nm npiv s.n ((s.A.m : Int) - f.U.n) = false → 0 < s.n - npiv → f.U.n < A0.m

theorem num_round_leaves [Fact q.Prime] (jk : Junk) {env : Env} (henv : env.Possible q)
    (hm : A0.m < 2 ^ 31) (hn : A0.n < 2 ^ 31) (nm : Num) {round : Nat} {s : NumDriver}
    (hlt : round < opts.max_round) (h : RoundInv q env.calm opts A0 round s.d) (hr : Leaves jk env nm opts A0 round s.d) :
    ∃ d r, num_round jk env nm opts round s = .ok r ∧
      echelonize_round jk (env.fixed d) opts round s.d = .ok (r.map NumDriver.d) ∧
      match r with
      | .cont s' => RoundInv q env.calm opts A0 (round + 1) s'.d
      | .brk s' => s'.d.status = 1 ∨ (s'.d.status = 2 ∧ RoundEnd q env.calm opts A0 s'.d) := by
  by_cases hk : s.d.A.p.g s.d.A.n = 0
  · refine ⟨(false, false, 0), .brk { s with d := { s.d with status := 1 } }, ?_, ?_, .inl rfl⟩
    · unfold num_round
      rw [nnz_ok h.wfv.toWF]
      exact if_pos hk
    · unfold echelonize_round
      rw [nnz_ok h.wfv.toWF]
      exact if_pos hk
  have hx := h.pivots jk henv hk
  rw [Ok_iff] at hx
  obtain ⟨⟨npiv, f, p⟩, hx, hE⟩ := hx
  simp only at hE
  have e1 : num_round jk env nm opts round s =
      if num_few nm npiv s.d.n ((s.d.A.m : Int) - f.U.n) then
        .ok (.brk { s with d := { s.d with npiv := npiv, fact := f, p := p, status := 2 } })
      else num_next jk env nm round { s.d with npiv := npiv, fact := f, p := p } := by
    unfold num_round
    rw [nnz_ok h.wfv.toWF]
    show (if _ then _ else _) = _
    rw [if_neg hk, hx]
    rfl
  have e2 : ∀ d, echelonize_round jk (env.fixed d) opts round s.d =
      if d.1 = true ∨ d.2.1 = true then .ok (.brk { s.d with npiv := npiv, fact := f, p := p, status := 2 })
      else echelonize_schur jk (env.fixed d) round { s.d with npiv := npiv, fact := f, p := p } >>= fun s =>
        .ok (.cont s) := by
    intro d
    unfold echelonize_round
    rw [nnz_ok h.wfv.toWF]
    show (if _ then _ else _) = _
    rw [if_neg hk]
    show (pivots_extract_structural jk s.d.A s.d.p_in s.d.fact (mkArr s.d.n jk.nat)
      (if opts.greedy then some (env.greedy round s.d.A) else none) >>= fun _ => _) = _
    rw [hx]
    rfl
  have hE2 : RoundEnd q env.calm opts A0 { s.d with npiv := npiv, fact := f, p := p, status := 2 } :=
    ⟨hE.1, hE.2, hE.3, hE.4, hE.5, hE.6, hE.7, hE.8, hE.9, hE.10, hE.11, hE.12, hE.13⟩
  by_cases hfew : num_few nm npiv s.d.n ((s.d.A.m : Int) - f.U.n) = true
  · refine ⟨(true, false, 0), .brk { s with d := { s.d with npiv := npiv, fact := f, p := p, status := 2 } }, by rw [e1, if_pos hfew], by rw [e2]; exact if_pos (.inl rfl), Or.inr ⟨rfl, hE2⟩⟩
  have hcol := hr hk npiv f p hx (by simpa using hfew)
  obtain ⟨d, hd, d0, d1⟩ := hE.dens jk hcol hm nm round
  rw [if_neg hfew] at e1
  by_cases ht : nm.o.sparsity_threshold.lt (.fin d) = true
  · refine ⟨(false, true, 0), .brk ⟨{ s.d with npiv := npiv, fact := f, p := p, status := 2 }, .fin d⟩, ?_,
      by rw [e2]; exact if_pos (.inr rfl), .inr ⟨rfl, hE2⟩⟩
    rw [e1]
    unfold num_next
    rw [hd]
    exact if_pos ht
  · obtain ⟨size, hs⟩ := hE.room jk hcol hm hn nm round d0 d1
    have hno : ¬ NoSchur (env.fixed (false, false, size)) opts := by
      rintro (e | e | e)
      · omega
      · cases e
      · cases e
    have hsp := echelonize_schur_spec (q := q) (A0 := A0) (opts := opts) (env := env.fixed (false, false, size)) jk
      (henv.fixed _) (s := { s.d with npiv := npiv, fact := f, p := p }) (round := round)
      ⟨hE.1, hE.2, hE.3, hE.4, hE.5, hE.6, hE.7, hE.8, hE.9, .inr hno, hE.11, hE.12, hE.13⟩ h.status (by omega) (.inr hno) rfl rfl
    rw [Ok_iff] at hsp
    obtain ⟨s', hs', hI⟩ := hsp
    refine ⟨(false, false, size), .cont ⟨s', .fin d⟩, ?_, ?_, ?_⟩
    · rw [e1]
      unfold num_next
      rw [hd]
      show (if _ then _ else _) = _
      rw [if_neg ht, hs]
      show (echelonize_schur jk (env.fixed (env.few round, env.thick round, size)) round _ >>= _) = _
      have : echelonize_schur jk (env.fixed (env.few round, env.thick round, size)) round
        { s.d with npiv := npiv, fact := f, p := p } = .ok s' := hs'
      rw [this]
      rfl
    · rw [e2]
      show (if _ then _ else _) = _
      rw [if_neg (by simp), hs']
      rfl
    · refine ⟨hI.1, hI.2, hI.3, hI.4, hI.5, hI.6, hI.7, hI.8, hI.9, hI.10, ?_, hI.12⟩
      refine hI.orig.imp id (And.imp_right fun hh => ?_)
      rintro (e | e | e)
      · omega
      · cases e
      · cases e

theorem num_round_eq [Fact q.Prime] (jk : Junk) {env : Env} (henv : env.Possible q) (hA0 : A0.WFV q)
    (hr : Roomy q A0) (hm : A0.m < 2 ^ 31) (hn : A0.n < 2 ^ 31) (nm : Num) {round : Nat} {s : NumDriver}
    (hlt : round < opts.max_round) (h : RoundInv q env.calm opts A0 round s.d) :
    ∃ d r, num_round jk env nm opts round s = .ok r ∧
      echelonize_round jk (env.fixed d) opts round s.d = .ok (r.map NumDriver.d) ∧
      match r with
      | .cont s' => RoundInv q env.calm opts A0 (round + 1) s'.d
      | .brk s' => s'.d.status = 1 ∨ (s'.d.status = 2 ∧ RoundEnd q env.calm opts A0 s'.d) := by
  refine num_round_leaves jk henv hm hn nm hlt h fun hk npiv f p hx hfew hpos => ?_
  have hE := h.pivots jk henv hk
  rw [hx, Ok_ok] at hE
  exact hr.col hA0 hE hpos

/-! ### End -/

/-- Fixed decisions at the end. -/
def Env.ending (env : Env) (skinny full : Bool) (yield less : Nat → Bool) (weight : Int) : Env :=
  { env with skinny := skinny, full := full, yield := yield, less := less, weight := weight }

theorem num_finish_eq [Fact q.Prime] (jk : Junk) (env : Env) {nm : Num} (hf : nm.Fine) (hA0 : A0.WFV q)
    (hr : Roomy q A0) (hn : A0.n < 2 ^ 28) (density : Dbl) {e : Env} {s : Driver}
    (hE : RoundEnd q e opts A0 s) : ∃ skinny full yield less weight,
      num_finish jk env nm opts density s =
        echelonize_finish jk (env.ending skinny full yield less weight) opts s := by
  obtain ⟨old, hP⟩ := hE.part
  have hroom := hP.room
  have hU := hP.ech.n_le
  rw [hP.m_eq] at hU
  have key : ∀ skinny full yield less weight, echelonize_finish jk (env.ending skinny full yield less weight) opts s =
      if opts.tall ∧ skinny = true then lowrank jk { env with less := less, weight := weight } opts s.A (shift s.p s.npiv)
        (s.n - s.npiv) s.fact
      else if opts.dense ∧ full = true then echelonize_dense jk { env with yield := yield, less := less, weight := weight }
        opts s.A (shift s.p s.npiv) (s.n - s.npiv) s.p_in s.fact
      else if opts.gplu then gplu jk s.A (shift s.p s.npiv) (s.n - s.npiv) s.p_in s.fact fun U qinv =>
        test_completion jk env s.A (shift s.p s.npiv) (s.n - s.npiv) U qinv
      else .ok s.fact := by
    intro skinny full yield less weight
    unfold echelonize_finish
    rw [csub_ok hE.le]
    rfl
  have key2 : num_finish jk env nm opts density s =
      if opts.tall ∧ num_skinny nm (s.n - s.npiv) ((s.A.m : Int) - s.fact.U.n) = true then
        num_lowrank jk env nm opts s.A (shift s.p s.npiv) (s.n - s.npiv) s.fact
      else if opts.dense ∧ nm.o.sparsity_threshold.lt density = true then
        num_dense jk env nm opts s.A (shift s.p s.npiv) (s.n - s.npiv) s.p_in s.fact
      else if opts.gplu then gplu jk s.A (shift s.p s.npiv) (s.n - s.npiv) s.p_in s.fact fun U qinv =>
        test_completion jk env s.A (shift s.p s.npiv) (s.n - s.npiv) U qinv
      else .ok s.fact := by
    unfold num_finish
    rw [csub_ok hE.le]
    rfl
  obtain ⟨yield, less2, weight2, hd⟩ := num_dense_eq jk env hf opts s.A (shift s.p s.npiv) (n := s.n - s.npiv) s.p_in
    (fact := s.fact) (by omega)
  by_cases hsk : num_skinny nm (s.n - s.npiv) ((s.A.m : Int) - s.fact.U.n) = true
  · have hpos : 0 < s.n - s.npiv := by
      by_contra h0
      have h0 : s.n - s.npiv = 0 := by omega
      have e1 : (s.A.m : Int) - s.fact.U.n = ((A0.m - s.fact.U.n : Nat) : Int) := by
        rw [hE.m_eq]; omega
      have hz : Dbl.ofInt ((0 : Nat) : Int) = .fin 0 := by
        rw [Dbl.ofInt_nat (by norm_num)]; simp
      unfold num_skinny at hsk
      rw [h0, hz] at hsk
      have : (Dbl.fin 0).div (Dbl.ofInt ((s.A.m : Int) - s.fact.U.n)) = .fin 0 ∨
          (Dbl.fin 0).div (Dbl.ofInt ((s.A.m : Int) - s.fact.U.n)) = .nan := by
        unfold Dbl.ofInt Dbl.div
        simp only
        by_cases h : rnd 53 (((s.A.m : Int) - s.fact.U.n : Int) : ℚ) = 0
        · exact .inr (by rw [if_pos h, if_pos trivial])
        · refine .inl ?_
          rw [if_neg h, zero_div]
          simp [rnd]
      rcases this with h | h
      · rw [h, hf.ratio] at hsk; cases hsk
      · rw [h] at hsk
        cases hc : nm.o.tall_and_skinny_ratio <;> rw [hc] at hsk <;> cases hsk
    have hcol := hr.col hA0 hE hpos
    obtain ⟨less, weight, hl⟩ := num_lowrank_eq jk env hf opts s.A (shift s.p s.npiv) (n := s.n - s.npiv)
      (fact := s.fact) hpos (by omega) (by rw [hE.m_eq]; exact hcol)
    by_cases ht : opts.tall = true
    · refine ⟨true, false, yield, less, weight, ?_⟩
      rw [key, key2, if_pos ⟨ht, hsk⟩, if_pos ⟨ht, rfl⟩, hl]
    · refine ⟨true, nm.o.sparsity_threshold.lt density, yield, less2, weight2, ?_⟩
      rw [key, key2, hd, if_neg (fun h => ht h.1)]
      exact (if_neg (fun h => ht h.1)).symm
  · refine ⟨false, nm.o.sparsity_threshold.lt density, yield, less2, weight2, ?_⟩
    rw [key, key2, hd, if_neg (fun h => hsk h.2)]
    exact (if_neg (fun h => by cases h.2)).symm

theorem num_rest_eq [Fact q.Prime] (jk : Junk) (env : Env) {nm : Num} (hf : nm.Fine) (hA0 : A0.WFV q)
    (hr : Roomy q A0) (hn : A0.n < 2 ^ 28) {e : Env} {s : NumDriver}
    (h : (s.d.status = 1 ∨ (s.d.status = 2 ∧ RoundEnd q e opts A0 s.d)) ∨ RoundInv q e opts A0 opts.max_round s.d) :
    ∃ skinny full yield less weight, num_rest jk env nm opts s =
      echelonize_rest jk (env.ending skinny full yield less weight) opts s.d := by
  unfold num_rest echelonize_rest
  rcases h with (h | ⟨h, hE⟩) | h
  · refine ⟨false, false, fun _ => false, fun _ => false, 0, ?_⟩
    rw [if_pos h, if_pos h]
  · obtain ⟨a, b, c, d, w, hh⟩ := num_finish_eq jk env hf hA0 hr hn s.density hE
    refine ⟨a, b, c, d, w, ?_⟩
    rw [if_neg (by omega), if_neg (by omega), if_neg (by omega), if_neg (by omega), hh]
  · have hs := h.status
    obtain ⟨a, b, c, d, w, hh⟩ := num_finish_eq jk env hf hA0 hr hn s.density (h.end rfl)
    refine ⟨a, b, c, d, w, ?_⟩
    rw [if_neg (by omega), if_pos hs, if_neg (by omega), if_pos hs, hh]

end

/-- The same environment up to the decisions and the amount of memory reserved. -/
structure Env.Agree (env env' : Env) : Prop where
  greedy : env'.greedy = env.greedy
  schur : env'.schur = env.schur
  dense : env'.dense = env.dense
  ff : env'.ff = env.ff
  draw : env'.draw = env.draw
  rand : env'.rand = env.rand
  samples : env'.samples = env.samples
  fuel : env'.fuel = env.fuel

theorem echelonize_num_eq {q : ℕ} [Fact q.Prime] (jk : Junk) {env : Env} (henv : env.Possible q) {nm : Num}
    (hf : nm.Fine) {opts : Opts} {A : Csr} (hA : A.WFV q) (hnd : A.NoDup) (hz : A.NoZero) (hr : Roomy q A)
    (hn : A.n < 2 ^ 28) (hm : A.m < 2 ^ 31) :
    ∃ env' : Env, env.Agree env' ∧ echelonize_num jk env nm opts A = echelonize jk env' opts A := by
  unfold echelonize_num echelonize
  simp only
  generalize opts.norm = op
  have h0 := echelonize_init_spec (opts := op) jk hA
  rw [Ok_iff] at h0
  obtain ⟨f, h0, f1, f2, f3, f4⟩ := h0
  rw [h0, nnz_ok hA.toWF]
  have hI : RoundInv q env.calm op A 0 ⟨A, A.n, none, mkArr A.n jk.nat, 0, f, 0⟩ :=
    ⟨hA, hnd, hz, rfl, rfl, fun a ha => (nomatch ha), by simp only; rw [f2]; exact f1, f4, f3, rfl, .inl ⟨rfl, rfl⟩, by simp only; omega⟩
  obtain ⟨r, r1, y, hy⟩ := forBrkN_choices (pr := NumDriver.d) (F := fun round s => num_round jk env nm op round s)
    (G := fun d round s => echelonize_round jk (env.fixed d) op round s)
    (P := fun i s => RoundInv q env.calm op A i s.d) (hi := op.max_round) (false, false, 0)
    (fun i s hi hP => by
      obtain ⟨d, r, a1, a2, a3⟩ := num_round_eq jk henv hA hr hm (by omega) nm hi hP
      exact ⟨d, r, a1, a2, fun s' hs => by subst hs; exact a3⟩)
    op.max_round 0 ⟨⟨A, A.n, none, mkArr A.n jk.nat, 0, f, 0⟩, num_density0 A (A.p.g A.n)⟩ (by omega) hI
  have hend : (r.2.d.status = 1 ∨ (r.2.d.status = 2 ∧ RoundEnd q env.calm op A r.2.d)) ∨
      RoundInv q env.calm op A op.max_round r.2.d := by
    have := Ok_forBrkN (I := fun i (s : NumDriver) => RoundInv q env.calm op A i s.d)
      (B := fun _ s => s.d.status = 1 ∨ (s.d.status = 2 ∧ RoundEnd q env.calm op A s.d))
      (f := fun round s => num_round jk env nm op round s) op.max_round 0
      ⟨⟨A, A.n, none, mkArr A.n jk.nat, 0, f, 0⟩, num_density0 A (A.p.g A.n)⟩ hI
      (fun i s _ hi hP => by
        obtain ⟨d, r, a1, a2, a3⟩ := num_round_eq jk henv hA hr hm (by omega) nm (by omega) hP
        rw [a1, Ok_ok]
        cases r <;> exact a3)
    rw [r1, Ok_ok] at this
    refine this.imp (fun h => h.2.2) (fun h => ?_)
    have := h.2
    rwa [Nat.zero_add] at this
  obtain ⟨sk, fu, yi, le, w, hrest⟩ := num_rest_eq jk env hf hA hr hn hend
  refine ⟨{ env with few := fun i => (y i).1, thick := fun i => (y i).2.1, size := fun i => (y i).2.2, skinny := sk,
                     full := fu, yield := yi, less := le, weight := w },
    ⟨rfl, rfl, rfl, rfl, rfl, rfl, rfl, rfl⟩, ?_⟩
  have hy' := hy y fun _ _ => rfl
  show (forBrk 0 op.max_round _ (fun round s => num_round jk env nm op round s) >>= fun r => _) =
    (forBrk 0 op.max_round _ (fun j t => echelonize_round jk (env.fixed (y j)) op j t) >>= fun r => _)
  unfold forBrk
  rw [Nat.sub_zero, r1, hy']
  show (num_rest jk env nm op r.2 >>= fun fact => _) = _
  rw [hrest]
  rfl

end Spasm
