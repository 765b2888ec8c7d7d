import Verif.Proofs.Numeric

/-
Without the low-rank method, the decisions of `spasm_echelonize` do not depend on the random numbers of the completion
test.
-/

namespace Spasm

theorem bind_ok_iff {α β : Type} {x : C α} {f : α → C β} {b : β} : (x >>= f) = .ok b ↔ ∃ a, x = .ok a ∧ f a = .ok b := by
  cases x with
  | error e => exact ⟨(fun h => by cases h), (by rintro ⟨_, h, _⟩; cases h)⟩
  | ok a => exact ⟨fun h => ⟨a, rfl, h⟩, (by rintro ⟨_, h, h'⟩; cases h; exact h')⟩

theorem whileFuel_inv {σ : Type} {f : σ → C (Step σ)} {P : σ → Prop}
    (hf : ∀ s, P s → ∀ r, f s = .ok r → (∀ s', r = .cont s' ∨ r = .brk s' → P s')) :
    ∀ (fuel : Nat) (s s' : σ), P s → whileFuel fuel s f = .ok s' → P s' := by
  intro fuel
  induction fuel with
  | zero => intro s s' _ h; cases h
  | succ k ih =>
    intro s s' hs h
    have e : whileFuel (k + 1) s f = (f s >>= fun r => match r with
      | .cont s => whileFuel k s f
      | .brk s => .ok s) := rfl
    rw [e] at h
    cases hr : f s with
    | error _ => rw [hr] at h; cases h
    | ok r =>
      rw [hr] at h
      cases r with
      | cont t => exact ih t s' (hf s hs _ hr t (.inl rfl)) h
      | brk t =>
        have : t = s' := by injection h
        subst this
        exact hf s hs _ hr t (.inr rfl)

theorem num_dense_round_draws (jk : Junk) (env : Env) (nm : Num) {opts : Opts} (ht : opts.tall = false) (A : Csr)
    (p : Array Nat) (n : Nat) (p_in : Option (Array Nat)) (d : Nat → Nat → Int) (s : DenseSt) :
    num_dense_round jk { env with draw := d } nm opts A p n p_in s =
      dense_round jk { env with draw := d } opts A p n p_in s := by
  unfold num_dense_round dense_round
  simp only [ht, Bool.false_and]

theorem dense_round_stays {jk : Junk} {env : Env} {opts : Opts} (ht : opts.tall = false) {A : Csr} {p : Array Nat}
    {n : Nat} {p_in : Option (Array Nat)} (s : DenseSt) (hs : s.lowrank = false) (r : Step DenseSt)
    (hr : dense_round jk env opts A p n p_in s = .ok r) (s' : DenseSt) (h : r = .cont s' ∨ r = .brk s') :
    s'.lowrank = false := by
  unfold dense_round at hr
  simp only [ht, Bool.false_and] at hr
  split at hr
  · cases hr
    rcases h with h | h
    · cases h
    · cases h; exact hs
  · obtain ⟨Sm, -, hr⟩ := bind_ok_iff.mp hr
    obtain ⟨l, -, hr⟩ := bind_ok_iff.mp hr
    obtain ⟨o, -, hr⟩ := bind_ok_iff.mp hr
    obtain ⟨x, -, hr⟩ := bind_ok_iff.mp hr
    simp only [Bool.or_false, Bool.false_eq_true, if_false] at hr
    cases hr
    rcases h with h | h
    · cases h; exact hs
    · cases h

theorem num_dense_draws (jk : Junk) (env : Env) (nm : Num) {opts : Opts} (ht : opts.tall = false) (A : Csr)
    (p : Array Nat) (n : Nat) (p_in : Option (Array Nat)) (fact : Lu) (d : Nat → Nat → Int) :
    num_dense jk { env with draw := d } nm opts A p n p_in fact =
      echelonize_dense jk { env with draw := d } opts A p n p_in fact := by
  unfold num_dense echelonize_dense
  cases cassert (decide (opts.block > 0)) with
  | error _ => rfl
  | ok _ =>
    cases csub A.m fact.U.n with
    | error _ => rfl
    | ok Sm =>
      have e : (fun s => num_dense_round jk { env with draw := d } nm opts A p n p_in s) =
          fun s => dense_round jk { env with draw := d } opts A p n p_in s :=
        funext fun s => num_dense_round_draws jk env nm ht A p n p_in d s
      show (whileFuel (n + 1) _ (fun s => num_dense_round jk { env with draw := d } nm opts A p n p_in s) >>= fun s => _) =
        (whileFuel (n + 1) _ (fun s => dense_round jk { env with draw := d } opts A p n p_in s) >>= fun s => _)
      rw [e]
      cases hr : whileFuel (n + 1) (⟨fact, dense_alloc jk (opts.block.toNat * Sm), mkArr Sm jk.nat,
          mkArr opts.block.toNat jk.nat, mkArr A.n fun _ => false, 0, 0, false⟩ : DenseSt)
          (fun s => dense_round jk { env with draw := d } opts A p n p_in s) with
      | error _ => rfl
      | ok s =>
        have hs : s.lowrank = false := whileFuel_inv (P := fun s : DenseSt => s.lowrank = false)
          (fun s hs r hr s' h => dense_round_stays ht s hs r hr s' h) _ _ _ rfl hr
        show (if _ then _ else _) = (if _ then _ else _)
        rw [if_neg (by rw [hs]; simp), if_neg (by rw [hs]; simp)]

theorem num_rest_draws (jk : Junk) (env : Env) (nm : Num) {opts : Opts} (ht : opts.tall = false) (s : NumDriver)
    (d : Nat → Nat → Int) : num_rest jk { env with draw := d } nm opts s =
      echelonize_rest jk { env with draw := d, full := nm.o.sparsity_threshold.lt s.density } opts s.d := by
  have key : ∀ t : Driver, num_finish jk { env with draw := d } nm opts s.density t =
      echelonize_finish jk { env with draw := d, full := nm.o.sparsity_threshold.lt s.density } opts t := by
    intro t
    unfold num_finish echelonize_finish
    cases csub t.n t.npiv with
    | error _ => rfl
    | ok k =>
      simp only [ht, Bool.false_eq_true, false_and, if_false]
      show (if _ then _ else _) = (if _ then _ else _)
      rw [num_dense_draws jk env nm ht]
      rfl
  unfold num_rest echelonize_rest
  rw [key, key]

/-- Without the low-rank method, one environment describes the decisions for all tables of random numbers. -/
theorem echelonize_num_draws {q : ℕ} [Fact q.Prime] (jk : Junk) {env : Env} (henv : env.Possible q) (nm : Num)
    {opts : Opts} (ht : opts.tall = false) {A : Csr} (hA : A.WFV q) (hnd : A.NoDup) (hz : A.NoZero) (hr : Roomy q A)
    (hn : A.n < 2 ^ 31) (hm : A.m < 2 ^ 31) :
    ∃ env' : Env, env.Agree env' ∧ ∀ d, echelonize_num jk { env with draw := d } nm opts A =
      echelonize jk { env' with draw := d } opts A := by
  unfold echelonize_num echelonize
  simp only
  have ht' : opts.norm.tall = false := by unfold Opts.norm; simp [ht]
  revert ht'
  generalize opts.norm = op
  intro ht'
  have h0 := echelonize_init_spec (opts := op) jk hA
  rw [Ok_iff] at h0
  obtain ⟨f, h0, f1, f2, f3, f4⟩ := h0
  rw [h0, nnz_ok hA.toWF]
  have hI : RoundInv q env.calm op A 0 ⟨A, A.n, none, mkArr A.n jk.nat, 0, f, 0⟩ :=
    ⟨hA, hnd, hz, rfl, rfl, fun a ha => (nomatch ha), by simp only; rw [f2]; exact f1, f4, f3, rfl, .inl ⟨rfl, rfl⟩, by simp only; omega⟩
  obtain ⟨r, r1, y, hy⟩ := forBrkN_choices (pr := NumDriver.d) (F := fun round s => num_round jk env nm op round s)
    (G := fun d round s => echelonize_round jk (env.fixed d) op round s)
    (P := fun i s => RoundInv q env.calm op A i s.d) (hi := op.max_round) (false, false, 0)
    (fun i s hi hP => by
      obtain ⟨d, r, a1, a2, a3⟩ := num_round_eq jk henv hA hr hm hn nm hi hP
      exact ⟨d, r, a1, a2, fun s' hs => by subst hs; exact a3⟩)
    op.max_round 0 ⟨⟨A, A.n, none, mkArr A.n jk.nat, 0, f, 0⟩, num_density0 A (A.p.g A.n)⟩ (by omega) hI
  refine ⟨{ env with few := fun i => (y i).1, thick := fun i => (y i).2.1, size := fun i => (y i).2.2,
                     full := nm.o.sparsity_threshold.lt r.2.density },
    ⟨rfl, rfl, rfl, rfl, rfl, rfl, rfl, rfl⟩, fun d => ?_⟩
  have hy' := hy y fun _ _ => rfl
  show (forBrk 0 op.max_round _ (fun round s => num_round jk env nm op round s) >>= fun r => _) =
    (forBrk 0 op.max_round _ (fun j t => echelonize_round jk (env.fixed (y j)) op j t) >>= fun r => _)
  unfold forBrk
  rw [Nat.sub_zero, r1, hy']
  show (num_rest jk { env with draw := d } nm op r.2 >>= fun fact => _) = _
  rw [num_rest_draws jk env nm ht']
  rfl

end Spasm
