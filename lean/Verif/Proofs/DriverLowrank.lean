import Verif.Proofs.DriverSample
import Verif.Proofs.WpE

/-
`echelonize_dense_lowrank`.
-/

namespace Spasm

open Finset

/-- `U` is echelonized, its rows are in the row space of `A`, and it has room for more. -/
structure Inner (q : ℕ) (A : Csr) (f : Lu) : Prop where
  ech : Echelon q f.U f.qinv
  m_eq : f.U.m = A.m
  psize : A.n < f.U.p.size
  x_some : f.U.x.isSome = true
  x_size : ∀ a, f.U.x = some a → f.U.j.size ≤ a.size
  le : f.U.rowSpace q ≤ A.rowSpace q
  nodup : f.U.NoDup
  nozero : f.Ltmp = none → f.U.RowsNonzero

theorem Partial.inner {q : ℕ} {A : Csr} {f : Lu} {v : Nat → Nat → ZMod q} {nr : Nat} {o : Nat → Nat}
    {old : Nat} {complete : Bool} {L : Option Triplet} {Lp : Option (Array Nat)}
    (h : Partial q A f.U f.qinv L Lp v nr o old complete) (hL : f.Ltmp = none → L = none := by first | exact id | exact fun _ => rfl) :
    Inner q A f :=
  ⟨h.ech, h.m_eq, h.psize, h.x_some, h.x_size, by rw [← h.span]; exact le_sup_left, h.nodup,
    fun h' => h.nozero (hL h')⟩

theorem Inner.update (jk : Junk) {q : ℕ} {A : Csr} {fact : Lu} (h : Inner q A fact) {N r : Nat}
    {v : Nat → Nat → ZMod q} {S : Array ℚ} {Q qa : Array Nat} {w0 w : Nat → Nat → Int}
    (hs : Sampled q fact.U fact.qinv A.m N v r S Q qa w0 w) (hv : ∀ k, k < N → v k ∈ A.rowSpace q)
    (hroom : fact.U.n + r ≤ A.n) (h0 : 0 < fact.U.n ∨ jk.null0 = false) (dt : Datatype) :
    Ok (update_U_after_rref jk r (A.m - fact.U.n) S dt Q qa fact) (fun f => Inner q A f ∧
      f = { fact with U := f.U, qinv := f.qinv } ∧ f.U.n = fact.U.n + r ∧
      f.U.rowSpace q = fact.U.rowSpace q ⊔ spanOf v N) := by
  have hps := h.psize
  have hq := hs.q_ok
  have hR := hs.rref
  have hC := hs.cells
  have hsp := hs.span
  rw [← h.m_eq] at hq hR hC hsp
  rw [← h.m_eq]
  refine (update_U_spec jk dt h.ech h.x_some h.x_size hR hC hq (by omega)
    (h0.imp (fun h0 => by omega) id)).mono ?_
  rintro f ⟨unz, g1, g2, g3⟩
  have hrow := (g1.rref hR).trans hsp
  refine ⟨⟨g1.ech, by rw [g1.m_eq]; exact h.m_eq, by rw [g1.psize]; exact hps, g1.grow.x_some,
    g1.grow.x_size, ?_, g1.nodup h.nodup, fun hL => g3 (h.nozero (by rw [g2] at hL; exact hL))⟩, g2, g1.n_eq, hrow⟩
  rw [hrow]
  exact sup_le h.le (spanOf_le fun t ht => hv t ht)

/-- State of the loop. -/
structure LowInv (E : Err → Prop) (q : ℕ) (A0 A : Csr) (block n0 : Nat) (fact0 : Lu) (s : LowRank) :
    Prop where
  inner : Inner q A0 s.fact
  keep : s.fact = { fact0 with U := s.fact.U, qinv := s.fact.qinv }
  old : fact0.U.rowSpace q ≤ s.fact.U.rowSpace q
  un : fact0.U.n ≤ s.fact.U.n
  n_eq : s.n + s.fact.U.n = n0 + fact0.U.n
  Sm_eq : s.Sm = A.m - s.fact.U.n
  ub_eq : s.rank_ub + s.fact.U.n = min n0 (A.m - fact0.U.n) + fact0.U.n
  S_size : block * s.Sm ≤ s.S.size
  q_size : s.Sm ≤ s.q.size
  w : E .ub ∨ |s.w| * 2 ^ s.rank_ub < 2 ^ 31

/-- How the method may end: the rank cannot be larger, or the completion test succeeds on what it
believes to be the rows that remain. -/
def LowEnd (q : ℕ) (env : Env) (A : Csr) (p : Array Nat) (n0 : Nat) (fact0 f : Lu) : Prop :=
  f.U.n = fact0.U.n + min n0 (A.m - fact0.U.n) ∨
  Tested q env A p (n0 + fact0.U.n - f.U.n) f.U

theorem lowrank_weight_spec {E : Err → Prop} {rr ub : Nat} (less : Bool) {w : Int} (hrr : rr ≤ ub)
    (hw : E .ub ∨ |w| * 2 ^ ub < 2 ^ 31) :
    WpE E (lowrank_weight rr less w) (fun w' => E .ub ∨ |w'| * 2 ^ (ub - rr) < 2 ^ 31) := by
  unfold lowrank_weight
  by_cases h0 : rr = 0
  · subst h0
    simp only [if_true, Nat.sub_zero, zero_mul]
    have : WpE E (i32 0) (fun w' => E .ub ∨ |w'| * 2 ^ ub < 2 ^ 31) := by
      unfold i32
      rw [if_pos (by norm_num), WpE_ok]
      exact .inr (by norm_num)
    split
    · exact this
    · rw [WpE_ok]; exact .inr (by norm_num)
  · simp only [if_neg h0]
    obtain ⟨k, rfl⟩ : ∃ k, ub = rr + k := ⟨ub - rr, by omega⟩
    rw [Nat.add_sub_cancel_left]
    have hpow : (2 : Int) * 2 ^ k ≤ 2 ^ (rr + k) := by
      rw [← pow_succ']
      exact pow_le_pow_right₀ (by norm_num) (by omega)
    have hk : (1 : Int) ≤ 2 ^ k := one_le_pow₀ (by norm_num)
    rcases hw with hw | hw
    · split
      · unfold i32
        split
        · rw [WpE_ok]; exact .inl hw
        · exact hw
      · rw [WpE_ok]; exact .inl hw
    · have ha : 0 ≤ |w| := abs_nonneg w
      have h1 : |w| * (2 * 2 ^ k) < 2 ^ 31 := lt_of_le_of_lt (mul_le_mul_of_nonneg_left hpow ha) hw
      have h2 : |w| * 2 ≤ |w| * (2 * 2 ^ k) := mul_le_mul_of_nonneg_left (by omega) ha
      have h3 := neg_abs_le w
      have h4 := le_abs_self w
      split
      · unfold i32
        rw [if_pos (by omega), WpE_ok]
        refine .inr ?_
        rw [abs_mul]
        calc |w| * |2| * 2 ^ k = |w| * (2 * 2 ^ k) := by norm_num; ring
          _ < _ := h1
      · rw [WpE_ok]
        refine .inr (lt_of_le_of_lt (mul_le_mul_of_nonneg_left ?_ ha) h1)
        omega

section
variable {E : Err → Prop} {q : ℕ} [Fact q.Prime] {A0 A : Csr} {p : Array Nat} {n : Nat} {env : Env}
  {fact : Lu}

theorem lowrank_test_spec (jk : Junk) (hA : A.WFV q) (hp : n ≤ p.size) (hpn : ∀ i, i < n → p.g i < A.n)
    (hd : ∀ k i, Small q (env.draw k i)) (hff : env.ff.Correct q) (rr : Nat) {s : LowRank}
    (hE : Echelon q s.fact.U s.fact.qinv) (hm : s.fact.U.m = A.m) (hn : s.n ≤ n) :
    Ok (lowrank_test jk env A p rr s) (fun b => b = true → Tested q env A p s.n s.fact.U) := by
  unfold lowrank_test
  split
  · refine (test_completion_spec jk hA hE hm (by omega) (fun i hi => hpn i (by omega)) hd hff).mono ?_
    intro b hb e
    exact hb.1 e
  · rw [Ok_ok]; intro e; cases e

theorem lowrank_round_spec (jk : Junk) (hA : A.WFV q) (hm : A.m = A0.m) (hp : n ≤ p.size)
    (hpn : ∀ i, i < n → p.g i < A.n) (hrows : ∀ t, t < n → A.entry q (p.g t) ∈ A0.rowSpace q)
    (hroom : fact.U.n + n ≤ A0.n) (h0 : 0 < fact.U.n ∨ jk.null0 = false)
    (hd : ∀ k i, Small q (env.draw k i)) (hff : env.ff.Correct q) {block : Int} {s : LowRank}
    (hs : LowInv E q A0 A block.toNat n fact s) :
    WpE E (lowrank_round jk env block A p s) (fun r => match r with
      | .cont s' => LowInv E q A0 A block.toNat n fact s'
      | .brk s' => LowInv E q A0 A block.toNat n fact s' ∧ ((s'.rank_ub : Int) ≤ 0 ∨ block ≤ 0 ∨
          ∀ k, k < env.samples → samples q A p s'.n 0 env.draw (fun _ _ => 0) k ∈ s'.fact.U.rowSpace q)) := by
  obtain ⟨s1, s2, s3, s4, s5, s6, s7, s8, s9, s10⟩ := hs
  have hnm := s1.ech.n_le
  have hUm := s1.m_eq
  unfold lowrank_round
  by_cases hSn : min (s.rank_ub : Int) block ≤ 0
  · rw [if_pos hSn, WpE_ok]
    refine ⟨⟨s1, s2, s3, s4, s5, s6, s7, s8, s9, s10⟩, ?_⟩
    omega
  rw [if_neg hSn, WpE_bind]
  have hN : (min (s.rank_ub : Int) block).toNat ≤ block.toNat := by omega
  have hN' : (min (s.rank_ub : Int) block).toNat ≤ s.rank_ub := by omega
  generalize (min (s.rank_ub : Int) block).toNat = N at hN hN'
  have hsm : A.m - s.fact.U.n = s.Sm := s6.symm
  refine (sample_spec jk hA s1.ech (by omega) (by omega) (by omega) (fun i hi => hpn i (by omega)) s.w hd
    (env.rand s.round) (by omega) (S := s.S) (N := N)
    (by rw [hsm]; exact le_trans (Nat.mul_le_mul_right _ hN) s8) hff).wpe.mono ?_
  rintro ⟨S, qa⟩ ⟨e1, e2, w0, w', e3⟩
  simp only [hsm] at e1 e2 e3
  unfold lowrank_next
  generalize env.ff.rref A.F.p N s.Sm S = R at e2 e3
  obtain ⟨rr, S', Sp⟩ := R
  simp only at e2 e3 ⊢
  have hrr := e3.rref.r_n
  have hrm := e3.rref.r_m
  rw [WpE_bind]
  refine (lowrank_test_spec jk hA hp hpn hd hff rr s1.ech (by omega) (by omega)).wpe.mono ?_
  intro stop hstop
  cases stop with
  | true =>
    rw [if_pos rfl, WpE_ok]
    exact ⟨⟨s1, s2, s3, s4, s5, s6, s7, s8, s9, s10⟩, .inr (.inr (hstop rfl))⟩
  | false =>
    rw [if_neg (by simp), WpE_bind]
    refine (lowrank_weight_spec (env.less s.round) (by omega) s10).mono ?_
    intro w hw
    rw [WpE_bind, ← hsm, hm]
    rw [hm] at e3
    refine (s1.update jk e3 (fun k hk => ?_) (by omega) (h0.imp (fun _ => by omega) id) _).wpe.mono ?_
    · exact randComb_mem (by omega) _ _ _ fun i hi => hrows i (by omega)
    rintro f ⟨f1, f2, f3, f4⟩
    rw [csub_ok (by omega), WpE_bind, WpE_ok, ← hm, hsm, csub_ok (by omega), WpE_bind, WpE_ok,
      csub_ok (by omega), WpE_bind, WpE_ok, WpE_ok]
    refine ⟨f1, ?_, ?_, ?_, ?_, ?_, ?_, ?_, ?_, hw⟩
    · simp only; rw [f2, s2]
    · simp only; rw [f4]; exact le_trans s3 le_sup_left
    · simp only; omega
    · simp only; omega
    · simp only; omega
    · simp only; omega
    · simp only
      rw [e2]
      exact le_trans (Nat.mul_le_mul_left _ (by omega)) s8
    · simp only; omega

/-- The low-rank method stays inside the row space of the matrix, whatever the random choices. -/
theorem lowrank_spec (jk : Junk) (hEf : E .fuel) (hA : A.WFV q) (hm : A.m = A0.m) (hp : n ≤ p.size)
    (hpn : ∀ i, i < n → p.g i < A.n) (hrows : ∀ t, t < n → A.entry q (p.g t) ∈ A0.rowSpace q)
    (hroom : fact.U.n + n ≤ A0.n) (h0 : 0 < fact.U.n ∨ jk.null0 = false)
    (hd : ∀ k i, Small q (env.draw k i)) (hff : env.ff.Correct q) {opts : Opts} (hb : 0 < opts.block)
    (hI : Inner q A0 fact) (hw : E .ub ∨ |env.weight| * 2 ^ min n (A.m - fact.U.n) < 2 ^ 31) :
    WpE E (lowrank jk env opts A p n fact) (fun f => Inner q A0 f ∧
      f = { fact with U := f.U, qinv := f.qinv } ∧ fact.U.rowSpace q ≤ f.U.rowSpace q ∧
      fact.U.n ≤ f.U.n ∧ f.U.n ≤ fact.U.n + n ∧ LowEnd q env A p n fact f) := by
  have hnm := hI.ech.n_le
  have hUm := hI.m_eq
  unfold lowrank
  rw [cassert, if_pos (by simpa using hb), WpE_bind, WpE_ok, csub_ok (by omega), WpE_bind, WpE_ok, WpE_bind]
  refine (WpE_whileFuel (I := LowInv E q A0 A opts.block.toNat n fact) hEf
    (Q := fun s' => LowInv E q A0 A opts.block.toNat n fact s' ∧ ((s'.rank_ub : Int) ≤ 0 ∨ opts.block ≤ 0 ∨
          ∀ k, k < env.samples → samples q A p s'.n 0 env.draw (fun _ _ => 0) k ∈ s'.fact.U.rowSpace q))
    (fun s hs => (lowrank_round_spec jk hA hm hp hpn hrows hroom h0 hd hff hs).mono
      fun r hr => by cases r <;> exact hr) env.fuel _ ?_).mono ?_
  · exact ⟨hI, rfl, le_refl _, le_refl _, rfl, rfl, rfl, by unfold dense_alloc; simp, by simp, hw⟩
  · rintro s ⟨⟨s1, s2, s3, s4, s5, s6, s7, s8, s9, s10⟩, h⟩
    rw [WpE_ok]
    refine ⟨s1, s2, s3, s4, by omega, ?_⟩
    rcases h with h | h | h
    · exact .inl (by omega)
    · omega
    · refine .inr ?_
      have : n + fact.U.n - s.fact.U.n = s.n := by omega
      rw [this]
      exact h

end

end Spasm
