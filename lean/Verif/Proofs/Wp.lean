import Verif.Proofs.Prng
import Verif.Spec.Certificate

/-
Programs that call the generator.  `Wp e x Q`: either `x` ends normally with `Q`, or it fails and
`e` holds.  With `e = False` this is `Ok`; with `e = True` it is partial correctness.
-/

namespace Spasm

open Sha

def Wp {α : Type} (e : Prop) (x : C α) (Q : α → Prop) : Prop :=
  match x with
  | .ok a => Q a
  | .error _ => e

section
variable {α β σ : Type} {e : Prop}

theorem Ok.wp {x : C α} {Q : α → Prop} (h : Ok x Q) : Wp e x Q := by
  cases x with
  | ok a => exact h
  | error _ => exact h.elim

theorem Wp.ok {x : C α} {Q : α → Prop} (h : Wp False x Q) : Ok x Q := by
  cases x with
  | ok a => exact h
  | error _ => exact h

theorem Wp.pc {x : C α} {Q : α → Prop} (h : Wp True x Q) {a : α} (ha : x = .ok a) : Q a := by
  subst ha; exact h

theorem Wp_ok (a : α) (Q : α → Prop) : Wp e (.ok a) Q ↔ Q a := Iff.rfl

theorem Wp_bind (x : C α) (f : α → C β) (Q : β → Prop) :
    Wp e (x >>= f) Q ↔ Wp e x (fun a => Wp e (f a) Q) := by
  cases x <;> simp [Bind.bind, Except.bind, Wp]

theorem Wp.mono {x : C α} {Q R : α → Prop} (h : Wp e x Q) (hi : ∀ a, Q a → R a) : Wp e x R := by
  cases x with
  | ok a => exact hi a h
  | error _ => exact h

theorem Wp_rd [Inhabited α] (a : Array α) (i : Nat) (Q : α → Prop) (h : i < a.size) (hq : Q (a.g i)) :
    Wp e (rd a i) Q := Ok.wp ((Ok_rd a i Q).2 ⟨h, hq⟩)

theorem Wp_wr (a : Array α) (i : Nat) (v : α) (Q : Array α → Prop) (h : i < a.size) (hq : Q (a.upd i v)) :
    Wp e (wr a i v) Q := Ok.wp ((Ok_wr a i v Q).2 ⟨h, hq⟩)

theorem Wp_forN {I : Nat → σ → Prop} {f : Nat → σ → C σ} (k : Nat) :
    ∀ (lo : Nat) (s : σ), I lo s →
    (∀ i s, lo ≤ i → i < lo + k → I i s → Wp e (f i s) (I (i + 1))) →
    Wp e (forN lo k s f) (I (lo + k)) := by
  induction k with
  | zero => intro lo s h0 _; exact h0
  | succ k ih =>
    intro lo s h0 hs
    rw [forN, Wp_bind]
    refine (hs lo s (Nat.le_refl _) (by omega) h0).mono ?_
    intro s' hs'
    have := ih (lo + 1) s' hs' (fun i s h1 h2 h3 => hs i s (by omega) (by omega) h3)
    have e : lo + 1 + k = lo + (k + 1) := by omega
    rwa [e] at this

theorem Wp_forRange {I : Nat → σ → Prop} {f : Nat → σ → C σ} {lo hi : Nat} {s : σ}
    (hle : lo ≤ hi) (h0 : I lo s)
    (hs : ∀ i s, lo ≤ i → i < hi → I i s → Wp e (f i s) (I (i + 1))) :
    Wp e (forRange lo hi s f) (I hi) := by
  have := Wp_forN (I := I) (f := f) (hi - lo) lo s h0
    (fun i s h1 h2 h3 => hs i s h1 (by omega) h3)
  have e : lo + (hi - lo) = hi := by omega
  rwa [e] at this

end

/-! ### The generator -/

/-- The generator is seeded and `k` residues have been drawn. -/
def Gen (seed : List Fips.Byte) (q k : Nat) (ctx : Prng) : Prop :=
  ∃ t, t ≤ 8 * (2 ^ 31 - 1) ∧ PrngAt seed q 0 t ctx ∧ Nat.count (Accepted seed q) t = k

/-- What a call to `spasm_prng_ZZp` does, up to the number `K` of residues. -/
def DrawSpec (e : Prop) (jw : Nat → W) (fuel : Nat) (seed : List Fips.Byte) (q K : Nat) : Prop :=
  ∀ k ctx, k < K → Gen seed q k ctx → Wp e (prng_ZZp jw fuel ctx) (fun r =>
    Bal q r.1 ∧ (r.1 : ZMod q) = challenge seed q k ∧ Gen seed q (k + 1) r.2)

/-- The first draw after position `t`. -/
theorem challenge_eq {seed : List Fips.Byte} {q t d k : Nat} (hk : Nat.count (Accepted seed q) t = k)
    (hrej : ∀ t', t ≤ t' → t' < t + d → ¬ Accepted seed q t') (hacc : Accepted seed q (t + d)) :
    challenge seed q k = (draw seed q 0 (t + d) : ZMod q) ∧ Nat.count (Accepted seed q) (t + d + 1) = k + 1 := by
  have hc : Nat.count (Accepted seed q) (t + d) = k := by
    rw [Nat.count_add, hk]
    have : Nat.count (fun i => Accepted seed q (t + i)) d = 0 := by
      rw [Nat.count_eq_card_filter_range, Finset.card_eq_zero, Finset.filter_eq_empty_iff]
      intro i hi
      rw [Finset.mem_range] at hi
      exact hrej _ (by omega) (by omega)
    omega
  constructor
  · unfold challenge
    rw [← hc, Nat.nth_count hacc]
  · rw [Nat.count_succ, hc, if_pos hacc]

theorem zmod_of_dvd {q : ℕ} {a : Int} {n : Nat} (h : (q : Int) ∣ a - n) : (a : ZMod q) = (n : ZMod q) := by
  rw [← ZMod.intCast_zmod_eq_zero_iff_dvd] at h
  push_cast at h
  exact sub_eq_zero.mp h

/-- Enough accepted candidates: no call fails. -/
theorem drawSpec_total (jw : Nat → W) {fuel : Nat} {seed : List Fips.Byte} (hs : seed.length = 32) {q K N : Nat}
    (hN : N ≤ 8 * (2 ^ 31 - 1)) (hf : N ≤ fuel) (hK : K ≤ Nat.count (Accepted seed q) N) :
    DrawSpec False jw fuel seed q K := by
  rintro k ctx hk ⟨t, ht, hat, hcnt⟩
  have hex : ∃ d, Accepted seed q (t + d) ∧ t + d < N := by
    by_contra hno
    push Not at hno
    have hle : Nat.count (Accepted seed q) N ≤ k := by
      rcases Nat.lt_or_ge t N with h | h
      · obtain ⟨m, rfl⟩ : ∃ m, N = t + m := ⟨N - t, by omega⟩
        rw [Nat.count_add, hcnt]
        have : Nat.count (fun i => Accepted seed q (t + i)) m = 0 := by
          rw [Nat.count_eq_card_filter_range, Finset.card_eq_zero, Finset.filter_eq_empty_iff]
          intro i hi hacc
          rw [Finset.mem_range] at hi
          have := hno i hacc
          omega
        omega
      · rw [← hcnt]; exact Nat.count_monotone _ h
    omega
  classical
  let d := Nat.find hex
  have hd := Nat.find_spec hex
  have hmin : ∀ t', t ≤ t' → t' < t + d → ¬ Accepted seed q t' := by
    intro t' h1 h2 hacc
    have := Nat.find_min hex (m := t' - t) (by omega)
    apply this
    rw [show t + (t' - t) = t' by omega]
    exact ⟨hacc, by omega⟩
  obtain ⟨c1, c2⟩ := challenge_eq hcnt hmin hd.1
  refine Ok.wp ((hat.zzp jw hs (d := d) (by omega) (by omega) (fun t' h1 h2 => ?_) hd.1).mono ?_)
  · exact Nat.le_of_not_lt (hmin t' h1 h2)
  · rintro r ⟨r1, r2, r3⟩
    refine ⟨r1, ?_, ?_⟩
    · rw [c1]; exact zmod_of_dvd r2
    · exact ⟨_, by omega, r3, c2⟩

/-- The counter of blocks overflows at the end of the last block. -/
theorem u32_overflow (jw : Nat → W) {seed : List Fips.Byte} {q : ℕ} {seq : W}
    {ctx : Prng} (h : PrngAt seed q seq (8 * (2 ^ 31 - 1)) ctx) : ∃ er, prng_u32 jw ctx = .error er := by
  have hpos := h.pos
  have hcp := h.ctr_pos
  have hcl := h.ctr_le
  have hile := h.i_le
  unfold prng_u32 prng_refill
  by_cases h8 : ctx.i = 8
  · rw [if_pos h8]
    unfold rehash
    cases h1 : SHA256_update jw SHA256_init ctx.block 44 with
    | error er => exact ⟨er, rfl⟩
    | ok hctx =>
      cases h2 : SHA256_final jw ctx.hash hctx with
      | error er => exact ⟨er, by simp [Bind.bind, Except.bind, h2]⟩
      | ok r =>
        have h3 : i32 (ctx.counter + 1) = .error .ub := by
          unfold i32; rw [if_neg]; omega
        exact ⟨.ub, by simp [Bind.bind, Except.bind, h2, h3]⟩
  · exfalso; omega

/-- Without assumption on the stream: whenever a call returns, it returns the next residue. -/
theorem drawSpec_partial (jw : Nat → W) (fuel : Nat) {seed : List Fips.Byte} (hs : seed.length = 32) (q K : Nat) :
    DrawSpec True jw fuel seed q K := by
  rintro k ctx hk ⟨t, ht, hat, hcnt⟩
  clear hk
  induction fuel generalizing t ctx with
  | zero => exact trivial
  | succ n ih =>
    rcases Nat.lt_or_ge t (8 * (2 ^ 31 - 1)) with hlt | hge
    · rw [prng_ZZp, Wp_bind]
      refine Ok.wp ((hat.u32 jw hs hlt).mono ?_)
      rintro ⟨w, c⟩ ⟨h1, h2⟩
      simp only at h1 h2 ⊢
      have hx : (w &&& c.mask).toNat = draw seed q 0 t := by
        rw [h2.mask, h1, and_mask _ _ (clog_le h2.field.le_max)]; rfl
      rw [hx, h2.prime]
      by_cases hacc : draw seed q 0 t < q
      · rw [if_pos hacc, Wp_bind]
        refine Ok.wp ((C01_init q c.field h2.field _).mono ?_)
        rintro z ⟨z1, z2⟩
        rw [Wp_ok]
        obtain ⟨c1, c2⟩ := challenge_eq (d := 0) hcnt (fun t' a b => by omega) hacc
        refine ⟨z1, ?_, t + 1, by omega, h2, c2⟩
        rw [c1]; exact zmod_of_dvd z2
      · rw [if_neg hacc]
        refine ih c (t + 1) (by omega) h2 ?_
        rw [Nat.count_succ, hcnt, if_neg (show ¬ Accepted seed q t from hacc), Nat.add_zero]
    · have : t = 8 * (2 ^ 31 - 1) := by omega
      subst this
      obtain ⟨er, her⟩ := u32_overflow jw hat
      rw [prng_ZZp, her]
      exact trivial

theorem gen_zero {seed : List Fips.Byte} {q : ℕ} {ctx : Prng} (h : PrngAt seed q 0 0 ctx) : Gen seed q 0 ctx :=
  ⟨0, by omega, h, by simp⟩

end Spasm
