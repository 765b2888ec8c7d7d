import Verif.Proofs.Prng

/-
C36: the pseudo-random generator.
-/

namespace Spasm

open Sha Fips

/-- C36 (seeding). After seeding, the generator is at the start of the stream determined by the seed,
the prime and the sequence number: `PrngAt .. 0`. -/
theorem C36_seed (jk : Nat → W) (seed : Array B) (q : ℕ) (seq : W) (ctx : Prng) (hs : seed.size = 32)
    (h2 : 2 ≤ q) (hm : q ≤ 0xfffffffb) (hb : ctx.block.size = 44) (hh : ctx.hash.size = 32) :
    Ok (prng_seed jk seed q seq ctx) (PrngAt seed.toList q seq 0) :=
  seed_spec jk seed q seq ctx hs h2 hm hb hh

/-- C36 (seeding with an integer). The same with the 64-bit integer in the first eight bytes. -/
theorem C36_seed_simple (jk : Nat → W) (jkb : Nat → B) (q : ℕ) (seed : BitVec 64) (seq : W) (ctx : Prng)
    (h2 : 2 ≤ q) (hm : q ≤ 0xfffffffb) (hb : ctx.block.size = 44) (hh : ctx.hash.size = 32) :
    Ok (prng_seed_simple jk jkb q seed seq ctx) (PrngAt (simpleSeed seed) q seq 0) := by
  exact seed_simple_spec jk jkb q seed seq ctx h2 hm hb hh

/-- Draws `k` words. -/
def drawWords (jk : Nat → W) : Nat → Prng → C (List W × Prng)
  | 0, ctx => .ok ([], ctx)
  | k + 1, ctx => do
    let r ← prng_u32 jk ctx
    let rs ← drawWords jk k r.2
    .ok (r.1 :: rs.1, rs.2)

/-- C36 (words). Any number of words drawn after seeding (until the `int` counter of blocks overflows)
are the consecutive words of the stream: a function of seed, prime, sequence number and position, not
of what the memory contained; every access is within the block of eight words. -/
theorem C36_words (jk : Nat → W) (seed : Array B) (q : ℕ) (seq : W) (ctx : Prng) (hs : seed.size = 32)
    (h2 : 2 ≤ q) (hm : q ≤ 0xfffffffb) (hb : ctx.block.size = 44) (hh : ctx.hash.size = 32) (k : Nat)
    (hk : k ≤ 8 * (2 ^ 31 - 1)) :
    Ok (do
      let c ← prng_seed jk seed q seq ctx
      let r ← drawWords jk k c
      .ok r.1) (fun l => l = (List.range k).map (stream seed.toList (BitVec.ofNat 32 q) seq)) := by
  rw [Ok_bind]
  refine (C36_seed jk seed q seq ctx hs h2 hm hb hh).mono ?_
  intro c hc
  rw [Ok_bind]
  have key : ∀ k t c, PrngAt seed.toList q seq t c → t + k ≤ 8 * (2 ^ 31 - 1) →
      Ok (drawWords jk k c) (fun r =>
        r.1 = (List.range k).map (fun i => stream seed.toList (BitVec.ofNat 32 q) seq (t + i))) := by
    intro k
    induction k with
    | zero => intro t c _ _; rw [drawWords, Ok_ok]; rfl
    | succ k ih =>
      intro t c h hk
      rw [drawWords, Ok_bind]
      refine (h.u32 jk (by simpa using hs) (by omega)).mono ?_
      rintro ⟨w, c'⟩ ⟨e1, e2⟩
      rw [Ok_bind]
      refine (ih (t + 1) c' e2 (by omega)).mono ?_
      intro rs hrs
      rw [Ok_ok]
      simp only at e1 ⊢
      rw [hrs, e1, List.range_succ_eq_map, List.map_cons, List.map_map, Nat.add_zero]
      congr 1
      apply List.map_congr_left
      intro i _
      simp only [Function.comp]
      congr 1; omega
  refine (key k 0 c hc (by omega)).mono ?_
  intro r hr
  rw [Ok_ok, hr]
  apply List.map_congr_left
  intro i _
  rw [Nat.zero_add]

/-- C36 (residues). When `t` words have been drawn, `spasm_prng_ZZp` skips the candidates that are not
less than `q` and returns the balanced representative of the first that is, at distance `d`. -/
theorem C36_residue (jk : Nat → W) (seed : List Byte) (hs : seed.length = 32) (q : ℕ) (seq : W) (t d : Nat)
    (ctx : Prng) (fuel : Nat) (h : PrngAt seed q seq t ctx) (ht : t + d < 8 * (2 ^ 31 - 1)) (hd : d < fuel)
    (hrej : ∀ t', t ≤ t' → t' < t + d → q ≤ draw seed q seq t') (hacc : draw seed q seq (t + d) < q) :
    Ok (prng_ZZp jk fuel ctx) (fun r => Bal q r.1 ∧ (q : Int) ∣ r.1 - draw seed q seq (t + d) ∧
      PrngAt seed q seq (t + d + 1) r.2) :=
  h.zzp jk hs ht hd hrej hacc

/-- C36 (mask). The number of bits kept is the smallest sufficient one, so that a candidate is rejected
less than half of the time for uniform words. -/
theorem C36_mask (q : ℕ) (h2 : 2 ≤ q) (hm : q ≤ 0xfffffffb) :
    Ok (prng_mask q) (fun m => ∃ k, m = 2 ^ k ∧ q ≤ 2 ^ k ∧ 2 ^ k < 2 * q ∧ ∀ k', q ≤ 2 ^ k' → k ≤ k') := by
  refine (mask_spec q hm).mono ?_
  rintro m rfl
  have hpos := Nat.clog_pos (b := 2) (by decide) (show 1 < q by omega)
  have h1 := Nat.pow_pred_clog_lt_self (b := 2) (by decide) (show 1 < q by omega)
  refine ⟨Nat.clog 2 q, rfl, Nat.le_pow_clog (by decide) q, ?_, fun k' hk' => Nat.clog_le_of_le_pow hk'⟩
  obtain ⟨e, he⟩ : ∃ e, Nat.clog 2 q = e + 1 := ⟨Nat.clog 2 q - 1, by omega⟩
  rw [he] at h1 ⊢
  rw [pow_succ]
  simp only [Nat.pred_eq_sub_one, Nat.add_sub_cancel] at h1
  omega

/-- C36 (uniformity). Each residue class corresponds to exactly one accepted candidate. -/
theorem C36_bijection (q : ℕ) (h2 : 2 ≤ q) (r : Int) :
    ∃! x : ℕ, x < q ∧ (q : Int) ∣ r - x := by
  refine ⟨(r % q).toNat, ⟨?_, ?_⟩, ?_⟩
  · have := Int.emod_lt_of_pos r (show (0 : Int) < q by omega)
    have := Int.emod_nonneg r (show (q : Int) ≠ 0 by omega)
    omega
  · have := Int.emod_nonneg r (show (q : Int) ≠ 0 by omega)
    rw [Int.toNat_of_nonneg this]
    exact Int.dvd_self_sub_emod
  · rintro y ⟨hy1, hy2⟩
    have h3 : r % q = (y : Int) % q := Int.emod_eq_emod_iff_emod_sub_eq_zero.2 (Int.emod_eq_zero_of_dvd hy2)
    rw [h3, Int.emod_eq_of_lt (by omega) (by omega)]
    rfl

/-! ### A concrete case -/

def exPrng : Prng :=
  { block := mkArr 44 default, hash := mkArr 32 default, prime := 9, mask := 9, counter := 9, i := 9,
    field := default }

/-- Seeding with zero modulo 257: the generator is seeded and the second residue
drawn needs a second block. -/
example : Ok (prng_seed_simple default default 257 0 0 exPrng) (PrngAt (simpleSeed 0) 257 0 0) :=
  C36_seed_simple default default 257 0 0 exPrng (by decide) (by decide) (by simp [exPrng]) (by simp [exPrng])

example : (match (do
      let c ← prng_seed_simple default default 257 0 0 exPrng
      let r ← prng_ZZp default 100 c
      prng_ZZp default 100 r.2) with
    | .ok r => decide (r.1 = -73 ∧ r.2.i = 1 ∧ r.2.counter = 2)
    | .error _ => false) = true := by decide +kernel

end Spasm
