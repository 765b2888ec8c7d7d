import Verif.Model.Prng
import Verif.Spec.Prng
import Verif.Props.Sha256
import Verif.Props.ZZp

namespace Spasm

open Sha Fips

/-- The block in memory is as specified for counter `c`. -/
structure BlockIs (seed : List Byte) (prime seq : W) (c : Nat) (b : Array B) : Prop where
  size : b.size = 44
  s : ∀ i, i < 32 → b.g i = seed.getD i 0
  p : ∀ i, i < 4 → b.g (32 + i) = (bytes prime).getD i 0
  c : ∀ i, i < 4 → b.g (36 + i) = (bytes (BitVec.ofNat 32 c)).getD i 0
  q : ∀ i, i < 4 → b.g (40 + i) = (bytes seq).getD i 0

theorem BlockIs.toList {seed : List Byte} {prime seq : W} {c : Nat} {b : Array B}
    (h : BlockIs seed prime seq c b) (hs : seed.length = 32) :
    b.toList = seed ++ bytes prime ++ bytes (BitVec.ofNat 32 c) ++ bytes seq := by
  have hb : ∀ w : W, (bytes w).length = 4 := fun w => rfl
  apply List.ext_getElem
  · simp [hb, h.size, hs]
  intro i h1 h2
  have hi : i < 44 := by simpa [h.size] using h1
  have hg : b.toList[i] = b.g i := by rw [g_eq _ _ (by rw [h.size]; omega)]; simp
  rw [hg, ← List.getD_eq_getElem (d := 0)]
  by_cases i1 : i < 32
  · rw [List.getD_append _ _ _ _ (by simp [hb, hs]; omega), List.getD_append _ _ _ _ (by simp [hb, hs]; omega),
      List.getD_append _ _ _ _ (by omega), h.s i i1]
  by_cases i2 : i < 36
  · rw [List.getD_append _ _ _ _ (by simp [hb, hs]; omega), List.getD_append _ _ _ _ (by simp [hb, hs]; omega),
      List.getD_append_right _ _ _ _ (by omega), hs, ← h.p (i - 32) (by omega)]
    congr 1; omega
  by_cases i3 : i < 40
  · rw [List.getD_append _ _ _ _ (by simp [hb, hs]; omega),
      List.getD_append_right _ _ _ _ (by simp [hb, hs]; omega), ← h.c _ (by simp [hb, hs]; omega)]
    congr 1; simp [hb, hs]; omega
  · rw [List.getD_append_right _ _ _ _ (by simp [hb, hs]; omega), ← h.q _ (by simp [hb, hs]; omega)]
    congr 1; simp [hb, hs]; omega

/-- The generator is seeded, and `t` words have been drawn. -/
structure PrngAt (seed : List Byte) (q : ℕ) (seq : W) (t : Nat) (ctx : Prng) : Prop where
  prime : ctx.prime = q
  mask : ctx.mask = BitVec.ofNat 32 (2 ^ Nat.clog 2 q - 1)
  field : ctx.field.Good q
  i_le : ctx.i ≤ 8
  ctr_pos : 0 < ctx.counter
  ctr_le : ctx.counter < 2 ^ 31
  pos : 8 * (ctx.counter - 1) + ctx.i = t
  block : BlockIs seed (BitVec.ofNat 32 q) seq ctx.counter.toNat ctx.block
  hash : ctx.hash.toList = streamBlock seed (BitVec.ofNat 32 q) seq (ctx.counter.toNat - 1)

theorem sha_length (m : List Byte) : (sha256 m).length = 32 := rfl

theorem rehash_spec (jk : Nat → W) (seed : List Byte) (hs : seed.length = 32) (q : ℕ) (seq : W) (ctx : Prng)
    (hp : ctx.prime = q) (hm : ctx.mask = BitVec.ofNat 32 (2 ^ Nat.clog 2 q - 1)) (hF : ctx.field.Good q)
    (hh : ctx.hash.size = 32) (hc0 : 0 ≤ ctx.counter) (hc : ctx.counter < 2 ^ 31 - 1)
    (hb : BlockIs seed (BitVec.ofNat 32 q) seq ctx.counter.toNat ctx.block) :
    Ok (rehash jk ctx) (fun c' => c'.i = 0 ∧ c'.counter = ctx.counter + 1 ∧
      PrngAt seed q seq (8 * ctx.counter.toNat) c') := by
  have hd := C35_sha256 jk ctx.hash hh [ctx.block]
  unfold digest at hd
  rw [List.foldlM_cons] at hd
  simp only [List.foldlM_nil, bind_assoc, pure_bind, List.flatMap_cons, List.flatMap_nil,
    List.append_nil, hb.size] at hd
  unfold rehash
  rw [Ok_bind] at hd ⊢
  refine hd.mono ?_
  intro hctx hd
  rw [Ok_bind] at hd ⊢
  refine hd.mono ?_
  rintro ⟨md, c2⟩ hd
  rw [Ok_ok] at hd
  simp only at hd
  have hi32 : i32 (ctx.counter + 1) = .ok (ctx.counter + 1) := by
    unfold i32; rw [if_pos]; constructor <;> omega
  rw [hi32, Ok_bind, Ok_ok, Ok_bind]
  refine (HOST_l2c_spec _ ctx.block 36 (by rw [hb.size]; omega)).mono ?_
  rintro blk ⟨e1, e2, e3⟩
  rw [Ok_ok]
  refine ⟨rfl, rfl, hp, hm, hF, by simp, by simp only; omega, by simp only; omega, by simp only; omega, ?_, ?_⟩
  · refine ⟨by simp only; rw [e1]; exact hb.size, ?_, ?_, ?_, ?_⟩
    · intro i hi; simp only; rw [e3 i (by omega)]; exact hb.s i hi
    · intro i hi; simp only; rw [e3 _ (by omega)]; exact hb.p i hi
    · intro i hi
      simp only
      rw [e2 i hi]
      congr 2
      rw [show ctx.counter + 1 = (((ctx.counter + 1).toNat : Nat) : Int) by omega, BitVec.ofInt_natCast]
      rfl
    · intro i hi; simp only; rw [e3 _ (by omega)]; exact hb.q i hi
  · simp only
    rw [hd, hb.toList hs, show (ctx.counter + 1).toNat - 1 = ctx.counter.toNat by omega]
    rfl

theorem PrngAt.u32 (jk : Nat → W) {seed : List Byte} (hs : seed.length = 32) {q : ℕ} {seq : W} {t : Nat}
    {ctx : Prng} (h : PrngAt seed q seq t ctx) (ht : t < 8 * (2 ^ 31 - 1)) :
    Ok (prng_u32 jk ctx) (fun r => r.1 = stream seed (BitVec.ofNat 32 q) seq t ∧
      PrngAt seed q seq (t + 1) r.2) := by
  have hpos := h.pos
  have hcp := h.ctr_pos
  have hile := h.i_le
  have hsz : ∀ c : Prng, ∀ k, c.hash.toList = streamBlock seed (BitVec.ofNat 32 q) seq k → c.hash.size = 32 := by
    intro c k hk
    rw [← Array.length_toList, hk]; rfl
  unfold prng_u32
  rw [Ok_bind]
  have hre : Ok (prng_refill jk ctx) (fun c => c.i < 8 ∧ PrngAt seed q seq t c) := by
    unfold prng_refill
    by_cases h8 : ctx.i = 8
    · rw [if_pos h8]
      refine (rehash_spec jk seed hs q seq ctx h.prime h.mask h.field (hsz _ _ h.hash) (by omega) (by omega)
        h.block).mono ?_
      rintro c ⟨c1, c2, c3⟩
      refine ⟨by omega, ?_⟩
      rw [show 8 * ctx.counter.toNat = t by omega] at c3
      exact c3
    · rw [if_neg h8, Ok_ok]
      exact ⟨by omega, h⟩
  refine hre.mono ?_
  rintro c ⟨c1, c2⟩
  have hp := c2.pos
  have hcp := c2.ctr_pos
  have hz := hsz _ _ c2.hash
  rw [HOST_c2l_ok _ _ (by omega), Ok_bind, Ok_ok, Ok_ok]
  refine ⟨?_, c2.prime, c2.mask, c2.field, by simp only; omega, c2.ctr_pos, c2.ctr_le, by simp only; omega, c2.block, c2.hash⟩
  have hg : ∀ k, k < 32 → c.hash.g k = (streamBlock seed (BitVec.ofNat 32 q) seq (t / 8)).getD k 0 := by
    intro k hk
    rw [show t / 8 = c.counter.toNat - 1 by omega, ← c2.hash, g_eq _ _ (by omega),
      List.getD_eq_getElem _ _ (by simp; omega)]
    simp
  simp only [stream]
  rw [show t % 8 = c.i by omega, hg _ (by omega), hg _ (by omega), hg _ (by omega), hg _ (by omega)]

theorem and_mask (w : W) (k : Nat) (hk : k ≤ 32) : (w &&& BitVec.ofNat 32 (2 ^ k - 1)).toNat = w.toNat % 2 ^ k := by
  have : 2 ^ k ≤ 2 ^ 32 := Nat.pow_le_pow_right (by decide) hk
  have h0 : 0 < 2 ^ k := Nat.pow_pos (by decide)
  rw [BitVec.toNat_and, BitVec.toNat_ofNat, Nat.mod_eq_of_lt (by omega), Nat.and_two_pow_sub_one_eq_mod]

theorem clog_le {q : ℕ} (hq : q ≤ 0xfffffffb) : Nat.clog 2 q ≤ 32 :=
  Nat.clog_le_of_le_pow (le_trans hq (by decide))

theorem PrngAt.zzp (jk : Nat → W) {seed : List Byte} (hs : seed.length = 32) {q : ℕ} {seq : W} {d : Nat} :
    ∀ {t : Nat} {ctx : Prng} {fuel : Nat}, PrngAt seed q seq t ctx → t + d < 8 * (2 ^ 31 - 1) → d < fuel →
    (∀ t', t ≤ t' → t' < t + d → q ≤ draw seed q seq t') → draw seed q seq (t + d) < q →
    Ok (prng_ZZp jk fuel ctx) (fun r => Bal q r.1 ∧
      (q : Int) ∣ r.1 - draw seed q seq (t + d) ∧ PrngAt seed q seq (t + d + 1) r.2) := by
  induction d with
  | zero =>
    intro t ctx fuel h ht hf _ hacc
    obtain ⟨k, rfl⟩ : ∃ k, fuel = k + 1 := ⟨fuel - 1, by omega⟩
    rw [Nat.add_zero] at *
    rw [prng_ZZp, Ok_bind]
    refine (h.u32 jk hs (by omega)).mono ?_
    rintro ⟨w, c⟩ ⟨h1, h2⟩
    simp only at h1 h2 ⊢
    unfold draw at *
    rw [h2.mask, h2.prime, h1, and_mask _ _ (clog_le h2.field.le_max), if_pos hacc, Ok_bind]
    refine (C01_init q c.field h2.field _).mono ?_
    rintro z ⟨z1, z2⟩
    rw [Ok_ok]
    exact ⟨z1, z2, h2⟩
  | succ d ih =>
    intro t ctx fuel h ht hf hrej hacc
    obtain ⟨k, rfl⟩ : ∃ k, fuel = k + 1 := ⟨fuel - 1, by omega⟩
    rw [prng_ZZp, Ok_bind]
    refine (h.u32 jk hs (by omega)).mono ?_
    rintro ⟨w, c⟩ ⟨h1, h2⟩
    simp only at h1 h2 ⊢
    have hr := hrej t (le_refl _) (by omega)
    have hx : (w &&& c.mask).toNat = draw seed q seq t := by
      rw [h2.mask, h1, and_mask _ _ (clog_le h2.field.le_max)]; rfl
    rw [hx, h2.prime, if_neg (by omega)]
    have e : t + (d + 1) = t + 1 + d := by omega
    rw [e] at hacc ⊢
    exact ih h2 (by omega) (by omega) (fun t' a b => hrej t' (by omega) (by omega)) hacc

theorem mask_spec (q : ℕ) (hq : q ≤ 0xfffffffb) : Ok (prng_mask q) (fun m => m = 2 ^ Nat.clog 2 q) := by
  unfold prng_mask
  have hle : Nat.clog 2 q ≤ 32 := clog_le hq
  refine Ok_whileFuel (fun m => 33 - Nat.log 2 m) (I := fun m => ∃ e, m = 2 ^ e ∧ e ≤ Nat.clog 2 q)
    (Q := fun m => m = 2 ^ Nat.clog 2 q) ?_ 64 1 ⟨0, rfl, Nat.zero_le _⟩ ?_
  · rintro m ⟨e, rfl, he⟩
    by_cases hlt : 2 ^ e < q
    · rw [if_pos hlt, Ok_ok]
      have : e < Nat.clog 2 q := (Nat.lt_clog_iff_pow_lt (by decide)).2 hlt
      simp only
      rw [← pow_succ']
      exact ⟨⟨e + 1, rfl, this⟩, by rw [Nat.log_pow (by decide), Nat.log_pow (by decide)]; omega⟩
    · rw [if_neg hlt, Ok_ok]
      have : Nat.clog 2 q ≤ e := Nat.clog_le_of_le_pow (by omega)
      simp only
      congr 1; omega
  · simp

theorem seed_spec (jk : Nat → W) (seed : Array B) (q : ℕ) (seq : W) (ctx : Prng) (hs : seed.size = 32)
    (h2 : 2 ≤ q) (hm : q ≤ 0xfffffffb) (hb : ctx.block.size = 44) (hh : ctx.hash.size = 32) :
    Ok (prng_seed jk seed q seq ctx) (PrngAt seed.toList q seq 0) := by
  unfold prng_seed
  rw [Ok_bind]
  refine Ok_forRange_imp (I := fun k (b : Array B) => b.size = 44 ∧ ∀ i, i < k → b.g i = seed.g i)
    (by omega) ⟨hb, by omega⟩ ?_ ?_
  · rintro i b - hi ⟨b1, b2⟩
    rw [Ok_bind, Ok_rd]
    refine ⟨by omega, ?_⟩
    rw [Ok_wr]
    refine ⟨by omega, by simpa using b1, ?_⟩
    intro t ht
    by_cases he : t = i
    · subst he; rw [g_upd_eq _ _ _ (by omega)]
    · rw [g_upd_ne _ _ _ _ he, b2 t (by omega)]
  rintro b ⟨b1, b2⟩
  rw [Ok_bind]
  refine (mask_spec q hm).mono ?_
  intro m hmk
  rw [Ok_bind]
  refine (HOST_l2c_spec _ b 32 (by omega)).mono ?_
  rintro c ⟨c1, c2, c3⟩
  rw [Ok_bind]
  refine (HOST_l2c_spec _ c 36 (by omega)).mono ?_
  rintro d ⟨d1, d2, d3⟩
  rw [Ok_bind]
  refine (HOST_l2c_spec _ d 40 (by omega)).mono ?_
  rintro e ⟨e1, e2, e3⟩
  rw [Ok_bind]
  refine (C01_field_init q h2 hm).mono ?_
  intro F hF
  refine (rehash_spec jk seed.toList (by simpa using hs) q seq
    { ctx with block := e, prime := q % 2 ^ 32, mask := BitVec.ofNat 32 (m - 1), counter := 0, field := F }
    ?_ (by rw [hmk]) hF hh (le_refl _) (by simp) ?_).mono ?_
  · exact Nat.mod_eq_of_lt (by omega)
  · refine ⟨by simp only; omega, ?_, ?_, ?_, ?_⟩
    · intro i hi
      simp only
      rw [e3 i (by omega), d3 i (by omega), c3 i (by omega), b2 i hi, g_eq _ _ (by omega),
        List.getD_eq_getElem _ _ (by simp; omega)]
      simp
    · intro i hi
      simp only
      rw [e3 _ (by omega), d3 _ (by omega), c2 i hi]
    · intro i hi
      simp only
      rw [e3 _ (by omega), d2 i hi]
      rfl
    · intro i hi
      simp only
      rw [e2 i hi]
  · rintro c ⟨-, -, h3⟩
    exact h3

theorem seed_simple_spec (jk : Nat → W) (jkb : Nat → B) (q : ℕ) (seed : BitVec 64) (seq : W) (ctx : Prng)
    (h2 : 2 ≤ q) (hm : q ≤ 0xfffffffb) (hb : ctx.block.size = 44) (hh : ctx.hash.size = 32) :
    Ok (prng_seed_simple jk jkb q seed seq ctx) (PrngAt (simpleSeed seed) q seq 0) := by
  have w1 : (seed &&& 0xffffffff#64).truncate 32 = seed.extractLsb' 0 32 := by
    apply BitVec.eq_of_toNat_eq
    have h1 : (0xffffffff#64).toNat = 2 ^ 32 - 1 := by decide
    rw [BitVec.truncate_eq_setWidth, BitVec.toNat_setWidth, BitVec.toNat_and, h1,
      Nat.and_two_pow_sub_one_eq_mod, BitVec.extractLsb'_toNat, Nat.shiftRight_zero, Nat.mod_mod]
  have w2 : (seed >>> 32).truncate 32 = seed.extractLsb' 32 32 := by
    apply BitVec.eq_of_toNat_eq
    rw [BitVec.truncate_eq_setWidth, BitVec.toNat_setWidth, BitVec.toNat_ushiftRight,
      BitVec.extractLsb'_toNat]
  unfold prng_seed_simple
  rw [w1, w2, Ok_bind]
  have hsz : (mkArr 32 jkb).size = 32 := size_mkArr _ _
  generalize mkArr 32 jkb = a0 at *
  refine (HOST_l2c_spec (seed.extractLsb' 0 32) a0 0 (by omega)).mono ?_
  intro b hbb
  have b1 := hbb.1
  have b2 := hbb.2.1
  clear hbb
  rw [Ok_bind]
  refine (HOST_l2c_spec _ b 4 (by omega)).mono ?_
  rintro c ⟨c1, c2, c3⟩
  rw [Ok_bind]
  refine Ok_forRange_imp (I := fun k (d : Array B) => d.size = 32 ∧ (∀ i, i < 8 → d.g i = c.g i) ∧
    ∀ i, 8 ≤ i → i < 4 * k → d.g i = 0) (by omega) ⟨by omega, fun _ _ => rfl, by omega⟩ ?_ ?_
  · rintro k d hk1 hk2 ⟨d1, d2, d3⟩
    refine (HOST_l2c_spec _ d (4 * k) (by omega)).mono ?_
    rintro e ⟨e1, e2, e3⟩
    refine ⟨by omega, fun i hi => by rw [e3 i (by omega), d2 i hi], ?_⟩
    intro i h1 h2
    by_cases hlt : i < 4 * k
    · rw [e3 i (by omega), d3 i h1 hlt]
    · have := e2 (i - 4 * k) (by omega)
      rw [show 4 * k + (i - 4 * k) = i by omega] at this
      rw [this]
      have hz : ∀ t : Fin 4, (bytes (0 : W)).getD t 0 = 0 := by decide
      exact hz ⟨i - 4 * k, by omega⟩
  rintro d ⟨d1, d2, d3⟩
  have hl : d.toList = simpleSeed seed := by
    have hbl : ∀ w : W, (bytes w).length = 4 := fun w => rfl
    unfold simpleSeed
    apply List.ext_getElem
    · simp [hbl, d1]
    intro i h1 h2
    have hi : i < 32 := by simpa [d1] using h1
    have hg : d.toList[i] = d.g i := by rw [g_eq _ _ (by omega)]; simp
    rw [hg, ← List.getD_eq_getElem (d := 0)]
    by_cases i1 : i < 4
    · rw [List.append_assoc, List.getD_append _ _ _ _ (by rw [hbl]; exact i1), d2 i (by omega), c3 i (by omega)]
      have := b2 i i1
      rw [Nat.zero_add] at this
      exact this
    by_cases i2 : i < 8
    · rw [List.getD_append _ _ _ _ (by simp [hbl]; omega), List.getD_append_right _ _ _ _ (by rw [hbl]; omega),
        d2 i i2, hbl, ← c2 (i - 4) (by omega)]
      congr 1; omega
    · rw [List.getD_append_right _ _ _ _ (by simp [hbl]; omega), d3 i (by omega) (by omega)]
      simp only [List.getD_eq_getElem?_getD, List.getElem?_replicate]
      split <;> rfl
  rw [← hl]
  exact seed_spec jk d q seq ctx d1 h2 hm hb hh

end Spasm
