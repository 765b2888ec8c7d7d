import Verif.Model.Sha256
import Verif.Spec.Sha256
import Mathlib.Tactic.IntervalCases
import Mathlib.Data.List.GetD

namespace Spasm.Sha

open Fips

def _root_.Spasm.Fips.Regs.get (s : Regs) (t : Nat) : W :=
  match t with
  | 0 => s.a | 1 => s.b | 2 => s.c | 3 => s.d | 4 => s.e | 5 => s.f | 6 => s.g | _ => s.h

/-! ### Constants -/

theorem root_eq {k n r : Nat} (hk : 0 < k) (h1 : r ^ k ≤ n) (h2 : n < (r + 1) ^ k) : root k n = r := by
  unfold root
  have hrn : r ≤ n := le_trans (Nat.le_self_pow (by omega) r) h1
  apply le_antisymm
  · by_contra hlt
    have hs := Nat.findGreatest_spec (P := fun r => r ^ k ≤ n) hrn h1
    have : (r + 1) ^ k ≤ (Nat.findGreatest (fun r => r ^ k ≤ n) n) ^ k :=
      Nat.pow_le_pow_left (by omega) k
    omega
  · exact Nat.le_findGreatest hrn h1

/-- Integer cube roots of the 64 constants. -/
def roots3 : List Nat := (List.range 64).map fun t => icbrt (primes.getD t 0 * 2 ^ 96)
where
  /-- bitwise search -/
  icbrt (n : Nat) : Nat :=
    (List.range 40).foldl (fun r b => let r' := r + 2 ^ (39 - b); if r' ^ 3 ≤ n then r' else r) 0

theorem K_eq (t : Nat) (ht : t < 64) : K256.g t = K t := by
  have h : ∀ t : Fin 64, (roots3.getD t 0) ^ 3 ≤ primes.getD t 0 * 2 ^ 96 ∧
      primes.getD t 0 * 2 ^ 96 < (roots3.getD t 0 + 1) ^ 3 ∧
      K256.g t = BitVec.ofNat 32 (roots3.getD t 0) := by decide +kernel
  obtain ⟨h1, h2, h3⟩ := h ⟨t, ht⟩
  simp only at h1 h2 h3
  rw [h3]
  unfold K
  rw [root_eq (by decide) h1 h2]

theorem H0_eq (t : Nat) (ht : t < 8) : SHA256_init.h.g t = H0.get t := by
  have h : ∀ t : Fin 8, (Nat.sqrt (primes.getD t 0 * 2 ^ 64)) ^ 2 ≤ primes.getD t 0 * 2 ^ 64 ∧
      primes.getD t 0 * 2 ^ 64 < (Nat.sqrt (primes.getD t 0 * 2 ^ 64) + 1) ^ 2 := by
    intro t
    refine ⟨?_, ?_⟩
    · rw [Nat.pow_two]; exact Nat.sqrt_le _
    · rw [Nat.pow_two]; exact Nat.lt_succ_sqrt _
  have hv : ∀ t : Fin 8, SHA256_init.h.g t = BitVec.ofNat 32 (Nat.sqrt (primes.getD t 0 * 2 ^ 64)) := by
    decide +kernel
  have key : ∀ t : Fin 8, SHA256_init.h.g t = BitVec.ofNat 32 (root 2 (primes.getD t 0 * 2 ^ (2 * 32))) := by
    intro t
    rw [hv, root_eq (by decide) (h t).1 (h t).2]
  interval_cases t
  · exact key 0
  · exact key 1
  · exact key 2
  · exact key 3
  · exact key 4
  · exact key 5
  · exact key 6
  · exact key 7

/-! ### Functions -/

theorem rotate_eq (x : W) (n : Nat) (hn : n ≤ 32) : ROTATE x (32 - n) = rotr n x := by
  unfold ROTATE rotr
  have : x &&& 0xffffffff#32 = x := by
    have : (0xffffffff#32) = BitVec.allOnes 32 := by decide
    rw [this, BitVec.and_allOnes]
  rw [this, BitVec.or_comm, show 32 - (32 - n) = n from by omega]

theorem Sigma0_eq (x : W) : Sigma0 x = S0 x := by
  unfold Sigma0 S0
  rw [← rotate_eq x 2 (by decide), ← rotate_eq x 13 (by decide), ← rotate_eq x 22 (by decide)]
theorem Sigma1_eq (x : W) : Sigma1 x = S1 x := by
  unfold Sigma1 S1
  rw [← rotate_eq x 6 (by decide), ← rotate_eq x 11 (by decide), ← rotate_eq x 25 (by decide)]
theorem sigma0_eq (x : W) : sigma0 x = s0 x := by
  unfold sigma0 s0
  rw [← rotate_eq x 7 (by decide), ← rotate_eq x 18 (by decide)]
theorem sigma1_eq (x : W) : sigma1 x = s1 x := by
  unfold sigma1 s1
  rw [← rotate_eq x 17 (by decide), ← rotate_eq x 19 (by decide)]

theorem word_eq (b0 b1 b2 b3 : B) :
    ((b0.zeroExtend 64 <<< 24) ||| (b1.zeroExtend 64 <<< 16) ||| (b2.zeroExtend 64 <<< 8) |||
      b3.zeroExtend 64).truncate 32 = word b0 b1 b2 b3 := by
  apply BitVec.eq_of_getLsbD_eq
  intro i hi
  have hw : (word b0 b1 b2 b3).getLsbD i = if i < 8 then b3.getLsbD i else if i - 8 < 8 then b2.getLsbD (i - 8)
      else if i - 8 - 8 < 8 then b1.getLsbD (i - 8 - 8) else b0.getLsbD (i - 8 - 8 - 8) := by
    show BitVec.getLsbD (b0 ++ b1 ++ b2 ++ b3) i = _
    rw [BitVec.getLsbD_append, BitVec.getLsbD_append, BitVec.getLsbD_append]
  rw [hw]
  simp only [BitVec.truncate_eq_setWidth, BitVec.getLsbD_or,
    BitVec.getLsbD_shiftLeft, BitVec.getLsbD_setWidth]
  have e1 : i - 8 - 8 = i - 16 := by omega
  have e2 : i - 16 - 8 = i - 24 := by omega
  rw [e1, e2]
  by_cases h1 : i < 8
  · simp [h1, show i < 16 by omega, show i < 24 by omega, show i < 64 by omega, hi]
  by_cases h2 : i < 16
  · simp [h1, h2, hi, show i < 64 by omega, show i < 24 by omega, show i - 8 < 64 by omega,
      show i - 8 < 8 by omega, BitVec.getLsbD_of_ge b3 _ (show 8 ≤ i by omega)]
  by_cases h3 : i < 24
  · simp [h1, h2, h3, hi, show i < 64 by omega, show i - 8 < 64 by omega, show i - 16 < 64 by omega,
      show ¬ i - 8 < 8 by omega, show i - 16 < 8 by omega,
      BitVec.getLsbD_of_ge b3 _ (show 8 ≤ i by omega), BitVec.getLsbD_of_ge b2 _ (show 8 ≤ i - 8 by omega)]
  · simp [h1, h2, h3, hi, show i < 64 by omega, show i - 8 < 64 by omega, show i - 16 < 64 by omega,
      show i - 24 < 64 by omega, show ¬ i - 8 < 8 by omega, show ¬ i - 16 < 8 by omega,
      BitVec.getLsbD_of_ge b3 _ (show 8 ≤ i by omega), BitVec.getLsbD_of_ge b2 _ (show 8 ≤ i - 8 by omega),
      BitVec.getLsbD_of_ge b1 _ (show 8 ≤ i - 16 by omega)]

theorem byte_eq (l : W) (k : Nat) : ((l >>> k) &&& 0xff#32).truncate 8 = l.extractLsb' k 8 := by
  have h : (0xff#32) = (BitVec.allOnes 8).setWidth 32 := by decide
  ext i hi
  rw [h]
  simp only [BitVec.truncate_eq_setWidth, BitVec.getElem_setWidth, BitVec.getLsbD_and,
    BitVec.getLsbD_setWidth, BitVec.getLsbD_allOnes, BitVec.getLsbD_ushiftRight,
    BitVec.getElem_extractLsb']
  simp [hi, show i < 32 by omega]

theorem HOST_c2l_ok (c : Array B) (off : Nat) (h : off + 4 ≤ c.size) :
    HOST_c2l c off = .ok (word (c.g off) (c.g (off + 1)) (c.g (off + 2)) (c.g (off + 3))) := by
  have hr : ∀ i, i < c.size → rd c i = .ok (c.g i) := by
    intro i hi
    have : Ok (rd c i) (fun a => a = c.g i) := by rw [Ok_rd]; exact ⟨hi, rfl⟩
    rw [Ok_iff] at this
    obtain ⟨a, h1, h2⟩ := this
    rw [h1, h2]
  unfold HOST_c2l
  rw [hr _ (by omega), hr _ (by omega), hr _ (by omega), hr _ (by omega), ← word_eq]
  rfl

theorem HOST_l2c_spec (l : W) (c : Array B) (off : Nat) (h : off + 4 ≤ c.size) :
    Ok (HOST_l2c l c off) (fun c' => c'.size = c.size ∧
      (∀ i, i < 4 → c'.g (off + i) = (bytes l).getD i 0) ∧
      ∀ i, i < off ∨ off + 4 ≤ i → c'.g i = c.g i) := by
  unfold HOST_l2c
  simp only [Ok_bind, Ok_wr, size_upd]
  refine ⟨by omega, by omega, by omega, by omega, trivial, ?_, ?_⟩
  · intro i hi
    have e0 := byte_eq l 0
    rw [BitVec.ushiftRight_zero] at e0
    rw [byte_eq, byte_eq, byte_eq, e0]
    unfold bytes
    interval_cases i
    · rw [g_upd_ne _ _ _ _ (by omega), g_upd_ne _ _ _ _ (by omega), g_upd_ne _ _ _ _ (by omega),
        Nat.add_zero, g_upd_eq _ _ _ (by omega)]; rfl
    · rw [g_upd_ne _ _ _ _ (by omega), g_upd_ne _ _ _ _ (by omega), g_upd_eq _ _ _ (by simp; omega)]; rfl
    · rw [g_upd_ne _ _ _ _ (by omega), g_upd_eq _ _ _ (by simp; omega)]; rfl
    · rw [g_upd_eq _ _ _ (by simp; omega)]; rfl
  · intro i hi
    rw [g_upd_ne _ _ _ _ (by omega), g_upd_ne _ _ _ _ (by omega), g_upd_ne _ _ _ _ (by omega),
      g_upd_ne _ _ _ _ (by omega)]

/-! ### Rounds -/

theorem reg_lt (i t : Nat) : reg i t < 8 := Nat.mod_lt _ (by decide)

theorem reg_succ (i t : Nat) (ht : t < 7) : reg (i + 1) (t + 1) = reg i t := by
  unfold reg; omega

theorem reg_zero (i : Nat) : reg (i + 1) 0 = reg i 7 := by
  unfold reg; omega

theorem reg_ne (i t u : Nat) (ht : t < 8) (hu : u < 8) (h : t ≠ u) : reg i t ≠ reg i u := by
  unfold reg; omega

theorem round_spec (i : Nat) (hi : i < 64) (w : W) (v : Array W) (s : Regs) (hv : v.size = 8)
    (h : ∀ t, t < 8 → v.g (reg i t) = s.get t) :
    Ok (ROUND_00_15 i w v) (fun v' => v'.size = 8 ∧
      ∀ t, t < 8 → v'.g (reg (i + 1) t) = (Fips.round s (K i) w).get t) := by
  unfold ROUND_00_15
  rw [Ok_bind, Ok_rd]
  refine ⟨by have : K256.size = 64 := rfl; omega, ?_⟩
  simp only [Ok_ok, size_upd]
  refine ⟨hv, ?_⟩
  have hr : ∀ t, reg i t < v.size := fun t => by rw [hv]; exact reg_lt i t
  have n37 := reg_ne i 3 7 (by decide) (by decide) (by decide)
  rw [K_eq i hi, h 0 (by decide), h 1 (by decide), h 2 (by decide), h 4 (by decide), h 5 (by decide),
    h 6 (by decide), h 7 (by decide), g_upd_ne _ _ _ _ n37, h 3 (by decide)]
  rw [g_upd_ne _ _ _ _ n37.symm, g_upd_eq _ _ _ (hr 7)]
  intro t ht
  rcases Nat.eq_zero_or_pos t with rfl | htp
  · rw [reg_zero, g_upd_eq _ _ _ (by simp; exact hr 7)]
    simp only [Regs.get, Fips.round, Sigma0_eq, Sigma1_eq]
    show S0 s.a + maj s.a s.b s.c + (w + (s.h + S1 s.e + ch s.e s.f s.g + K i)) =
      s.h + S1 s.e + ch s.e s.f s.g + K i + w + (S0 s.a + maj s.a s.b s.c)
    ac_rfl
  · obtain ⟨u, rfl⟩ : ∃ u, t = u + 1 := ⟨t - 1, by omega⟩
    rw [reg_succ i u (by omega), g_upd_ne _ _ _ _ (reg_ne i u 7 (by omega) (by decide) (by omega))]
    by_cases h3 : u = 3
    · subst h3
      rw [g_upd_eq _ _ _ (by simp; exact hr 3)]
      simp only [Regs.get, Fips.round, Sigma1_eq]
      show s.d + (w + (s.h + S1 s.e + ch s.e s.f s.g + K i)) =
        s.d + (s.h + S1 s.e + ch s.e s.f s.g + K i + w)
      ac_rfl
    · rw [g_upd_ne _ _ _ _ (reg_ne i u 3 (by omega) (by decide) h3),
        g_upd_ne _ _ _ _ (reg_ne i u 7 (by omega) (by decide) (by omega)), h u (by omega)]
      have hu : u < 7 := by omega
      interval_cases u <;> first | rfl | omega

theorem and15 (i : Nat) : i &&& 0x0f = i % 16 := Nat.and_two_pow_sub_one_eq_mod i 4

/-- State of the rounds. -/
structure RInv (M : Nat → Word) (s : Regs) (i : Nat) (X v : Array W) : Prop where
  xs : X.size = 16
  vs : v.size = 8
  x : ∀ t, i ≤ t + 16 → t < i → X.g (t % 16) = sched M t
  v : ∀ t, t < 8 → v.g (reg i t) = (rounds M s i).get t

theorem round2_spec (M : Nat → Word) (s : Regs) (i : Nat) (hi : 16 ≤ i) (hi' : i < 64) (X v : Array W)
    (h : RInv M s i X v) :
    Ok (ROUND_16_63 i X v) (fun r => RInv M s (i + 1) r.1 r.2) := by
  unfold ROUND_16_63
  simp only [Ok_bind, Ok_rd, Ok_wr, and15, Ok_ok]
  have hxs := h.xs
  refine ⟨by omega, by omega, by omega, by omega, by omega, ?_⟩
  have e1 := h.x (i - 15) (by omega) (by omega)
  have e2 := h.x (i - 2) (by omega) (by omega)
  have e3 := h.x (i - 16) (by omega) (by omega)
  have e4 := h.x (i - 7) (by omega) (by omega)
  rw [show (i - 15) % 16 = (i + 1) % 16 by omega] at e1
  rw [show (i - 2) % 16 = (i + 14) % 16 by omega] at e2
  rw [show (i - 16) % 16 = i % 16 by omega] at e3
  rw [show (i - 7) % 16 = (i + 9) % 16 by omega] at e4
  have hw : X.g (i % 16) + (sigma0 (X.g ((i + 1) % 16)) + sigma1 (X.g ((i + 14) % 16)) +
      X.g ((i + 9) % 16)) = sched M i := by
    rw [e1, e2, e3, e4, sigma0_eq, sigma1_eq]
    conv_rhs => rw [sched, if_neg (by omega)]
    ac_rfl
  rw [hw]
  refine (round_spec i hi' _ v _ h.vs h.v).mono ?_
  rintro v' ⟨g1, g2⟩
  refine ⟨by simp [hxs], g1, ?_, g2⟩
  intro t h1 h2
  by_cases he : t = i
  · subst he; rw [g_upd_eq _ _ _ (by omega)]
  · rw [g_upd_ne _ _ _ _ (by omega)]
    exact h.x t (by omega) (by omega)

theorem rounds_start (M : Nat → Word) (s : Regs) (jk : Nat → W) (h : Array W) (hs : h.size = 8)
    (hh : ∀ t, t < 8 → h.g t = s.get t) : RInv M s 0 (mkArr 16 jk) h := by
  refine ⟨by simp, hs, by omega, ?_⟩
  intro t ht
  rw [show reg 0 t = t from by unfold reg; omega]
  exact hh t ht

theorem block1_spec (jk : Nat → W) (h : Array W) (data : Array B) (off : Nat) (s : Regs)
    (hs : h.size = 8) (hh : ∀ t, t < 8 → h.g t = s.get t) (hd : off + 64 ≤ data.size) (f : Nat → B)
    (k : Nat) (hf : ∀ i, i < 64 → data.g (off + i) = f (64 * k + i)) :
    Ok (block1 jk h data off) (fun h' => h'.size = 8 ∧
      ∀ t, t < 8 → h'.g t = (compress s (blockWords f k)).get t) := by
  unfold block1
  rw [Ok_bind]
  refine Ok_forRange_imp (I := fun i (r : Array W × Array W) => RInv (blockWords f k) s i r.1 r.2)
    (by omega) (rounds_start _ s jk h hs hh) ?_ ?_
  · rintro i ⟨X, v⟩ - hi hI
    simp only at hI ⊢
    rw [HOST_c2l_ok _ _ (by omega)]
    have hw : word (data.g (off + 4 * i)) (data.g (off + 4 * i + 1)) (data.g (off + 4 * i + 2))
        (data.g (off + 4 * i + 3)) = sched (blockWords f k) i := by
      rw [sched, if_pos hi]
      unfold blockWords
      rw [hf _ (by omega), Nat.add_assoc, Nat.add_assoc, Nat.add_assoc, hf _ (by omega), hf _ (by omega),
        hf _ (by omega)]
      rfl
    rw [Ok_bind, Ok_ok, hw, Ok_bind, Ok_wr]
    have hxs := hI.xs
    refine ⟨by omega, ?_⟩
    rw [Ok_bind]
    refine (round_spec i (by omega) _ v _ hI.vs hI.v).mono ?_
    rintro v' ⟨g1, g2⟩
    rw [Ok_ok]
    refine ⟨by simp [hxs], g1, ?_, g2⟩
    intro t h1 h2
    by_cases he : t = i
    · subst he
      rw [show t % 16 = t from Nat.mod_eq_of_lt hi]
      exact g_upd_eq _ _ _ (by omega)
    · have := hI.x t (by omega) (by omega)
      rw [Nat.mod_eq_of_lt (by omega)] at this ⊢
      rw [← this]
      exact g_upd_ne _ _ _ _ he
  rintro ⟨X, v⟩ hI
  simp only at hI ⊢
  rw [Ok_bind]
  refine Ok_forRange_imp (I := fun i (r : Array W × Array W) => RInv (blockWords f k) s i r.1 r.2)
    (by omega) hI ?_ ?_
  · rintro i ⟨X, v⟩ h1 h2 hI
    exact round2_spec _ s i h1 h2 X v hI
  rintro ⟨X', v'⟩ hI'
  simp only at hI' ⊢
  refine Ok_forRange_imp (I := fun i (r : Array W) => r.size = 8 ∧
    ∀ t, t < 8 → r.g t = if t < i then v'.g t + s.get t else s.get t) (by omega) ⟨hs, ?_⟩ ?_ ?_
  · intro t ht; rw [hh t ht, if_neg (by omega)]
  · rintro t r - ht ⟨g1, g2⟩
    rw [Ok_bind, Ok_rd]
    refine ⟨by omega, ?_⟩
    rw [Ok_wr]
    refine ⟨by omega, by simpa using g1, ?_⟩
    intro u hu
    by_cases he : u = t
    · subst he
      rw [g_upd_eq _ _ _ (by omega), g2 u hu, if_neg (by omega), if_pos (by omega), BitVec.add_comm]
    · rw [g_upd_ne _ _ _ _ he, g2 u hu]
      by_cases h3 : u < t
      · rw [if_pos h3, if_pos (by omega)]
      · rw [if_neg h3, if_neg (by omega)]
  · rintro r ⟨g1, g2⟩
    refine ⟨g1, ?_⟩
    intro t ht
    rw [g2 t ht, if_pos ht]
    have := hI'.v t ht
    rw [show reg 64 t = t from by unfold reg; omega] at this
    rw [this]
    unfold compress
    interval_cases t <;> rfl

theorem hashBlocks_congr {f g : Nat → B} {k : Nat} (h : ∀ i, i < 64 * k → f i = g i) :
    hashBlocks f k = hashBlocks g k := by
  induction k with
  | zero => rfl
  | succ k ih =>
    have hb : ∀ t, t < 16 → blockWords f k t = blockWords g k t := by
      intro t ht
      unfold blockWords
      rw [h _ (by omega), h _ (by omega), h _ (by omega), h _ (by omega)]
    have hsc : ∀ t, sched (blockWords f k) t = sched (blockWords g k) t := by
      intro t
      induction t using Nat.strongRecOn with
      | ind t ih =>
        rw [sched]
        conv_rhs => rw [sched]
        by_cases ht : t < 16
        · rw [if_pos ht, if_pos ht, hb t ht]
        · rw [if_neg ht, if_neg ht, ih _ (by omega), ih _ (by omega), ih _ (by omega), ih _ (by omega)]
    have hr : ∀ s t, rounds (blockWords f k) s t = rounds (blockWords g k) s t := by
      intro s t
      induction t with
      | zero => rfl
      | succ t iht => rw [rounds, rounds, iht, hsc]
    rw [hashBlocks, hashBlocks, ih (fun i hi => h i (by omega))]
    unfold compress
    rw [hr]

theorem blocks_spec (jk : Nat → W) (h : Array W) (data : Array B) (off num : Nat) (f : Nat → B) (k : Nat)
    (hs : h.size = 8) (hh : ∀ t, t < 8 → h.g t = (hashBlocks f k).get t)
    (hd : off + 64 * num ≤ data.size) (hf : ∀ i, i < 64 * num → data.g (off + i) = f (64 * k + i)) :
    Ok (sha256_block_data_order jk h data off num) (fun h' => h'.size = 8 ∧
      ∀ t, t < 8 → h'.g t = (hashBlocks f (k + num)).get t) := by
  unfold sha256_block_data_order
  refine Ok_forRange (I := fun b (h' : Array W) => h'.size = 8 ∧
      ∀ t, t < 8 → h'.g t = (hashBlocks f (k + b)).get t) (by omega) ⟨hs, hh⟩ ?_
  rintro b h' - hb ⟨g1, g2⟩
  refine block1_spec jk h' data _ _ g1 g2 (by omega) f (k + b) ?_
  intro i hi
  rw [Nat.add_assoc, hf _ (by omega)]
  congr 1; omega

/-! ### Memory -/

theorem memcpy_spec (dst : Array B) (d : Nat) (src : Array B) (s k : Nat) (hd : d + k ≤ dst.size)
    (hs : s + k ≤ src.size) :
    Ok (memcpy dst d src s k) (fun r => r.size = dst.size ∧ (∀ t, t < k → r.g (d + t) = src.g (s + t)) ∧
      ∀ t, t < d ∨ d + k ≤ t → r.g t = dst.g t) := by
  unfold memcpy
  refine Ok_forRange (I := fun i (r : Array B) => r.size = dst.size ∧
    (∀ t, t < i → r.g (d + t) = src.g (s + t)) ∧ ∀ t, t < d ∨ d + i ≤ t → r.g t = dst.g t)
    (by omega) ⟨rfl, by omega, fun _ _ => rfl⟩ ?_
  rintro i r - hi ⟨h1, h2, h3⟩
  rw [Ok_bind, Ok_rd]
  refine ⟨by omega, ?_⟩
  rw [Ok_wr]
  refine ⟨by omega, by simpa using h1, ?_, ?_⟩
  · intro t ht
    by_cases he : t = i
    · subst he; rw [g_upd_eq _ _ _ (by omega)]
    · rw [g_upd_ne _ _ _ _ (by omega), h2 t (by omega)]
  · intro t ht
    rw [g_upd_ne _ _ _ _ (by omega), h3 t (by omega)]

theorem memset0_spec (dst : Array B) (d k : Nat) (hd : d + k ≤ dst.size) :
    Ok (memset0 dst d k) (fun r => r.size = dst.size ∧ (∀ t, d ≤ t → t < d + k → r.g t = 0) ∧
      ∀ t, t < d ∨ d + k ≤ t → r.g t = dst.g t) := by
  unfold memset0
  refine Ok_forRange (I := fun i (r : Array B) => r.size = dst.size ∧
    (∀ t, d ≤ t → t < d + i → r.g t = 0) ∧ ∀ t, t < d ∨ d + i ≤ t → r.g t = dst.g t)
    (by omega) ⟨rfl, by omega, fun _ _ => rfl⟩ ?_
  rintro i r - hi ⟨h1, h2, h3⟩
  rw [Ok_wr]
  refine ⟨by omega, by simpa using h1, ?_, ?_⟩
  · intro t ht1 ht2
    by_cases he : t = d + i
    · subst he; rw [g_upd_eq _ _ _ (by omega)]
    · rw [g_upd_ne _ _ _ _ (by omega), h2 t ht1 (by omega)]
  · intro t ht
    rw [g_upd_ne _ _ _ _ (by omega), h3 t (by omega)]

/-! ### Streaming -/

/-- The context represents the first `n` bytes of `f`. -/
structure Rep (f : Nat → B) (n : Nat) (c : Ctx) : Prop where
  hs : c.h.size = 8
  h : ∀ t, t < 8 → c.h.g t = (hashBlocks f (n / 64)).get t
  ds : c.data.size = 64
  num : c.num = n % 64
  data : ∀ i, i < n % 64 → c.data.g i = f (64 * (n / 64) + i)
  len : c.Nh.toNat * 2 ^ 32 + c.Nl.toNat = 8 * n % 2 ^ 64
  md : c.md_len = 32

theorem Rep.init (f : Nat → B) : Rep f 0 SHA256_init :=
  ⟨rfl, H0_eq, by simp [SHA256_init], rfl, by omega, by decide, rfl⟩

theorem carry_nat (a b n len : Nat) 
    (h : a * 4294967296 + b = 8 * n % 18446744073709551616) (k : Nat)
    (hk : k = (b + 8 * len % 4294967296) / 4294967296)  :
    ((a + k) % 4294967296 +
      len / 536870912 % 4294967296) % 4294967296 * 4294967296 +
      (b + 8 * len % 4294967296) % 4294967296 = 8 * (n + len) % 18446744073709551616 := by
  have h1 : len / 536870912 = 8 * len / 4294967296 := by omega
  rw [h1, Nat.mul_add]
  generalize 8 * len = L at *
  have h2 : (8 * n + L) % 18446744073709551616 = (8 * n % 18446744073709551616 + L) % 18446744073709551616 := by
    rw [Nat.mod_add_mod]
  rw [h2, ← h]
  generalize hx : L % 4294967296 = x at *
  generalize hy : L / 4294967296 = y at *
  have h3 : L = 4294967296 * y + x := by rw [← hx, ← hy]; exact (Nat.div_add_mod L 4294967296).symm
  have h4 : b + x = 4294967296 * k + (b + x) % 4294967296 := by rw [hk]; exact (Nat.div_add_mod _ _).symm
  have h5 : (b + x) % 4294967296 < 4294967296 := Nat.mod_lt _ (by decide)
  generalize (b + x) % 4294967296 = r at *
  rw [← Nat.add_mod]
  clear h hk h2 h1 hx hy
  have h6 : a * 4294967296 + b + L = 4294967296 * (a + k + y) + r := by omega
  rw [h6]
  have h7 := Nat.div_add_mod (a + k + y) 4294967296
  have h8 := Nat.mod_lt (a + k + y) (show 0 < 4294967296 by decide)
  generalize (a + k + y) % 4294967296 = z at *
  generalize (a + k + y) / 4294967296 = w at *
  rw [← h7]
  rw [show 4294967296 * (4294967296 * w + z) + r = (z * 4294967296 + r) + 18446744073709551616 * w by omega,
    Nat.add_mul_mod_self_left, Nat.mod_eq_of_lt (by omega)]

theorem count_spec (c : Ctx) (n len : Nat)
    (h : c.Nh.toNat * 2 ^ 32 + c.Nl.toNat = 8 * n % 2 ^ 64) :
    (update_count c len).Nh.toNat * 2 ^ 32 + (update_count c len).Nl.toNat = 8 * (n + len) % 2 ^ 64 := by
  have e1 : (BitVec.ofNat 32 len <<< 3).toNat = (8 * len) % 2 ^ 32 := by
    rw [BitVec.toNat_shiftLeft, BitVec.toNat_ofNat, Nat.shiftLeft_eq]
    omega
  have e2 : (BitVec.ofNat 32 (len >>> 29)).toNat = len / 2 ^ 29 % 2 ^ 32 := by
    rw [BitVec.toNat_ofNat, Nat.shiftRight_eq_div_pow]
  have l1 := c.Nh.isLt
  have l2 := c.Nl.isLt
  unfold update_count
  simp only
  have e3 : (c.Nl + BitVec.ofNat 32 len <<< 3).toNat = (c.Nl.toNat + 8 * len % 2 ^ 32) % 2 ^ 32 := by
    rw [BitVec.toNat_add, e1]
  generalize hna : c.Nh.toNat = a at *
  have p32 : (2 : Nat) ^ 32 = 4294967296 := by decide
  have p29 : (2 : Nat) ^ 29 = 536870912 := by decide
  have p64 : (2 : Nat) ^ 64 = 18446744073709551616 := by decide
  rw [p32] at e1 e2 e3 l1 l2 h
  rw [p64] at h
  rw [p29] at e2
  rw [p32, p64]
  generalize hb : c.Nl.toNat = b at *
  by_cases hc : c.Nl + BitVec.ofNat 32 len <<< 3 < c.Nl
  · rw [if_pos hc]
    rw [BitVec.lt_def, e3, hb] at hc
    rw [BitVec.toNat_add, BitVec.toNat_add, e2, e3, p32]
    have : BitVec.toNat (1 : W) = 1 := rfl
    rw [this]
    have hk : 1 = (b + 8 * len % 4294967296) / 4294967296 := by clear h; omega
    rw [hna]
    exact carry_nat a b n len h 1 hk
  · rw [if_neg hc]
    rw [BitVec.lt_def, e3, hb] at hc
    rw [BitVec.toNat_add, e2, e3, p32]
    rw [hna]
    have hk : 0 = (b + 8 * len % 4294967296) / 4294967296 := by clear h; omega
    have := carry_nat a b n len h 0 hk
    rw [Nat.add_zero, Nat.mod_eq_of_lt l1] at this
    exact this

/-- `update_rest`, the counter being already updated. -/
theorem rest_spec (jk : Nat → W) (f : Nat → B) (n : Nat) (c : Ctx) (data : Array B) (off len : Nat)
    (hs : c.h.size = 8) (hh : ∀ t, t < 8 → c.h.g t = (hashBlocks f n).get t) (hds : c.data.size = 64)
    (hnum : c.num = 0) (hlen : c.Nh.toNat * 2 ^ 32 + c.Nl.toNat = 8 * (64 * n + len) % 2 ^ 64)
    (hmd : c.md_len = 32) (hd : off + len ≤ data.size)
    (hf : ∀ i, i < len → data.g (off + i) = f (64 * n + i)) :
    Ok (update_rest jk c data off len) (Rep f (64 * n + len)) := by
  have hdiv : (64 * n + len) / 64 = n + len / 64 := by omega
  have hmod : (64 * n + len) % 64 = len - len / 64 * 64 := by omega
  unfold update_rest
  rw [Ok_bind]
  refine (blocks_spec jk c.h data off (len / 64) f n hs hh (by omega) (fun i hi => hf i (by omega))).mono ?_
  rintro h' ⟨g1, g2⟩
  simp only
  by_cases hl : len - len / 64 * 64 ≠ 0
  · rw [if_pos hl, Ok_bind]
    refine (memcpy_spec c.data 0 data _ _ (by omega) (by omega)).mono ?_
    rintro p ⟨k1, k2, -⟩
    rw [Ok_ok]
    refine ⟨g1, ?_, by rw [k1]; exact hds, hmod.symm, ?_, hlen, hmd⟩
    · rw [hdiv]; exact g2
    · intro i hi
      rw [hmod] at hi
      have := k2 i hi
      rw [Nat.zero_add] at this
      simp only
      rw [this, Nat.add_assoc, hf _ (by omega), hdiv]
      congr 1; omega
  · rw [if_neg hl, Ok_ok]
    refine ⟨g1, ?_, hds, ?_, ?_, hlen, hmd⟩
    · rw [hdiv]; exact g2
    · simp only; rw [hnum]; omega
    · intro i hi; omega

theorem update_spec (jk : Nat → W) (f : Nat → B) (n : Nat) (c : Ctx) (data : Array B) (len : Nat)
    (h : Rep f n c) (hd : len ≤ data.size)
    (hf : ∀ i, i < len → data.g i = f (n + i)) :
    Ok (SHA256_update jk c data len) (Rep f (n + len)) := by
  unfold SHA256_update
  by_cases h0 : len = 0
  · rw [if_pos h0, Ok_ok, h0]; exact h
  rw [if_neg h0]
  simp only
  have hcnt := count_spec c n len h.len
  have hc' : update_count c len = ⟨c.h, (update_count c len).Nl, (update_count c len).Nh, c.data, c.num,
    c.md_len⟩ := rfl
  generalize (update_count c len).Nl = Nl at *
  generalize (update_count c len).Nh = Nh at *
  rw [hc']
  simp only
  have hn := h.num
  have hds := h.ds
  by_cases h1 : c.num ≠ 0
  · rw [if_pos h1]
    by_cases h2 : 64 ≤ len ∨ 64 ≤ len + c.num
    · rw [if_pos h2, Ok_bind]
      refine (memcpy_spec c.data c.num data 0 (64 - c.num) (by omega) (by omega)).mono ?_
      rintro p ⟨k1, k2, k3⟩
      rw [Ok_bind]
      refine (blocks_spec jk c.h p 0 1 f (n / 64) h.hs h.h (by omega) ?_).mono ?_
      · intro i hi
        rw [Nat.zero_add]
        by_cases hlt : i < c.num
        · rw [k3 i (Or.inl hlt), h.data i (by omega)]
        · have := k2 (i - c.num) (by omega)
          rw [show c.num + (i - c.num) = i by omega, Nat.zero_add, hf _ (by omega)] at this
          rw [this]; congr 1; omega
      rintro h' ⟨g1, g2⟩
      rw [Ok_bind]
      refine (memset0_spec p 0 64 (by omega)).mono ?_
      rintro p' ⟨m1, -, -⟩
      have := rest_spec jk f (n / 64 + 1) ⟨h', Nl, Nh, p', 0, c.md_len⟩ data (64 - c.num)
        (len - (64 - c.num)) g1 g2 (by simp only; omega) rfl
        (by simp only; rw [hcnt]; congr 1; omega) h.md (by omega) ?_
      · rw [show 64 * (n / 64 + 1) + (len - (64 - c.num)) = n + len by omega] at this
        exact this
      · intro i hi
        rw [hf _ (by omega)]; congr 1; omega
    · rw [if_neg h2, Ok_bind]
      refine (memcpy_spec c.data c.num data 0 len (by omega) (by omega)).mono ?_
      rintro p ⟨k1, k2, k3⟩
      rw [Ok_ok]
      have hdiv : (n + len) / 64 = n / 64 := by omega
      have hmod : (n + len) % 64 = n % 64 + len := by omega
      refine ⟨h.hs, ?_, by rw [k1]; exact hds, by simp only; omega, ?_, hcnt, h.md⟩
      · rw [hdiv]; exact h.h
      · intro i hi
        simp only
        by_cases hlt : i < c.num
        · rw [k3 i (Or.inl hlt), h.data i (by omega), hdiv]
        · have := k2 (i - c.num) (by omega)
          rw [show c.num + (i - c.num) = i by omega, Nat.zero_add, hf _ (by omega)] at this
          rw [this]; congr 1; omega
  · rw [if_neg h1]
    have e : n = 64 * (n / 64) := by omega
    have := rest_spec jk f (n / 64) ⟨c.h, Nl, Nh, c.data, c.num, c.md_len⟩ data 0 len h.hs h.h hds
      (by simp only; omega) (by simp only; rw [hcnt, ← e]) h.md (by omega)
      (fun i hi => by rw [Nat.zero_add, hf i hi, ← e])
    rw [← e] at this
    exact this

/-! ### Padding -/

theorem pad_length (m : List Byte) :
    (pad m).length = m.length + 9 + (64 - (m.length + 9) % 64) % 64 := by
  unfold pad bytes64 bytes
  simp only [List.length_append, List.length_replicate, List.length_cons, List.length_nil]
  omega

theorem pad_lt (m : List Byte) (i : Nat) (h : i < m.length) : (pad m).getD i 0 = m.getD i 0 := by
  unfold pad
  rw [List.append_assoc, List.append_assoc, List.getD_append _ _ _ _ h]

theorem pad_one (m : List Byte) : (pad m).getD m.length 0 = 0x80#8 := by
  unfold pad
  rw [List.append_assoc, List.append_assoc, List.getD_append_right _ _ _ _ (le_refl _), Nat.sub_self]
  rfl

theorem pad_zero (m : List Byte) (i : Nat) (h : m.length < i) (h' : i + 8 < (pad m).length) :
    (pad m).getD i 0 = 0 := by
  rw [pad_length] at h'
  unfold pad
  rw [List.getD_append _ _ _ _ (by
    simp only [List.length_append, List.length_replicate, List.length_cons, List.length_nil]; omega),
    List.getD_append_right _ _ _ _ (by
    simp only [List.length_append, List.length_cons, List.length_nil]; omega)]
  simp only [List.getD_eq_getElem?_getD, List.getElem?_replicate]
  split <;> rfl

theorem pad_len (m : List Byte) (i : Nat) (hi : i < 8) :
    (pad m).getD ((pad m).length - 8 + i) 0 = (bytes64 (BitVec.ofNat 64 (8 * m.length))).getD i 0 := by
  rw [pad_length]
  unfold pad
  rw [List.getD_append_right _ _ _ _ (by
    simp only [List.length_append, List.length_replicate, List.length_cons, List.length_nil]; omega)]
  congr 1
  simp only [List.length_append, List.length_replicate, List.length_cons, List.length_nil]
  omega

theorem len_words (n : Nat) (Nh Nl : W) (h : Nh.toNat * 2 ^ 32 + Nl.toNat = 8 * n % 2 ^ 64) :
    bytes64 (BitVec.ofNat 64 (8 * n)) = bytes Nh ++ bytes Nl := by
  unfold bytes64
  have h1 := Nh.isLt
  have h2 := Nl.isLt
  have e1 : (BitVec.ofNat 64 (8 * n)).extractLsb' 32 32 = Nh := by
    apply BitVec.eq_of_toNat_eq
    rw [BitVec.extractLsb'_toNat, BitVec.toNat_ofNat, ← h, Nat.shiftRight_eq_div_pow]
    clear h
    omega
  have e2 : (BitVec.ofNat 64 (8 * n)).extractLsb' 0 32 = Nl := by
    apply BitVec.eq_of_toNat_eq
    rw [BitVec.extractLsb'_toNat, BitVec.toNat_ofNat, ← h, Nat.shiftRight_eq_div_pow]
    clear h
    omega
  rw [e1, e2]

/-- Finishing: `m` is the whole message. -/
theorem final_spec (jk : Nat → W) (md : Array B) (m : List Byte) (c : Ctx) (hmd : md.size = 32)
    (h : Rep (fun i => (pad m).getD i 0) m.length c) :
    Ok (SHA256_final jk md c) (fun r => r.1.toList = sha256 m) := by
  have hnum := h.num
  have hds := h.ds
  have hL := pad_length m
  have hlw := len_words m.length c.Nh c.Nl h.len
  unfold SHA256_final
  rw [Ok_bind, Ok_wr]
  refine ⟨by omega, ?_⟩
  rw [Ok_bind]
  -- the first block, when there is no room for the length
  have hfull : Ok (final_full jk c.h (c.data.upd c.num 0x80#8) (c.num + 1)) (fun r =>
      r.1.size = 8 ∧ r.2.1.size = 64 ∧ r.2.2 ≤ 56 ∧
      m.length < 64 * ((pad m).length / 64 - 1) + r.2.2 ∧
      (∀ t, t < 8 → r.1.g t = (hashBlocks (fun i => (pad m).getD i 0) ((pad m).length / 64 - 1)).get t) ∧
      ∀ i, i < r.2.2 → r.2.1.g i = (pad m).getD (64 * ((pad m).length / 64 - 1) + i) 0) := by
    unfold final_full
    have hbuf : ∀ i, i < c.num + 1 → (c.data.upd c.num 0x80#8).g i =
        (pad m).getD (64 * (m.length / 64) + i) 0 := by
      intro i hi
      by_cases he : i = c.num
      · subst he
        rw [g_upd_eq _ _ _ (by omega), hnum, Nat.div_add_mod, pad_one]
      · rw [g_upd_ne _ _ _ _ he, h.data i (by omega)]
    by_cases h56 : 64 - 8 < c.num + 1
    · rw [if_pos h56, Ok_bind]
      have hL2 : (pad m).length / 64 - 1 = m.length / 64 + 1 := by omega
      refine (memset0_spec _ (c.num + 1) (64 - (c.num + 1)) (by simp; omega)).mono ?_
      rintro p ⟨p1, p2, p3⟩
      rw [size_upd] at p1
      rw [Ok_bind]
      refine (blocks_spec jk c.h p 0 1 _ (m.length / 64) h.hs h.h (by omega) ?_).mono ?_
      · intro i hi
        rw [Nat.zero_add]
        by_cases hlt : i < c.num + 1
        · rw [p3 i (Or.inl hlt), hbuf i hlt]
        · rw [p2 i (by omega) (by omega), pad_zero m _ (by omega) (by omega)]
      rintro h' ⟨g1, g2⟩
      rw [Ok_ok]
      refine ⟨g1, by simp only; omega, by simp, by simp only; omega, ?_, by simp⟩
      rw [hL2]; exact g2
    · rw [if_neg h56, Ok_ok]
      have hL2 : (pad m).length / 64 - 1 = m.length / 64 := by omega
      rw [hL2]
      exact ⟨h.hs, by simpa using hds, by simp only; omega, by simp only; omega, h.h, hbuf⟩
  refine hfull.mono ?_
  rintro ⟨h1, p1, n1⟩ ⟨a1, a2, a3, a6, a4, a5⟩
  simp only at a1 a2 a3 a4 a5 a6 ⊢
  have hmul : (pad m).length = 64 * ((pad m).length / 64 - 1) + 64 := by omega
  generalize hK : (pad m).length / 64 - 1 = k at *
  rw [Ok_bind]
  refine (memset0_spec p1 n1 (64 - 8 - n1) (by omega)).mono ?_
  rintro p2 ⟨b1, b2, b3⟩
  rw [Ok_bind]
  refine (HOST_l2c_spec c.Nh p2 56 (by omega)).mono ?_
  rintro p3 ⟨c1, c2, c3⟩
  rw [Ok_bind]
  refine (HOST_l2c_spec c.Nl p3 60 (by omega)).mono ?_
  rintro p4 ⟨d1, d2, d3⟩
  rw [Ok_bind]
  refine (blocks_spec jk h1 p4 0 1 _ k a1 a4 (by omega) ?_).mono ?_
  · intro i hi
    rw [Nat.zero_add]
    by_cases hi1 : i < n1
    · rw [d3 i (by omega), c3 i (by omega), b3 i (by omega), a5 i hi1]
    by_cases hi2 : i < 56
    · rw [d3 i (by omega), c3 i (by omega), b2 i (by omega) (by omega),
        pad_zero m _ (by omega) (by omega)]
    have hp := pad_len m (i - 56) (by omega)
    rw [hlw, show (pad m).length - 8 + (i - 56) = 64 * k + i by omega] at hp
    rw [hp]
    by_cases hi3 : i < 60
    · have := c2 (i - 56) (by omega)
      rw [show 56 + (i - 56) = i by omega] at this
      rw [d3 i (by omega), this, List.getD_append _ _ _ _ (by simp [bytes]; omega)]
    · have := d2 (i - 60) (by omega)
      rw [show 60 + (i - 60) = i by omega] at this
      rw [this, List.getD_append_right _ _ _ _ (by simp [bytes]; omega)]
      congr 1
  rintro h2 ⟨g1, g2⟩
  rw [Ok_bind]
  refine (memset0_spec p4 0 64 (by omega)).mono ?_
  rintro p5 -
  rw [Ok_bind, Ok_cassert]
  refine ⟨by rw [h.md]; rfl, ?_⟩
  rw [Ok_bind]
  refine Ok_forRange_imp (I := fun k (r : Array B) => r.size = 32 ∧
    ∀ t, t < k → ∀ i, i < 4 → r.g (4 * t + i) = (bytes (h2.g t)).getD i 0) (by omega) ⟨hmd, by omega⟩ ?_ ?_
  · rintro k r - hk ⟨e1, e2⟩
    rw [Ok_bind, Ok_rd]
    refine ⟨by omega, ?_⟩
    refine (HOST_l2c_spec _ r (4 * k) (by omega)).mono ?_
    rintro r' ⟨f1, f2, f3⟩
    refine ⟨by omega, ?_⟩
    intro t ht i hi
    by_cases he : t = k
    · subst he; exact f2 i hi
    · rw [f3 _ (by omega)]; exact e2 t (by omega) i hi
  · rintro r ⟨e1, e2⟩
    rw [Ok_ok]
    have hk1 : (pad m).length / 64 = k + 1 := by omega
    have hb : ∀ w : W, (bytes w).length = 4 := fun w => rfl
    unfold sha256
    simp only [hk1]
    generalize hashBlocks (fun i => (pad m).getD i 0) (k + 1) = s at g2
    apply List.ext_getElem
    · simp [hb, e1]
    intro i hi1 hi2
    have hi : i < 32 := by simpa [e1] using hi1
    have key := e2 (i / 4) (by omega) (i % 4) (by omega)
    rw [Nat.div_add_mod, g2 _ (by omega)] at key
    have hr : r.toList[i] = r.g i := by rw [g_eq _ _ (by omega)]; simp
    rw [hr, key, ← List.getD_eq_getElem (d := 0)]
    interval_cases i <;> rfl

end Spasm.Sha
