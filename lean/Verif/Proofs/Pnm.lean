import Verif.Model.Pnm
import Verif.Model.Dm
import Verif.Spec.Pnm
import Verif.Spec.Dm
import Verif.Proofs.Save

/-! Images. -/

namespace Spasm

theorem Words.snoc {f : List Char} {l : List (List Char)} (h : Words f l) {t w : List Char} (ht : t ≠ [])
    (hts : ∀ c ∈ t, c ≠ ' ' ∧ c ≠ '\n') (hw : w ≠ []) (hws : ∀ c ∈ w, c = ' ' ∨ c = '\n') :
    Words (f ++ t ++ w) (l ++ [t]) := by
  induction h with
  | nil => simpa using Words.cons ht hts hw hws Words.nil
  | cons a b c d _ ih => simpa [List.append_assoc] using Words.cons a b c d ih

theorem Ok_cdivN {a b : Nat} (hb : 0 < b) (Q : Int → Prop) : Ok (cdiv ((a : Int)) (b : Int)) Q ↔ Q ((a / b : Nat) : Int) := by
  unfold cdiv
  rw [if_neg (by omega), Ok_ok]
  rw [show Int.tdiv (a : Int) (b : Int) = ((a / b : Nat) : Int) from Int.ofNat_tdiv a b ▸ rfl]

theorem toI32_small {a : Int} (h0 : -2 ^ 31 ≤ a) (h : a < 2 ^ 31) : toI32 a = a := by
  unfold toI32
  rw [Int.bmod_eq_of_le (by omega) (by omega)]

theorem pix_lt {i n Y : Nat} (hi : i < n) (hY : 0 < Y) : i * Y / n < Y := by
  rw [Nat.div_lt_iff_lt_mul (by omega), Nat.mul_comm Y n]
  exact Nat.mul_lt_mul_of_pos_right hi hY

theorem cell_index {a b X Y : Nat} (ha : a < Y) (hb : b < X) : a * X + b < X * Y := by
  have : (a + 1) * X ≤ Y * X := Nat.mul_le_mul_right _ (by omega)
  rw [Nat.mul_comm X Y]
  rw [Nat.succ_mul] at this
  omega

/-- An entry before position `px` falls on cell number `c`. -/
def Counted (A : Csr) (X Y px c : Nat) : Prop :=
  ∃ i k, i < A.n ∧ A.p.g i ≤ k ∧ k < A.p.g (i + 1) ∧ k < px ∧ i * Y / A.n * X + A.j.g k * X / A.m = c

structure PixCells (A : Csr) (X Y px : Nat) (w : Array Int) : Prop where
  size : w.size = X * Y
  nonneg : ∀ c, c < X * Y → 0 ≤ w.g c
  le : ∀ c, c < X * Y → w.g c ≤ px
  pos : ∀ c, c < X * Y → (0 < w.g c ↔ Counted A X Y px c)

theorem pnm_count_spec {A : Csr} (hA : A.WF) {X Y : Nat} (hX : 0 < X ∨ A.m = 0) (hY : 0 < Y ∨ A.n = 0)
    (hXm : X ≤ A.m) (hm : A.m < 2 ^ 31) (hz : A.p.g A.n < 2 ^ 31) {w : Array Int}
    (hw : w.size = X * Y ∧ ∀ c, c < X * Y → w.g c = 0) :
    Ok (pnm_count A X Y w) (PixCells A X Y (A.p.g A.n)) := by
  unfold pnm_count
  refine (Ok_forRange (I := fun i w => PixCells A X Y (A.p.g i) w) (Nat.zero_le _) ?_ ?_)
  · refine ⟨hw.1, fun c hc => by rw [hw.2 c hc], fun c hc => by rw [hw.2 c hc]; omega, fun c hc => ?_⟩
    rw [hw.2 c hc]
    constructor
    · intro h; omega
    · rintro ⟨i, k, -, -, -, h, -⟩
      rw [hA.p_zero] at h; omega
  · intro i w _ hi hI
    have hps := hA.p_size
    have hmono := hA.p_mono i hi
    have hrow := hA.row_le hi
    have hnz := hA.p_nnz
    have hYpos : 0 < Y := by omega
    rw [Ok_bind, show (i : Int) * (Y : Int) = ((i * Y : Nat) : Int) by push_cast; rfl, Ok_cdivN (by omega)]
    simp only [Ok_bind, Ok_rd]
    refine ⟨by omega, by omega, ?_⟩
    refine Ok_forRange hmono hI ?_
    intro px w hlo hhi hI
    have hjlt := hA.j_lt px (by omega)
    have hXpos : 0 < X := by omega
    rw [Ok_bind, Ok_rd]
    refine ⟨by omega, ?_⟩
    rw [Ok_bind, show ((A.j.g px : Nat) : Int) * (X : Int) = ((A.j.g px * X : Nat) : Int) by push_cast; rfl,
      Ok_cdivN (by omega)]
    have c1 := pix_lt hi hYpos
    have c2 := pix_lt hjlt hXpos
    have c3 := cell_index c1 c2
    rw [toI32_small (le_trans (by norm_num) (Int.natCast_nonneg _)) (by omega)]
    have hidx : ((i * Y / A.n : Nat) : Int) * (X : Int) + ((A.j.g px * X / A.m : Nat) : Int) =
        ((i * Y / A.n * X + A.j.g px * X / A.m : Nat) : Int) := by push_cast; rfl
    rw [hidx]
    generalize hc : i * Y / A.n * X + A.j.g px * X / A.m = c at *
    have hle := hI.le c c3
    have hnn := hI.nonneg c c3
    simp only [Ok_bind, Ok_rdI, Ok_wrI, Ok_i32, Int.toNat_natCast]
    refine ⟨by omega, by rw [hI.size]; exact c3, ⟨by omega, by omega⟩, by omega, by rw [hI.size]; exact c3, ?_⟩
    have hsz : c < w.size := by rw [hI.size]; exact c3
    refine ⟨by simp [hI.size], ?_, ?_, ?_⟩
    · intro d hd
      by_cases hdc : d = c
      · subst hdc; rw [g_upd_eq _ _ _ hsz]; omega
      · rw [g_upd_ne _ _ _ _ (by omega)]; exact hI.nonneg d hd
    · intro d hd
      by_cases hdc : d = c
      · subst hdc; rw [g_upd_eq _ _ _ hsz]; push_cast; omega
      · rw [g_upd_ne _ _ _ _ (by omega)]; have := hI.le d hd; push_cast; omega
    · intro d hd
      by_cases hdc : d = c
      · subst hdc
        rw [g_upd_eq _ _ _ hsz]
        refine ⟨fun _ => ⟨i, px, hi, hlo, hhi, by omega, hc⟩, fun _ => by omega⟩
      · rw [g_upd_ne _ _ _ _ (by omega), hI.pos d hd]
        constructor
        · rintro ⟨i', k, a1, a2, a3, a4, a5⟩
          exact ⟨i', k, a1, a2, a3, by omega, a5⟩
        · rintro ⟨i', k, a1, a2, a3, a4, a5⟩
          by_cases hk : k = px
          · exfalso
            subst hk
            have : i' = i := by
              by_contra hne
              rcases Nat.lt_or_gt_of_ne hne with h | h
              · have := hA.mono_le (i := i' + 1) (k := i) (by omega) (by omega); omega
              · have := hA.mono_le (i := i + 1) (k := i') (by omega) (by omega); omega
            subst this
            omega
          · exact ⟨i', k, a1, a2, a3, by omega, a5⟩

theorem pnm_cells_spec (jk : Junk) {A : Csr} (hA : A.WF) {X Y : Nat} (hX : 0 < X ∨ A.m = 0) (hY : 0 < Y ∨ A.n = 0)
    (hXm : X ≤ A.m) (hm : A.m < 2 ^ 31) (hz : A.p.g A.n < 2 ^ 31) (hXY : X * Y < 2 ^ 31) :
    Ok (pnm_cells jk A X Y) (PixCells A X Y (A.p.g A.n)) := by
  unfold pnm_cells
  rw [show (X : Int) * (Y : Int) = ((X * Y : Nat) : Int) by push_cast; rfl]
  rw [Ok_bind, Ok_i32]
  refine ⟨⟨by omega, by omega⟩, ?_⟩
  rw [if_neg (by omega), Ok_bind, Int.toNat_natCast]
  refine (Ok_forRange (I := fun i w => w.size = X * Y ∧ ∀ c, c < i → w.g c = 0) (Nat.zero_le _) ⟨by simp, by simp⟩
    ?_).mono ?_
  · rintro i w - hi ⟨h1, h2⟩
    rw [Ok_wr]
    refine ⟨by omega, by simp [h1], ?_⟩
    intro t ht
    by_cases hti : t = i
    · subst hti; rw [g_upd_eq _ _ _ (by omega)]
    · rw [g_upd_ne _ _ _ _ (by omega)]; exact h2 t (by omega)
  · intro w hw
    exact pnm_count_spec hA hX hY hXm hm hz hw

theorem PixCells.black {A : Csr} (hA : A.WF) {X Y : Nat} {w : Array Int} (h : PixCells A X Y (A.p.g A.n) w) {u v : Nat} (hu : u < Y) (hv : v < X) :
    0 < w.g (u * X + v) ↔ Black A X Y u v := by
  rw [h.pos _ (cell_index hu hv)]
  constructor
  · rintro ⟨i, k, a1, a2, a3, a4, a5⟩
    have hj := hA.j_lt k a4
    have c1 := pix_lt a1 (show 0 < Y by omega)
    have c2 := pix_lt hj (show 0 < X by omega)
    refine ⟨i, A.j.g k, a1, ⟨k, a2, a3, rfl⟩, ?_, ?_⟩
    · have := congrArg (· / X) a5
      rw [Nat.add_comm, Nat.add_mul_div_right _ _ (by omega), Nat.div_eq_of_lt c2, Nat.add_comm (u * X),
        Nat.add_mul_div_right _ _ (by omega), Nat.div_eq_of_lt hv] at this
      omega
    · have := congrArg (· % X) a5
      rw [Nat.add_comm, Nat.add_mul_mod_self_right, Nat.mod_eq_of_lt c2, Nat.add_comm (u * X),
        Nat.add_mul_mod_self_right, Nat.mod_eq_of_lt hv] at this
      omega
  · rintro ⟨i, j, a1, ⟨k, a2, a3, rfl⟩, rfl, rfl⟩
    exact ⟨i, k, a1, a2, a3, by have := hA.row_le a1; omega, rfl⟩

theorem pnm_break_ws (t : Nat) : ∀ c ∈ ' ' :: pnm_break t, c = ' ' ∨ c = '\n' := by
  intro c hc
  unfold pnm_break at hc
  split at hc
  · simpa using hc
  · left; simpa using hc

attribute [local irreducible] pnm_cells

theorem save_pbm_spec (jk : Junk) {A : Csr} (hA : A.WF) {x y : Nat} (hx : 1 ≤ x) (hy : 1 ≤ y) (hm : A.m < 2 ^ 31)
    (hz : A.p.g A.n < 2 ^ 31) (hxy : min x A.m * min y A.n < 2 ^ 31) :
    Ok (save_pbm jk A x y) (fun f => IsPbm f (min x A.m) (min y A.n) (Black A (min x A.m) (min y A.n))) := by
  unfold save_pbm
  simp only [← Nat.cast_min (α := Int)]
  have hX : 0 < min x A.m ∨ A.m = 0 := by omega
  have hY : 0 < min y A.n ∨ A.n = 0 := by omega
  have hXm : min x A.m ≤ A.m := by omega
  generalize min x A.m = X at *
  generalize min y A.n = Y at *
  rw [Ok_bind]
  refine (pnm_cells_spec jk hA hX hY hXm hm hz hxy).mono ?_
  intro w hw
  rw [Ok_bind]
  simp only [Int.toNat_natCast]
  classical
  generalize hH : "P1\n".toList ++ fmtD X ++ [' '] ++ fmtD Y ++ ['\n'] = H
  have hstep : ∀ i j (s : List Char × Nat), i < Y → j < X →
      (s.2 = i * X + j ∧ ∃ body, s.1 = H ++ body ∧ Words body ((List.range (i * X + j)).map fun t =>
        if Black A X Y (t / X) (t % X) then ['1'] else ['0'])) →
      Ok (do
        let v ← rdI w (i * X + j)
        .ok (s.1 ++ fmtD (if v > 0 then 1 else 0) ++ [' '] ++ pnm_break s.2, s.2 + 1))
      (fun s => s.2 = i * X + (j + 1) ∧ ∃ body, s.1 = H ++ body ∧ Words body ((List.range (i * X + (j + 1))).map fun t =>
        if Black A X Y (t / X) (t % X) then ['1'] else ['0'])) := by
    rintro i j ⟨out, t⟩ hi hj ⟨ht, body, hb, hW⟩
    simp only at ht hb
    have hc := cell_index hi hj
    rw [Ok_bind, show (i : Int) * (X : Int) + (j : Int) = ((i * X + j : Nat) : Int) by push_cast; rfl, Ok_rdI,
      Int.toNat_natCast]
    refine ⟨by omega, by rw [hw.size]; exact hc, ?_⟩
    rw [Ok_ok]
    simp only
    refine ⟨by omega, body ++ (fmtD (if w.g (i * X + j) > 0 then 1 else 0)) ++ (' ' :: pnm_break t), ?_, ?_⟩
    · rw [hb]; simp
    · rw [show i * X + (j + 1) = (i * X + j) + 1 by omega, List.range_succ, List.map_append]
      have e1 : (i * X + j) / X = i := by
        rw [Nat.add_comm, Nat.add_mul_div_right _ _ (by omega), Nat.div_eq_of_lt hj]; omega
      have e2 : (i * X + j) % X = j := by
        rw [Nat.add_comm, Nat.add_mul_mod_self_right, Nat.mod_eq_of_lt hj]
      simp only [List.map_cons, List.map_nil, e1, e2]
      have e3 : fmtD (if w.g (i * X + j) > 0 then 1 else 0) = if Black A X Y i j then ['1'] else ['0'] := by
        have hbl := hw.black hA hi hj
        by_cases hB : Black A X Y i j
        · rw [if_pos hB, if_pos (hbl.mpr hB)]; decide
        · rw [if_neg hB, if_neg (fun h => hB (hbl.mp h))]; decide
      rw [e3]
      refine hW.snoc ?_ ?_ (by simp) (pnm_break_ws t)
      · split <;> simp
      · split <;> decide
  refine (Ok_forRange (I := fun i s => s.2 = i * X ∧ ∃ body, s.1 = H ++ body ∧ Words body ((List.range (i * X)).map
    fun t => if Black A X Y (t / X) (t % X) then ['1'] else ['0'])) (Nat.zero_le _) ?_ ?_).mono ?_
  · exact ⟨by simp, [], by simp, by simpa using Words.nil⟩
  · intro i s _ hi hI
    refine (Ok_forRange (I := fun j s => s.2 = i * X + j ∧ ∃ body, s.1 = H ++ body ∧ Words body
      ((List.range (i * X + j)).map fun t => if Black A X Y (t / X) (t % X) then ['1'] else ['0'])) (Nat.zero_le _) ?_
      (fun j s _ hj hJ => hstep i j s hi hj hJ)).mono ?_
    · simpa using hI
    · intro s hs
      rw [Nat.succ_mul]
      exact hs
  · rintro s ⟨-, body, h1, h2⟩
    rw [Ok_ok]
    refine ⟨body, ?_, ?_⟩
    · rw [h1, ← hH, dec_eq, dec_eq]
    · rw [Nat.mul_comm X Y]
      exact h2

/-! ### Colours -/

/-- What is needed from the decomposition. -/
structure DmDims (D : Dm) (n m : Nat) : Prop where
  rr_size : D.rr.size = 5
  cc_size : D.cc.size = 5
  rr1 : 0 ≤ D.rr.g 1
  rr2 : D.rr.g 1 ≤ D.rr.g 2
  rr_le : D.rr.g 2 ≤ n
  cc2 : 0 ≤ D.cc.g 2
  cc3 : D.cc.g 2 ≤ D.cc.g 3
  cc_le : D.cc.g 3 ≤ m
  fine : D.rr.g 1 < D.rr.g 2 → D.nb < D.r.size ∧ D.nb < D.c.size ∧ D.r.g 0 = 0 ∧ D.c.g 0 = 0 ∧ D.r.g D.nb = n ∧
    ∀ b, b ≤ D.nb → 0 ≤ D.r.g b ∧ D.r.g b ≤ n ∧ 0 ≤ D.c.g b ∧ D.c.g b ≤ m

theorem Ok_cdivI {a : Int} {X b : Nat} (ha : 0 ≤ a) (hb : 0 < b) (Q : Int → Prop) :
    Ok (cdiv (a * (X : Int)) (b : Int)) Q ↔ Q ((a.toNat * X / b : Nat) : Int) := by
  have : a * (X : Int) = ((a.toNat * X : Nat) : Int) := by push_cast; rw [Int.toNat_of_nonneg ha]
  rw [this, Ok_cdivN hb]

theorem scale_le {a X b : Nat} (h : a ≤ b) : a * X / b ≤ X :=
  Nat.div_le_of_le_mul (Nat.mul_le_mul_right _ h)

theorem toI32_nat {a : Nat} (h : a < 2 ^ 31) : toI32 (a : Int) = (a : Int) := toI32_small (by omega) (by omega)

/-- The component followed by the loop. -/
structure SccOk (D : Dm) (n m X Y i : Nat) (s : Pnm) : Prop where
  le : s.scc ≤ D.nb
  right : s.right = (((D.c.g s.scc).toNat * X / m : Nat) : Int)
  bot : s.bot = (((D.r.g s.scc).toNat * Y / n : Nat) : Int)
  left : 1 ≤ s.scc → s.left = (((D.c.g (s.scc - 1)).toNat * X / m : Nat) : Int)
  prev : 1 ≤ s.scc → (D.r.g (s.scc - 1)).toNat * Y / n ≤ i

theorem pnm_scc_spec {D : Dm} {n m X Y i : Nat} (hD : DmDims D n m) (hf : D.rr.g 1 < D.rr.g 2) (hn : 0 < n) (hm : 0 < m)
    (hX : X < 2 ^ 31) (hY : Y < 2 ^ 31) (hi : i < Y) {s : Pnm} (hs : SccOk D n m X Y i s) :
    Ok (pnm_scc n m D X Y i s) (fun s' => SccOk D n m X Y i s' ∧ (i : Int) < s'.bot ∧ s'.out = s.out ∧ s'.t = s.t) := by
  obtain ⟨f1, f2, f3, f4, f5, f6⟩ := hD.fine hf
  unfold pnm_scc
  refine Ok_whileFuel (I := fun s' => SccOk D n m X Y i s' ∧ s'.out = s.out ∧ s'.t = s.t) (fun s' => D.nb - s'.scc)
    ?_ _ s ⟨hs, rfl, rfl⟩ (by omega)
  rintro s' ⟨h, ho, ht⟩
  split
  · rename_i hb
    have hlt : s'.scc < D.nb := by
      rcases Nat.lt_or_ge s'.scc D.nb with h1 | h1
      · exact h1
      · exfalso
        have h2 : s'.scc = D.nb := le_antisymm h.le h1
        have h3 := h.bot
        rw [h2, f5, Int.toNat_natCast, Nat.mul_div_cancel_left _ hn] at h3
        omega
    obtain ⟨g1, g2, g3, g4⟩ := f6 (s'.scc + 1) hlt
    have b1 : (D.c.g (s'.scc + 1)).toNat * X / m ≤ X := scale_le (by omega)
    have b2 : (D.r.g (s'.scc + 1)).toNat * Y / n ≤ Y := scale_le (by omega)
    rw [Ok_bind, Ok_rd]
    refine ⟨by omega, ?_⟩
    rw [Ok_bind, Ok_cdivI g3 hm, Ok_bind, Ok_rd]
    refine ⟨by omega, ?_⟩
    rw [Ok_bind, Ok_cdivI g1 hn, Ok_ok, toI32_nat (by omega), toI32_nat (by omega)]
    refine ⟨⟨⟨hlt, rfl, rfl, fun _ => ?_, fun _ => ?_⟩, ho, ht⟩, by simp only; omega⟩
    · exact h.right
    · have := h.bot
      simp only [Nat.add_sub_cancel]
      omega
  · rename_i hb
    rw [Ok_ok]
    exact ⟨h, by omega, ho, ht⟩

/-- The background of pixel `(i, j)`, as computed. -/
theorem pnm_bg_spec {D : Dm} {n m X Y i j : Nat} (hD : DmDims D n m) (hn : 0 < n) (hm : 0 < m) (hX : X < 2 ^ 31)
    (hY : Y < 2 ^ 31) (hi : i < Y) {s : Pnm} (hs : D.rr.g 1 < D.rr.g 2 → SccOk D n m X Y i s) :
    Ok (pnm_bg n m D X Y (((D.cc.g 2).toNat * X / m : Nat) : Int) (((D.cc.g 3).toNat * X / m : Nat) : Int)
      (((D.rr.g 1).toNat * Y / n : Nat) : Int) (((D.rr.g 2).toNat * Y / n : Nat) : Int) i j s)
      (fun r => Background D n m X Y i j r.1 ∧ (D.rr.g 1 < D.rr.g 2 → SccOk D n m X Y i r.2) ∧ r.2.out = s.out ∧ r.2.t = s.t) := by
  unfold pnm_bg
  simp only
  have hbv : pnm_block (((D.rr.g 1).toNat * Y / n : Nat) : Int) (((D.rr.g 2).toNat * Y / n : Nat) : Int) i =
      third ((D.rr.g 1).toNat * Y / n) ((D.rr.g 2).toNat * Y / n) i := by
    unfold pnm_block third
    simp only [Nat.cast_le, Nat.cast_lt]
    split_ifs <;> omega
  have hbh : pnm_block (((D.cc.g 2).toNat * X / m : Nat) : Int) (((D.cc.g 3).toNat * X / m : Nat) : Int) j =
      third ((D.cc.g 2).toNat * X / m) ((D.cc.g 3).toNat * X / m) j := by
    unfold pnm_block third
    simp only [Nat.cast_le, Nat.cast_lt]
    split_ifs <;> omega
  rw [hbv, hbh]
  have hcol : ∀ a b, a ≤ 2 → b ≤ 2 → bgcolor a b = coarseColor a b := by
    intro a b ha hb
    interval_cases a <;> interval_cases b <;> rfl
  have h3 : ∀ a b c, third a b c ≤ 2 := by intro a b c; unfold third; split_ifs <;> omega
  split
  · rename_i hbb
    have hv1 := hbb.2
    have hf : D.rr.g 1 < D.rr.g 2 := by
      by_contra hle
      have := hD.rr2
      rw [show D.rr.g 2 = D.rr.g 1 by omega] at hv1
      unfold third at hv1
      split_ifs at hv1 <;> omega
    rw [Ok_bind]
    refine (pnm_scc_spec hD hf hn hm hX hY hi (hs hf)).mono ?_
    rintro s' ⟨a1, a2, a3, a4⟩
    obtain ⟨f1, f2, f3, f4, f5, f6⟩ := hD.fine hf
    have hpos : 1 ≤ s'.scc := by
      by_contra h0
      have h0 : s'.scc = 0 := by omega
      have := a1.bot
      rw [h0, f3] at this
      simp at this
      omega
    have e1 := a1.left hpos
    have e2 := a1.right
    have e3 := a1.bot
    have e4 := a1.prev hpos
    have hlt : i < (D.r.g s'.scc).toNat * Y / n := by omega
    have key : ∀ p, p = (if j < (D.c.g (s'.scc - 1)).toNat * X / m then 0xFFFFFF else
        if j < (D.c.g s'.scc).toNat * X / m then 0xFFFF66 else 0xFFCC00) →
        Background D n m X Y i j p := by
      intro p hp
      unfold Background
      simp only
      rw [if_pos ⟨hbb.2, hbb.1⟩]
      exact ⟨s'.scc, hpos, a1.le, e4, hlt, hp⟩
    rw [e1, e2]
    simp only [Nat.cast_lt]
    by_cases c1 : j < (D.c.g (s'.scc - 1)).toNat * X / m
    · rw [if_pos c1, Ok_ok]
      exact ⟨key _ (by rw [if_pos c1]), fun _ => a1, a3, a4⟩
    · rw [if_neg c1]
      by_cases c2 : j < (D.c.g s'.scc).toNat * X / m
      · rw [if_pos c2, Ok_ok]
        exact ⟨key _ (by rw [if_neg c1, if_pos c2, hbb.1, hbb.2]; rfl), fun _ => a1, a3, a4⟩
      · rw [if_neg c2, Ok_ok]
        exact ⟨key _ (by rw [if_neg c1, if_neg c2, hbb.1, hbb.2]; rfl), fun _ => a1, a3, a4⟩
  · rename_i hbb
    rw [Ok_ok]
    refine ⟨?_, hs, rfl, rfl⟩
    unfold Background
    simp only
    rw [if_neg (fun h => hbb ⟨h.2, h.1⟩)]
    exact hcol _ _ (h3 _ _ _) (h3 _ _ _)

theorem fmtD_word (a : Nat) : fmtD (a : Int) ≠ [] ∧ ∀ c ∈ fmtD (a : Int), c ≠ ' ' ∧ c ≠ '\n' := by
  refine ⟨fmtD_ne_nil _, ?_⟩
  intro c hc
  have h := fmtD_toNat hc
  constructor <;> rintro rfl <;> revert h <;> decide

/-- The three components. -/
theorem rgb_words {f : List Char} {l : List (List Char)} (h : Words f l) (p t : Nat) :
    Words (f ++ (pnm_rgb p ++ pnm_break t)) (l ++ [dec (rgb p).1, dec (rgb p).2.1, dec (rgb p).2.2]) := by
  have a1 := fmtD_word (p / 65536 % 256)
  have a2 := fmtD_word (p / 256 % 256)
  have a3 := fmtD_word (p % 256)
  have hsp : ∀ c ∈ [' '], c = ' ' ∨ c = '\n' := by simp
  have := ((h.snoc a1.1 a1.2 (by simp) hsp).snoc a2.1 a2.2 (by simp) hsp).snoc a3.1 a3.2 (by simp) (pnm_break_ws t)
  unfold pnm_rgb rgb
  rw [dec_eq, dec_eq, dec_eq]
  simpa [List.append_assoc] using this

theorem Background.ne_zero {D : Dm} {n m X Y i j p : Nat} (h : Background D n m X Y i j p) :
    0 < p ∧ rgb p ≠ (0, 0, 0) := by
  unfold Background at h
  simp only at h
  split at h
  · obtain ⟨b, -, -, -, -, h⟩ := h
    split_ifs at h <;> subst h <;> decide
  · have h3 : ∀ a b c, third a b c ≤ 2 := by intro a b c; unfold third; split_ifs <;> omega
    have b1 := h3 ((D.rr.g 1).toNat * Y / n) ((D.rr.g 2).toNat * Y / n) i
    have b2 := h3 ((D.cc.g 2).toNat * X / m) ((D.cc.g 3).toNat * X / m) j
    generalize third ((D.rr.g 1).toNat * Y / n) ((D.rr.g 2).toNat * Y / n) i = a at h b1
    generalize third ((D.cc.g 2).toNat * X / m) ((D.cc.g 3).toNat * X / m) j = b at h b2
    interval_cases a <;> interval_cases b <;> (subst h; decide)

theorem save_ppm_spec (jk : Junk) {A : Csr} (hA : A.WF) {D : Dm} (hD : DmDims D A.n A.m) {x y : Nat} (hx : 1 ≤ x)
    (hy : 1 ≤ y) (hn0 : 0 < A.n) (hm0 : 0 < A.m) (hn : A.n < 2 ^ 31) (hm : A.m < 2 ^ 31)
    (hz : A.p.g A.n < 2 ^ 31) (hxy : min x A.m * min y A.n < 2 ^ 31) :
    Ok (save_ppm jk A x y D) (fun f => ∃ color : Nat → Nat → Nat × Nat × Nat,
      IsPpm f (min x A.m) (min y A.n) color ∧ ∀ u v, u < min y A.n → v < min x A.m →
        (color u v = (0, 0, 0) ↔ Black A (min x A.m) (min y A.n) u v) ∧
        (¬ Black A (min x A.m) (min y A.n) u v → ∃ p, Background D A.n A.m (min x A.m) (min y A.n) u v p ∧
          color u v = rgb p)) := by
  unfold save_ppm
  simp only [← Nat.cast_min (α := Int)]
  have hX : 0 < min x A.m ∨ A.m = 0 := by omega
  have hY : 0 < min y A.n ∨ A.n = 0 := by omega
  have hXm : min x A.m ≤ A.m := by omega
  have hYn : min y A.n ≤ A.n := by omega
  generalize min x A.m = X at *
  generalize min y A.n = Y at *
  rw [Ok_bind]
  refine (pnm_cells_spec jk hA hX hY hXm hm hz hxy).mono ?_
  intro w hw
  have z1 := hD.rr_size
  have z2 := hD.cc_size
  have q1 := hD.rr1
  have q2 := hD.rr2
  have q3 := hD.rr_le
  have q4 := hD.cc2
  have q5 := hD.cc3
  have q6 := hD.cc_le
  have m1 : (D.cc.g 2).toNat * X / A.m ≤ X := scale_le (by omega)
  have m2 : (D.cc.g 3).toNat * X / A.m ≤ X := scale_le (by omega)
  have m3 : (D.rr.g 1).toNat * Y / A.n ≤ Y := scale_le (by omega)
  have m4 : (D.rr.g 2).toNat * Y / A.n ≤ Y := scale_le (by omega)
  rw [Ok_bind, Ok_rd]
  refine ⟨by omega, ?_⟩
  rw [Ok_bind, Ok_cdivI (by omega) hm0, Ok_bind, Ok_rd]
  refine ⟨by omega, ?_⟩
  rw [Ok_bind, Ok_cdivI (by omega) hm0, Ok_bind, Ok_rd]
  refine ⟨by omega, ?_⟩
  rw [Ok_bind, Ok_cdivI (by omega) hn0, Ok_bind, Ok_rd]
  refine ⟨by omega, ?_⟩
  rw [Ok_bind, Ok_cdivI (by omega) hn0, Ok_bind, toI32_nat (by omega), toI32_nat (by omega), toI32_nat (by omega),
    toI32_nat (by omega)]
  simp only [Int.toNat_natCast]
  generalize hH : "P3\n".toList ++ fmtD X ++ [' '] ++ fmtD Y ++ "\n255\n".toList = H
  let Good : Nat → Nat → Prop := fun t p => (Black A X Y (t / X) (t % X) ∧ p = 0) ∨
    (¬ Black A X Y (t / X) (t % X) ∧ Background D A.n A.m X Y (t / X) (t % X) p)
  let Inv : Nat → Nat → Pnm → Prop := fun i T s => s.t = T ∧ (D.rr.g 1 < D.rr.g 2 → SccOk D A.n A.m X Y i s) ∧
    ∃ (body : List Char) (col : Nat → Nat), s.out = H ++ body ∧ (∀ t, t < T → Good t (col t)) ∧
      Words body ((List.range T).flatMap fun t => [dec (rgb (col t)).1, dec (rgb (col t)).2.1, dec (rgb (col t)).2.2])
  refine (Ok_forRange (I := fun i s => Inv i (i * X) s) (Nat.zero_le _) ?_ ?_).mono ?_
  · refine ⟨by simp, ?_, [], fun _ => 0, by simp, by simp, by simpa using Words.nil⟩
    intro hf
    obtain ⟨f1, f2, f3, f4, f5, f6⟩ := hD.fine hf
    exact ⟨by simp, by simp [f4], by simp [f3], by simp, by simp⟩
  · intro i s _ hi hI
    refine (Ok_forRange (I := fun j s => Inv i (i * X + j) s) (Nat.zero_le _) (by simpa using hI) ?_).mono ?_
    · rintro j s - hj ⟨h1, h2, body, col, h3, h4, h5⟩
      have hc := cell_index hi hj
      rw [Ok_bind]
      refine (pnm_bg_spec hD hn0 hm0 (by omega) (by omega) hi h2).mono ?_
      rintro ⟨bg, s'⟩ ⟨b1, b2, b3, b4⟩
      simp only at b1 b2 b3 b4 ⊢
      rw [Ok_bind, show (i : Int) * (X : Int) + (j : Int) = ((i * X + j : Nat) : Int) by push_cast; rfl, Ok_rdI,
        Int.toNat_natCast]
      refine ⟨by omega, by rw [hw.size]; exact hc, ?_⟩
      rw [Ok_ok]
      have e1 : (i * X + j) / X = i := by
        rw [Nat.add_comm, Nat.add_mul_div_right _ _ (by omega), Nat.div_eq_of_lt hj]; omega
      have e2 : (i * X + j) % X = j := by
        rw [Nat.add_comm, Nat.add_mul_mod_self_right, Nat.mod_eq_of_lt hj]
      have hbl := hw.black hA hi hj
      refine ⟨by simp only; omega, fun hf => ⟨(b2 hf).le, (b2 hf).right, (b2 hf).bot, (b2 hf).left, (b2 hf).prev⟩, body ++ (pnm_rgb
        (if w.g (i * X + j) > 0 then 0 else bg) ++ pnm_break s'.t), fun t => if t = i * X + j then
          (if w.g (i * X + j) > 0 then 0 else bg) else col t, ?_, ?_, ?_⟩
      · simp only; rw [b3, h3]; simp
      · intro t ht
        by_cases htt : t = i * X + j
        · subst htt
          simp only [if_true]
          show Good _ _
          simp only [Good, e1, e2]
          by_cases hB : Black A X Y i j
          · left; exact ⟨hB, by rw [if_pos (hbl.mpr hB)]⟩
          · right; exact ⟨hB, by rw [if_neg (fun h => hB (hbl.mp h))]; exact b1⟩
        · simp only [if_neg htt]
          exact h4 t (by omega)
      · rw [show i * X + (j + 1) = (i * X + j) + 1 by omega, List.range_succ, List.flatMap_append]
        have e3 : (List.range (i * X + j)).flatMap (fun t =>
            [dec (rgb ((fun t => if t = i * X + j then (if w.g (i * X + j) > 0 then 0 else bg) else col t) t)).1,
            dec (rgb ((fun t => if t = i * X + j then (if w.g (i * X + j) > 0 then 0 else bg) else col t) t)).2.1,
            dec (rgb ((fun t => if t = i * X + j then (if w.g (i * X + j) > 0 then 0 else bg) else col t) t)).2.2]) =
            (List.range (i * X + j)).flatMap fun t => [dec (rgb (col t)).1, dec (rgb (col t)).2.1,
              dec (rgb (col t)).2.2] := by
          refine List.flatMap_congr fun t ht => ?_
          rw [List.mem_range] at ht
          simp only [if_neg (show t ≠ i * X + j by omega)]
        rw [e3]
        simp only [List.flatMap_cons, List.flatMap_nil, List.append_nil, if_true]
        exact rgb_words h5 _ _
    · rintro s ⟨h1, h2, h3⟩
      refine ⟨by rw [h1, Nat.succ_mul], fun hf => ⟨(h2 hf).le, (h2 hf).right, (h2 hf).bot, (h2 hf).left, fun h => ?_⟩, ?_⟩
      · have := (h2 hf).prev h; omega
      · rw [Nat.succ_mul]; exact h3
  · rintro s ⟨-, -, body, col, h1, h2, h3⟩
    rw [Ok_ok]
    have hdiv : ∀ t, t < X * Y → t / X * X + t % X = t := fun t _ => by rw [Nat.mul_comm]; exact Nat.div_add_mod t X
    refine ⟨fun u v => rgb (col (u * X + v)), ⟨body, ?_, ?_, ?_⟩, ?_⟩
    · rw [h1, ← hH, dec_eq, dec_eq]
    · intro u v _ _
      unfold rgb
      simp only
      omega
    · rw [Nat.mul_comm Y X] at h3
      convert h3 using 1
      refine List.flatMap_congr fun t ht => ?_
      rw [List.mem_range] at ht
      simp only [hdiv t ht]
    · intro u v hu hv
      have hc := cell_index hu hv
      have e1 : (u * X + v) / X = u := by
        rw [Nat.add_comm, Nat.add_mul_div_right _ _ (by omega), Nat.div_eq_of_lt hv]; omega
      have e2 : (u * X + v) % X = v := by
        rw [Nat.add_comm, Nat.add_mul_mod_self_right, Nat.mod_eq_of_lt hv]
      have hg := h2 (u * X + v) (by rw [Nat.mul_comm Y X]; exact hc)
      simp only [Good, e1, e2] at hg
      rcases hg with ⟨g1, g2⟩ | ⟨g1, g2⟩
      · refine ⟨⟨fun _ => g1, fun _ => by simp only [g2]; decide⟩, fun h => absurd g1 h⟩
      · exact ⟨⟨fun h => absurd h g2.ne_zero.2, fun h => absurd h g1⟩, fun _ => ⟨_, g2, rfl⟩⟩

end Spasm
