import Verif.Proofs.Csr

/-
Rows as lists, and the lemmas used by functions that build a matrix.
-/

namespace Spasm

open Finset

theorem field_init_ok {F : Field} (h : F.p < 0 ∨ (2 ≤ F.p ∧ F.p ≤ 0xfffffffb)) :
    Ok (field_init F.p) (fun G => G.p = F.p ∧ ∀ q, F.Good q → G.Good q) := by
  by_cases h0 : F.p < 0
  · unfold field_init
    rw [if_pos h0]
    refine ⟨rfl, fun q hq => ?_⟩
    have := hq.p_eq; omega
  · have h := h.resolve_left h0
    have e : ((F.p.toNat : Nat) : Int) = F.p := by omega
    have hg := field_init_good F.p.toNat (by omega) (by omega)
    rw [e] at hg
    refine hg.mono ?_
    intro G hG
    refine ⟨by rw [hG.p_eq, e], fun q hq => ?_⟩
    have : F.p.toNat = q := by have := hq.p_eq; omega
    rwa [this] at hG

/-! ### seg -/

theorem Csr.length_seg (A : Csr) (lo hi : Nat) : (A.seg lo hi).length = hi - lo := by
  simp [Csr.seg]

theorem Csr.length_row (A : Csr) (i : Nat) : (A.row i).length = A.p.g (i + 1) - A.p.g i :=
  A.length_seg _ _

theorem Csr.seg_self (A : Csr) (lo : Nat) : A.seg lo lo = [] := by simp [Csr.seg]

theorem Csr.seg_succ (A : Csr) {lo hi : Nat} (h : lo ≤ hi) :
    A.seg lo (hi + 1) = A.seg lo hi ++ [A.ent hi] := by
  unfold Csr.seg
  rw [show hi + 1 - lo = (hi - lo) + 1 by omega, List.range'_concat, List.map_append]
  simp [show lo + (hi - lo) = hi by omega]

theorem Csr.seg_append (A : Csr) {lo mid hi : Nat} (h1 : lo ≤ mid) (h2 : mid ≤ hi) :
    A.seg lo mid ++ A.seg mid hi = A.seg lo hi := by
  unfold Csr.seg
  rw [← List.map_append]
  congr 1
  have := List.range'_append (s := lo) (m := mid - lo) (n := hi - mid) (step := 1)
  rw [show lo + 1 * (mid - lo) = mid by omega, show mid - lo + (hi - mid) = hi - lo by omega] at this
  exact this

theorem Csr.seg_congr {A B : Csr} {lo hi : Nat} (h : ∀ k, lo ≤ k → k < hi → A.ent k = B.ent k) :
    A.seg lo hi = B.seg lo hi := by
  unfold Csr.seg
  apply List.map_congr_left
  intro k hk
  rw [List.mem_range'_1] at hk
  exact h k hk.1 (by omega)

theorem Csr.mem_seg {A : Csr} {lo hi : Nat} {e : Nat × Int} :
    e ∈ A.seg lo hi ↔ ∃ k, lo ≤ k ∧ k < hi ∧ A.ent k = e := by
  unfold Csr.seg
  rw [List.mem_map]
  constructor
  · rintro ⟨k, hk, rfl⟩
    rw [List.mem_range'_1] at hk
    exact ⟨k, hk.1, by omega, rfl⟩
  · rintro ⟨k, h1, h2, rfl⟩
    exact ⟨k, by rw [List.mem_range'_1]; omega, rfl⟩

theorem Csr.seg_drop_take (A : Csr) {lo mid hi N : Nat} (h1 : lo ≤ mid) (h2 : mid ≤ hi)
    (h3 : hi ≤ N) : A.seg mid hi = ((A.seg lo N).drop (mid - lo)).take (hi - mid) := by
  rw [← A.seg_append h1 (h2.trans h3), ← A.seg_append h2 h3]
  rw [List.drop_append_of_le_length (by rw [A.length_seg])]
  rw [List.drop_of_length_le (by rw [A.length_seg])]
  rw [List.nil_append, List.take_append_of_le_length (by rw [A.length_seg])]
  rw [List.take_of_length_le (by rw [A.length_seg])]

/-- Sum of the values at column `j` in a list of (column, value) pairs. -/
def lsum (q : ℕ) (l : List (Nat × Int)) (j : Nat) : ZMod q :=
  (l.map fun e => if e.1 = j then (e.2 : ZMod q) else 0).sum

@[simp] theorem lsum_nil (q j : Nat) : lsum q [] j = 0 := by simp [lsum]

@[simp] theorem lsum_cons (q j : Nat) (e : Nat × Int) (l : List (Nat × Int)) :
    lsum q (e :: l) j = (if e.1 = j then (e.2 : ZMod q) else 0) + lsum q l j := by simp [lsum]

@[simp] theorem lsum_append (q j : Nat) (l l' : List (Nat × Int)) :
    lsum q (l ++ l') j = lsum q l j + lsum q l' j := by simp [lsum]

theorem Csr.psum_eq_lsum (A : Csr) (q lo hi j : Nat) :
    A.psum q lo hi j = lsum q (A.seg lo hi) j := by
  unfold Csr.psum lsum Csr.seg
  rw [List.map_map, Finset.sum_eq_multiset_sum]
  rw [show (Ico lo hi).val = ((List.range' lo (hi - lo) : List ℕ) : Multiset ℕ) from rfl]
  rw [Multiset.map_coe, Multiset.sum_coe]
  rfl

theorem Csr.entry_eq_lsum (A : Csr) (q i j : Nat) : A.entry q i j = lsum q (A.row i) j :=
  A.psum_eq_lsum q _ _ j

theorem Csr.inRow_iff (A : Csr) (i j : Nat) : A.InRow i j ↔ ∃ e ∈ A.row i, e.1 = j := by
  unfold Csr.InRow Csr.row
  constructor
  · rintro ⟨k, h1, h2, rfl⟩
    exact ⟨A.ent k, Csr.mem_seg.mpr ⟨k, h1, h2, rfl⟩, rfl⟩
  · rintro ⟨e, he, rfl⟩
    obtain ⟨k, h1, h2, rfl⟩ := Csr.mem_seg.mp he
    exact ⟨k, h1, h2, rfl⟩

theorem Csr.WF.row_of_pos {A : Csr} (h : A.WF) {k : Nat} (hk : k < A.p.g A.n) :
    ∃ i, i < A.n ∧ A.p.g i ≤ k ∧ k < A.p.g (i + 1) := by
  have key : ∀ n, n ≤ A.n → k < A.p.g n → ∃ i, i < n ∧ A.p.g i ≤ k ∧ k < A.p.g (i + 1) := by
    intro n
    induction n with
    | zero => intro _ h2; rw [h.p_zero] at h2; omega
    | succ n ih =>
      intro h1 h2
      by_cases hc : k < A.p.g n
      · obtain ⟨i, e1, e2⟩ := ih (by omega) hc
        exact ⟨i, by omega, e2⟩
      · exact ⟨n, by omega, by omega, h2⟩
  exact key A.n (le_refl _) hk

theorem Csr.WF.mem_row {A : Csr} (h : A.WF) {i : Nat} (hi : i < A.n) {e : Nat × Int}
    (he : e ∈ A.row i) : e.1 < A.m := by
  obtain ⟨k, h1, h2, rfl⟩ := Csr.mem_seg.mp he
  exact h.j_lt k (h.row_lt hi h2)

theorem Csr.WFV.mem_row_small {A : Csr} {q : ℕ} (h : A.WFV q) {i : Nat} (hi : i < A.n)
    {e : Nat × Int} (he : e ∈ A.row i) : Small q e.2 := by
  obtain ⟨k, h1, h2, rfl⟩ := Csr.mem_seg.mp he
  exact h.small k (h.toWF.row_lt hi h2)

theorem Csr.WF.toWFV {A : Csr} (h : A.WF) {q : ℕ} (hg : A.F.Good q) (hx : 0 < A.p.g A.n → A.x.isSome = true)
    (hs : ∀ i, i < A.n → ∀ e ∈ A.row i, Small q e.2) : A.WFV q where
  toWF := h
  good := hg
  has_x := hx
  small := by
    intro k hk
    obtain ⟨i, h1, h2, h3⟩ := h.row_of_pos hk
    exact hs i h1 (A.ent k) (Csr.mem_seg.mpr ⟨k, h2, h3, rfl⟩)

/-! ### Building a matrix row after row -/

/-- Position of the first entry of row `i` when the rows are `R 0, R 1, ...`. -/
def offs {α : Type} (R : Nat → List α) : Nat → Nat
  | 0 => 0
  | i + 1 => offs R i + (R i).length

/-- Rows `0, ..., i - 1` one after the other. -/
def flat {α : Type} (R : Nat → List α) : Nat → List α
  | 0 => []
  | i + 1 => flat R i ++ R i

theorem length_flat {α : Type} (R : Nat → List α) (i : Nat) : (flat R i).length = offs R i := by
  induction i with
  | zero => rfl
  | succ i ih => simp [flat, offs, ih]

theorem offs_mono {α : Type} (R : Nat → List α) {i k : Nat} (h : i ≤ k) : offs R i ≤ offs R k := by
  induction k with
  | zero => have : i = 0 := by omega
            subst this; exact le_refl _
  | succ k ih =>
    by_cases he : i = k + 1
    · subst he; exact le_refl _
    · have := ih (by omega); simp only [offs]; omega

theorem offs_congr {α : Type} {R S : Nat → List α} {n : Nat} (h : ∀ i < n, R i = S i) :
    offs R n = offs S n := by
  induction n with
  | zero => rfl
  | succ n ih => simp only [offs]; rw [ih (fun i hi => h i (by omega)), h n (by omega)]

theorem flat_drop_take {α : Type} (R : Nat → List α) (i n : Nat) (h : i < n) :
    ((flat R n).drop (offs R i)).take (R i).length = R i := by
  induction n with
  | zero => omega
  | succ n ih =>
    by_cases he : i = n
    · subst he
      simp only [flat]
      rw [List.drop_append_of_le_length (by rw [length_flat]),
        List.drop_of_length_le (by rw [length_flat])]
      simp
    · simp only [flat]
      have h1 : offs R (i + 1) ≤ offs R n := offs_mono R (by omega)
      simp only [offs] at h1
      rw [List.drop_append_of_le_length (by rw [length_flat]; omega),
        List.take_append_of_le_length (by rw [List.length_drop, length_flat]; omega)]
      exact ih (by omega)

/-- If the row pointers and the entries are those of the rows `R`, then the matrix is
well-formed and its rows are `R`. -/
theorem Csr.of_flat {B : Csr} {R : Nat → List (Nat × Int)} (hps : B.n < B.p.size)
    (hp : ∀ i, i ≤ B.n → B.p.g i = offs R i)
    (hseg : B.seg 0 (offs R B.n) = flat R B.n) (hsz : offs R B.n ≤ B.j.size)
    (hx : ∀ a, B.x = some a → offs R B.n ≤ a.size)
    (hm : ∀ i, i < B.n → ∀ e ∈ R i, e.1 < B.m)
    (hF : B.F.p < 0 ∨ (2 ≤ B.F.p ∧ B.F.p ≤ 0xfffffffb)) :
    B.WF ∧ ∀ i, i < B.n → B.row i = R i := by
  have hrow : ∀ i, i < B.n → B.row i = R i := by
    intro i hi
    unfold Csr.row
    rw [hp i (by omega), hp (i + 1) (by omega)]
    have h1 : offs R i ≤ offs R (i + 1) := offs_mono R (by omega)
    have h2 : offs R (i + 1) ≤ offs R B.n := offs_mono R (by omega)
    rw [B.seg_drop_take (Nat.zero_le _) h1 h2, hseg]
    have := flat_drop_take R i B.n hi
    simp only [offs, Nat.sub_zero, Nat.add_sub_cancel_left]
    exact this
  have hwf : ∀ k, k < B.p.g B.n → ∃ i, i < B.n ∧ B.p.g i ≤ k ∧ k < B.p.g (i + 1) := by
    intro k hk
    have key : ∀ n, n ≤ B.n → k < B.p.g n → ∃ i, i < n ∧ B.p.g i ≤ k ∧ k < B.p.g (i + 1) := by
      intro n
      induction n with
      | zero => intro _ h2; rw [hp 0 (Nat.zero_le _)] at h2; simp [offs] at h2
      | succ n ih =>
        intro h1 h2
        by_cases hc : k < B.p.g n
        · obtain ⟨i, e1, e2⟩ := ih (by omega) hc
          exact ⟨i, by omega, e2⟩
        · exact ⟨n, by omega, by omega, h2⟩
    exact key B.n (le_refl _) hk
  refine ⟨⟨hps, ?_, ?_, ?_, ?_, ?_, hF⟩, hrow⟩
  · rw [hp 0 (Nat.zero_le _)]; rfl
  · intro i hi
    rw [hp i (by omega), hp (i + 1) (by omega)]
    exact offs_mono R (by omega)
  · rw [hp _ (le_refl _)]; exact hsz
  · intro k hk
    obtain ⟨i, h1, h2, h3⟩ := hwf k hk
    have := hm i h1 (B.ent k) (by
      rw [← hrow i h1]; exact Csr.mem_seg.mpr ⟨k, h2, h3, rfl⟩)
    exact this
  · intro a ha
    rw [hp _ (le_refl _)]; exact hx a ha

theorem Csr.WF.p_eq_offs {A : Csr} (h : A.WF) {i : Nat} (hi : i ≤ A.n) :
    A.p.g i = offs A.row i := by
  induction i with
  | zero => exact h.p_zero
  | succ i ih =>
    have := ih (by omega)
    simp only [offs]
    rw [← this, A.length_row]
    have := h.p_mono i (by omega)
    omega

theorem Csr.WF.seg_eq_flat {A : Csr} (h : A.WF) {i : Nat} (hi : i ≤ A.n) :
    A.seg 0 (A.p.g i) = flat A.row i := by
  induction i with
  | zero => rw [h.p_zero]; rfl
  | succ i ih =>
    simp only [flat]
    rw [← ih (by omega)]
    exact (A.seg_append (Nat.zero_le _) (h.p_mono i (by omega))).symm

/-! ### Writing to the arrays -/

/-- Effect of `setX` on a matrix that has values; no effect otherwise. -/
def Csr.updX (A : Csr) (k : Nat) (v : Int) : Csr := { A with x := A.x.map (fun a => a.upd k v) }

/-- Effect of `setJ`. -/
def Csr.updJ (A : Csr) (k v : Nat) : Csr := { A with j := A.j.upd k v }

/-- Effect of `setP`. -/
def Csr.updP (A : Csr) (k v : Nat) : Csr := { A with p := A.p.upd k v }

@[simp] theorem Ok_setP (A : Csr) (k v : Nat) (Q : Csr → Prop) :
    Ok (A.setP k v) Q ↔ k < A.p.size ∧ Q (A.updP k v) := by
  simp [Csr.setP, Csr.updP]

@[simp] theorem Ok_setJ (A : Csr) (k v : Nat) (Q : Csr → Prop) :
    Ok (A.setJ k v) Q ↔ k < A.j.size ∧ Q (A.updJ k v) := by
  simp [Csr.setJ, Csr.updJ]

/-- All the value arrays have room for position `k`. -/
def Csr.Room (A : Csr) (k : Nat) : Prop := ∀ a, A.x = some a → k < a.size

theorem Ok_setX {A : Csr} {k : Nat} {v : Int} {Q : Csr → Prop} (h : A.x.isSome = true)
    (hr : A.Room k) (hQ : Q (A.updX k v)) : Ok (A.setX k v) Q := by
  obtain ⟨a, ha⟩ := Option.isSome_iff_exists.mp h
  unfold Csr.setX
  rw [ha]
  simp only [Ok_bind, Ok_deref_some, Ok_wr, Ok_ok]
  refine ⟨hr a ha, ?_⟩
  unfold Csr.updX at hQ
  rw [ha] at hQ
  exact hQ

theorem rdX_wf {A : Csr} (h : A.WF) (hx : A.x.isSome = true) {k : Nat} (hk : k < A.p.g A.n)
    {Q : Int → Prop} (hQ : Q (A.val k)) : Ok (rdX A k) Q := by
  obtain ⟨a, ha⟩ := Option.isSome_iff_exists.mp hx
  have hs := h.x_size a ha
  unfold rdX
  rw [ha]
  simp only [Ok_bind, Ok_deref_some, Ok_rd]
  refine ⟨by omega, ?_⟩
  have : A.val k = a.g k := by unfold Csr.val; rw [ha]
  rwa [this] at hQ

theorem Ok_copyX {A B : Csr} {t k : Nat} {Q : Csr → Prop} (hA : A.WF) (ht : t < A.p.g A.n)
    (hx : B.x.isSome = true → A.x.isSome = true) (hr : B.Room k) (hQ : Q (B.updX k (A.val t))) :
    Ok (copyX A t B k) Q := by
  unfold copyX
  by_cases hb : B.x.isSome = true
  · rw [if_pos hb, Ok_bind]
    exact rdX_wf hA (hx hb) ht (Ok_setX hb hr hQ)
  · rw [if_neg hb]
    have : B.updX k (A.val t) = B := by
      have hn : B.x = none := by simpa using hb
      unfold Csr.updX; rw [hn]; cases B; simp_all
    rw [this] at hQ
    exact hQ

@[simp] theorem Csr.n_updX (A : Csr) (k v) : (A.updX k v).n = A.n := rfl
@[simp] theorem Csr.m_updX (A : Csr) (k v) : (A.updX k v).m = A.m := rfl
@[simp] theorem Csr.p_updX (A : Csr) (k v) : (A.updX k v).p = A.p := rfl
@[simp] theorem Csr.j_updX (A : Csr) (k v) : (A.updX k v).j = A.j := rfl
@[simp] theorem Csr.F_updX (A : Csr) (k v) : (A.updX k v).F = A.F := rfl
@[simp] theorem Csr.n_updJ (A : Csr) (k v) : (A.updJ k v).n = A.n := rfl
@[simp] theorem Csr.m_updJ (A : Csr) (k v) : (A.updJ k v).m = A.m := rfl
@[simp] theorem Csr.p_updJ (A : Csr) (k v) : (A.updJ k v).p = A.p := rfl
@[simp] theorem Csr.x_updJ (A : Csr) (k v) : (A.updJ k v).x = A.x := rfl
@[simp] theorem Csr.j_updJ (A : Csr) (k v) : (A.updJ k v).j = A.j.upd k v := rfl
@[simp] theorem Csr.F_updJ (A : Csr) (k v) : (A.updJ k v).F = A.F := rfl
@[simp] theorem Csr.n_updP (A : Csr) (k v) : (A.updP k v).n = A.n := rfl
@[simp] theorem Csr.m_updP (A : Csr) (k v) : (A.updP k v).m = A.m := rfl
@[simp] theorem Csr.j_updP (A : Csr) (k v) : (A.updP k v).j = A.j := rfl
@[simp] theorem Csr.x_updP (A : Csr) (k v) : (A.updP k v).x = A.x := rfl
@[simp] theorem Csr.p_updP (A : Csr) (k v) : (A.updP k v).p = A.p.upd k v := rfl
@[simp] theorem Csr.F_updP (A : Csr) (k v) : (A.updP k v).F = A.F := rfl
@[simp] theorem Csr.isSome_updX (A : Csr) (k v) : (A.updX k v).x.isSome = A.x.isSome := by
  simp [Csr.updX]

theorem Csr.room_updX {A : Csr} {k l : Nat} {v : Int} : (A.updX k v).Room l ↔ A.Room l := by
  unfold Csr.Room Csr.updX
  cases A.x <;> simp

@[simp] theorem Csr.room_updJ {A : Csr} {k l v : Nat} : (A.updJ k v).Room l ↔ A.Room l := Iff.rfl
@[simp] theorem Csr.room_updP {A : Csr} {k l v : Nat} : (A.updP k v).Room l ↔ A.Room l := Iff.rfl
attribute [simp] Csr.room_updX

theorem Csr.val_updX_ne (A : Csr) (k l : Nat) (v : Int) (h : l ≠ k) :
    (A.updX k v).val l = A.val l := by
  unfold Csr.val Csr.updX
  cases hx : A.x with
  | none => simp
  | some a => simp [g_upd_ne _ _ _ _ h]

theorem Csr.val_updX_eq (A : Csr) (k : Nat) (v : Int) (hr : A.Room k) :
    (A.updX k v).val k = if A.x.isSome then v else 1 := by
  unfold Csr.val Csr.updX
  cases hx : A.x with
  | none => simp
  | some a => simp [g_upd_eq _ _ _ (hr a hx)]

@[simp] theorem Csr.val_updJ (A : Csr) (k v l) : (A.updJ k v).val l = A.val l := rfl
@[simp] theorem Csr.val_updP (A : Csr) (k v l) : (A.updP k v).val l = A.val l := rfl
@[simp] theorem Csr.ent_updP (A : Csr) (k v l) : (A.updP k v).ent l = A.ent l := rfl
@[simp] theorem Csr.seg_updP (A : Csr) (k v lo hi) : (A.updP k v).seg lo hi = A.seg lo hi := rfl

theorem Csr.ent_upd_ne (A : Csr) (k c l : Nat) (v : Int) (h : l ≠ k) :
    ((A.updJ k c).updX k v).ent l = A.ent l := by
  unfold Csr.ent
  rw [Csr.val_updX_ne _ _ _ _ h, Csr.j_updX, Csr.j_updJ, g_upd_ne _ _ _ _ h, Csr.val_updJ]

theorem Csr.ent_upd_eq (A : Csr) (k c : Nat) (v : Int) (hj : k < A.j.size) (hr : A.Room k) :
    ((A.updJ k c).updX k v).ent k = (c, if A.x.isSome then v else 1) := by
  unfold Csr.ent
  rw [Csr.val_updX_eq _ _ _ (by simpa using hr), Csr.j_updX, Csr.j_updJ, g_upd_eq _ _ _ hj,
    Csr.x_updJ]

theorem Csr.seg_upd_ge (A : Csr) (k c lo hi : Nat) (v : Int) (h : hi ≤ k) :
    ((A.updJ k c).updX k v).seg lo hi = A.seg lo hi :=
  Csr.seg_congr (fun l _ h2 => A.ent_upd_ne k c l v (by omega))

theorem Csr.seg_upd_push (A : Csr) {k c lo : Nat} {v : Int} (hl : lo ≤ k) (hj : k < A.j.size)
    (hr : A.Room k) :
    ((A.updJ k c).updX k v).seg lo (k + 1)
      = A.seg lo k ++ [(c, if A.x.isSome then v else 1)] := by
  rw [Csr.seg_succ _ hl, Csr.seg_upd_ge _ _ _ _ _ _ (le_refl _), Csr.ent_upd_eq _ _ _ _ hj hr]

/-! ### Allocation -/

/-- A fresh matrix: dimensions, capacity, `p[0] = 0`. -/
structure Fresh (B : Csr) (n m nz : Nat) (G : Int) (wv : Bool) : Prop where
  n_eq : B.n = n
  m_eq : B.m = m
  p_size : B.p.size = n + 1
  p_zero : B.p.g 0 = 0
  j_size : B.j.size = nz
  x_isSome : B.x.isSome = wv
  x_size : ∀ a, B.x = some a → a.size = nz
  F_p : B.F.p = G

theorem csr_alloc_spec (jk : Junk) {F : Field} (n m nz : Nat) (wv : Bool)
    (h : F.p < 0 ∨ (2 ≤ F.p ∧ F.p ≤ 0xfffffffb)) :
    Ok (csr_alloc jk n m nz F.p wv) (fun B => Fresh B n m nz F.p wv ∧
      ∀ q, F.Good q → B.F.Good q) := by
  unfold csr_alloc
  simp only [Ok_bind, Ok_wr, Ok_ok]
  refine (field_init_ok h).mono ?_
  rintro G ⟨hG1, hG2⟩
  refine ⟨by simp, ⟨rfl, rfl, by simp, by simp [g_upd], by simp, ?_, ?_, hG1⟩, hG2⟩
  · cases wv <;> simp
  · intro a ha
    cases wv
    · simp at ha
    · simp at ha; rw [← ha]; simp

end Spasm
