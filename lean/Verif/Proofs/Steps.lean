import Verif.Proofs.Grow
import Verif.Proofs.Partial
import Verif.Proofs.Permutation

/-
Steps of a factorization in progress.
-/

namespace Spasm

open Finset

/-- Reallocation keeps the echelon form. -/
theorem Echelon.of_grow {q : ℕ} {U0 U : Csr} {qinv : Array Int} (hE : Echelon q U0 qinv)
    {unz : Nat} (h : Grow U0 U unz []) : Echelon q U qinv := by
  have hn := h.n_eq
  have hm := h.m_eq
  have hp := h.p_eq
  have h0 := hE.wfv.toWF
  have hu : unz = U0.p.g U0.n := by simpa using h.unz_eq
  have hrow : ∀ i, i < U0.n → U0.p.g (i + 1) ≤ U0.p.g U0.n := fun i hi => (h0.row_le hi).2
  have hj : ∀ k, k < U0.p.g U0.n → U.j.g k = U0.j.g k := fun k hk => congrArg Prod.fst (h.old k hk)
  have hv : ∀ k, k < U0.p.g U0.n → U.val k = U0.val k := fun k hk => congrArg Prod.snd (h.old k hk)
  have hpiv : ∀ i, i < U0.n → U.pivot i = U0.pivot i := by
    intro i hi
    have := hE.ne i hi
    have := hrow i hi
    unfold Csr.pivot
    rw [hp i (by omega), hj _ (by omega)]
  have hps := h.psize
  have hin : ∀ i c, i < U0.n → U.InRow i c → U0.InRow i c := by
    rintro i c hi ⟨k, e1, e2, e3⟩
    rw [hp i (by omega)] at e1
    rw [hp (i + 1) (by omega)] at e2
    have := hrow i hi
    exact ⟨k, e1, e2, by rw [← hj k (by omega)]; exact e3⟩
  refine ⟨⟨⟨?_, ?_, ?_, ?_, ?_, ?_, ?_⟩, ?_, ?_, ?_⟩, ?_, ?_, ?_, ?_, ?_, ?_, ?_, ?_, ?_⟩
  · have := h0.p_size; omega
  · rw [hp 0 (by omega)]; exact h0.p_zero
  · intro i hi
    rw [hp i (by omega), hp (i + 1) (by omega)]; exact h0.p_mono i (by omega)
  · rw [hn, hp _ (le_refl _), ← hu]; exact h.cap
  · intro k hk
    rw [hn, hp _ (le_refl _)] at hk
    rw [hj k hk, hm]; exact h0.j_lt k hk
  · intro a ha
    have := h.x_size a ha
    have := h.cap
    rw [hn, hp _ (le_refl _)]; omega
  · rw [h.F_eq]; exact h0.field_ok
  · rw [h.F_eq]; exact hE.wfv.good
  · intro _; exact h.x_some
  · intro k hk
    rw [hn, hp _ (le_refl _)] at hk
    rw [hv k hk]; exact hE.wfv.small k hk
  · rw [hm]; exact hE.size
  · intro j hj'; exact hE.ge j (by omega)
  · intro j hj'; rw [hn]; exact hE.lt j (by omega)
  · intro i hi
    rw [hp i (by omega), hp (i + 1) (by omega)]; exact hE.ne i (by omega)
  · intro i hi
    rw [hpiv i (by omega)]; exact hE.piv i (by omega)
  · intro j hj' hq
    have := hE.lt j (by omega)
    rw [hpiv _ (by omega)]; exact hE.loc j (by omega) hq
  · intro i hi
    have := hE.ne i (by omega)
    have := hrow i (by omega)
    rw [hp i (by omega), hv _ (by omega)]; exact hE.one i (by omega)
  · intro i hi k e1 e2
    rw [hp i (by omega)] at e1
    rw [hp (i + 1) (by omega)] at e2
    have := hrow i (by omega)
    rw [hpiv i (by omega), hj k (by omega)]; exact hE.once i (by omega) k e1 e2
  · intro i k hik hk hr
    rw [hpiv i (by omega)] at hr
    exact hE.tri i k hik (by omega) (hin k _ (by omega) hr)

theorem Grow.entry_eq {U0 U : Csr} {unz : Nat} {l : List (Nat × Int)} (h : Grow U0 U unz l)
    (h0 : U0.WF) (q : ℕ) {i : Nat} (hi : i < U0.n) : U.entry q i = U0.entry q i := by
  ext c
  have hr := h0.row_le hi
  unfold Csr.entry
  rw [h.p_eq i (by omega), h.p_eq (i + 1) (by omega)]
  refine Finset.sum_congr rfl fun k hk => ?_
  have hk' := mem_Ico.mp hk
  have hj : U.j.g k = U0.j.g k := congrArg Prod.fst (h.old k (by omega))
  have hv : U.val k = U0.val k := congrArg Prod.snd (h.old k (by omega))
  rw [hj, hv]

theorem Grow.pivot_eq {U0 U : Csr} {unz : Nat} {l : List (Nat × Int)} (h : Grow U0 U unz l)
    {q : ℕ} {qinv : Array Int} (hE : Echelon q U0 qinv) {i : Nat} (hi : i < U0.n) :
    U.pivot i = U0.pivot i := by
  have := hE.ne i hi
  have := (hE.wfv.toWF.row_le hi).2
  unfold Csr.pivot
  rw [h.p_eq i (by omega)]
  exact congrArg Prod.fst (h.old _ (by omega))

theorem spanOf_congr' {q : ℕ} {f g : Nat → Nat → ZMod q} {n n' : Nat} (hn : n = n')
    (h : ∀ i, i < n → f i = g i) : spanOf f n = spanOf g n' := by
  subst hn
  unfold spanOf
  congr 1
  ext v
  constructor
  · rintro ⟨i, hi, rfl⟩; exact ⟨i, hi, (h i hi).symm⟩
  · rintro ⟨i, hi, rfl⟩; exact ⟨i, hi, h i hi⟩

section
variable {q : ℕ} {A U0 U : Csr} {qinv : Array Int} {v : Nat → Nat → ZMod q} {nr : Nat}
  {o : Nat → Nat} {old : Nat} {complete : Bool} {L : Option Triplet} {Lp : Option (Array Nat)}

theorem PartialL.congr {Z : Triplet} {P : Nat → Nat} (h : PartialL q A U0 Z P v nr o old complete)
    (hn : U.n = U0.n) (hU : ∀ i, i < U0.n → U.entry q i = U0.entry q i) {v' : Nat → Nat → ZMod q}
    {o' : Nat → Nat} (hv : ∀ t, t < nr → v' t = v t) (ho : ∀ t, t < nr → o' t = o t) :
    PartialL q A U Z P v' nr o' old complete := by
  have hs : ∀ i c, ∑ j ∈ range U.n, Z.sum q i j * U.entry q j c =
      ∑ j ∈ range U0.n, Z.sum q i j * U0.entry q j c := by
    intro i c
    rw [hn]
    refine Finset.sum_congr rfl fun j hj => ?_
    rw [hU j (mem_range.mp hj)]
  refine ⟨h.wfv, h.n_eq, h.m_ge, ?_, ?_, ?_, ?_, ?_, ?_, ?_, ?_, ?_, ?_⟩
  · intro i c hc; rw [hn]; exact h.has i c hc
  · intro k hk; exact h.P_lt k (by omega)
  · intro k hk; exact h.diag k (by omega)
  · intro k j hk hj; exact h.upper k j hk (by omega)
  · intro i hi hc c
    rw [hs]
    refine h.prod i hi ?_ c
    rcases hc with ⟨k, hk, e⟩ | ⟨hc, ht⟩
    · exact Or.inl ⟨k, by omega, e⟩
    · exact Or.inr ⟨hc, fun t ht' => by rw [← ho t ht']; exact ht t ht'⟩
  · intro t ht; rw [ho t ht]; exact h.rem_lt t ht
  · intro s t hs ht e
    rw [ho s hs, ho t ht] at e; exact h.rem_inj s t hs ht e
  · intro k t hk ht; rw [ho t ht]; exact h.rem_new k t (by omega) ht
  · intro t ht c hc; rw [ho t ht] at hc; exact h.rem_old t ht c hc
  · intro t ht c; rw [hs, ho t ht, hv t ht]; exact h.rem t ht c

/-- The new row has no repeated column. -/
theorem Csr.NoDup.grow {U0 U : Csr} (hc : U0.NoDup) {unz : Nat} {l : List (Nat × Int)} (h : Grow U0 U unz l)
    (h0 : U0.WF) {U' : Csr} (hU' : U' = ({ U with n := U.n + 1 }.updP (U.n + 1) unz)) (hps : U0.n + 1 < U0.p.size)
    (hd : (l.map Prod.fst).Nodup) : U'.NoDup := by
  obtain ⟨a1, -, -, -, -, -, -, -, -, a10, a11⟩ := h.ents h0 hU' hps
  rw [nodup_row_iff] at hc ⊢
  intro i hi
  rw [a1] at hi
  by_cases hi' : i = U0.n
  · rw [hi', a11]; exact hd
  · rw [a10 i (by omega)]; exact hc i (by omega)

/-- The new row has no zero. -/
theorem Csr.RowsNonzero.grow {U0 U : Csr} (hc : U0.RowsNonzero) {unz : Nat} {l : List (Nat × Int)}
    (h : Grow U0 U unz l) (h0 : U0.WF) {U' : Csr} (hU' : U' = ({ U with n := U.n + 1 }.updP (U.n + 1) unz))
    (hps : U0.n + 1 < U0.p.size) (hz : ∀ e ∈ l, e.2 ≠ 0) : U'.RowsNonzero := by
  obtain ⟨a1, -, -, -, -, -, -, -, -, a10, a11⟩ := h.ents h0 hU' hps
  intro i hi
  rw [a1] at hi
  by_cases hi' : i = U0.n
  · rw [hi', a11]; exact hz
  · rw [a10 i (by omega)]; exact hc i (by omega)

theorem Grow.row_eq {U0 U : Csr} {unz : Nat} {l : List (Nat × Int)} (h : Grow U0 U unz l) (h0 : U0.WF) {i : Nat}
    (hi : i < U0.n) : U.row i = U0.row i := by
  have hr := h0.row_le hi
  unfold Csr.row
  rw [h.p_eq i (by omega), h.p_eq (i + 1) (by omega)]
  exact Csr.seg_congr fun k _ hk => h.old k (by omega)

theorem Csr.NoDup.of_grow {U0 U : Csr} (hc : U0.NoDup) {unz : Nat} (h : Grow U0 U unz []) (h0 : U0.WF) : U.NoDup := by
  rw [nodup_row_iff] at hc ⊢
  intro i hi
  rw [h.n_eq] at hi
  rw [h.row_eq h0 hi]; exact hc i hi

theorem Csr.RowsNonzero.of_grow {U0 U : Csr} (hc : U0.RowsNonzero) {unz : Nat} (h : Grow U0 U unz []) (h0 : U0.WF) :
    U.RowsNonzero := by
  intro i hi
  rw [h.n_eq] at hi
  rw [h.row_eq h0 hi]; exact hc i hi

/-- Reallocation of `U`, and other names for the remaining rows. -/
theorem Partial.of_grow (h : Partial q A U0 qinv L Lp v nr o old complete) {unz : Nat}
    (hG : Grow U0 U unz []) {v' : Nat → Nat → ZMod q}
    {o' : Nat → Nat} (hv : ∀ t, t < nr → v' t = v t) (ho : ∀ t, t < nr → o' t = o t) :
    Partial q A U qinv L Lp v' nr o' old complete := by
  have h0 := h.ech.wfv.toWF
  have hn := hG.n_eq
  refine ⟨h.ech.of_grow hG, ?_, ?_, ?_, hG.x_some, hG.x_size, ?_, ?_, ?_, h.p_size, h.nodup.of_grow hG h0,
    fun hL => (h.nozero hL).of_grow hG h0, ?_⟩
  · rw [hG.m_eq]; exact h.m_eq
  · rw [hG.psize]; exact h.psize
  · rw [hn]; exact h.room
  · rw [hn]; exact h.old_le
  · intro t ht i hi
    have := h.old_le
    rw [hv t ht, hG.pivot_eq h.ech (by omega)]
    exact h.zero t ht i hi
  · rw [← h.span]
    congr 1
    · exact spanOf_congr' hn fun i hi => hG.entry_eq h0 q (by omega)
    · exact spanOf_congr' rfl hv
  · intro Z hZ
    exact (h.L Z hZ).congr hn (fun i hi => hG.entry_eq h0 q hi) hv ho

/-- Other names for the remaining rows. -/
theorem Partial.rename (h : Partial q A U qinv L Lp v nr o old complete) {v' : Nat → Nat → ZMod q}
    {o' : Nat → Nat} (hv : ∀ t, t < nr → v' t = v t) (ho : ∀ t, t < nr → o' t = o t) :
    Partial q A U qinv L Lp v' nr o' old complete :=
  h.of_grow (Grow.refl h.ech.wfv.toWF h.x_some h.x_size) hv ho

/-- The first remaining row gives a new row of `U`. -/
theorem Partial.pivot [Fact q.Prime]
    (h : Partial q A U0 qinv L Lp v (nr + 1) o old complete) {unz j : Nat} {l : List (Nat × Int)}
    (hG : Grow U0 U unz ((j, 1) :: l)) (hj : j < U0.m) (hqj : qinv.g j < 0)
    (hl : ∀ e ∈ l, e.1 < U0.m ∧ Small q e.2 ∧ qinv.g e.1 < 0 ∧ e.1 ≠ j)
    (hcl : (l.map Prod.fst).Nodup ∧ ∀ e ∈ l, e.2 ≠ 0) {U' : Csr} (hU' : U' = ({ U with n := U.n + 1 }.updP (U.n + 1) unz))
    {ℓ : Nat → ZMod q}
    (hv : ∀ c, v 0 c = ∑ k ∈ range U0.n, ℓ k * U0.entry q k c + ℓ U0.n * lsum q ((j, 1) :: l) c)
    (hln : ℓ U0.n ≠ 0) {L' : Option Triplet} {Lp' : Option (Array Nat)}
    (hnone : L = none → L' = none)
    (hsome : ∀ Z, L = some Z → ∃ Z' a, L' = some Z' ∧ AddsRow q Z Z' (o 0) (U0.n + 1) ℓ ∧
      Lp = some a ∧ Lp' = some (a.upd U0.n (o 0))) :
    Partial q A U' (qinv.upd j (U0.n : Int)) L' Lp' (fun t => v (t + 1)) nr (fun t => o (t + 1)) old
      complete ∧ Grow U' U' unz [] := by
  have h0 := h.ech.wfv.toWF
  have hroom := h.room
  have hps := h.psize
  have hps' : U0.n + 1 < U0.p.size := by omega
  obtain ⟨g1, g2⟩ := h.ech.grow hG hps' hj hqj hl hU'
  obtain ⟨e1, e2⟩ := hG.entries h0 hU' hps' q
  obtain ⟨a1, a2, -, a4, -, -, a7, -, a9, -, -⟩ := hG.ents h0 hU' hps'
  have hold := h.old_le
  have hv' : ∀ c, v 0 c = ∑ k ∈ range (U0.n + 1), ℓ k * U'.entry q k c := by
    intro c
    rw [Finset.sum_range_succ, e2 c, hv c]
    congr 1
    exact Finset.sum_congr rfl fun k hk => by rw [e1 k (mem_range.mp hk)]
  have hpiv : ∀ i, i < U0.n → U'.pivot i = U0.pivot i := by
    intro i hi
    have := h.ech.ne i hi
    have := (h0.row_le hi).2
    unfold Csr.pivot
    rw [a7 i (by omega)]
    exact congrArg Prod.fst (a9 _ (by omega))
  have hlold : ∀ k, k < old → ℓ k = 0 := by
    refine h.coeff_old (t := 0) (by omega) (w := fun c => ℓ U0.n * lsum q ((j, 1) :: l) c) ?_ ?_
    · intro c; rw [hv c, add_comm]
    · intro i hi
      have hnot : lsum q ((j, 1) :: l) (U0.pivot i) = 0 := by
        refine lsum_map_fst_not_mem ?_
        intro hmem
        have hq : qinv.g (U0.pivot i) < 0 := by
          rw [List.map_cons, List.mem_cons] at hmem
          rcases hmem with e | e
          · rw [e]; exact hqj
          · obtain ⟨y, hy, e⟩ := List.mem_map.mp e
            rw [← e]; exact (hl y hy).2.2.1
        rw [h.ech.piv i (by omega)] at hq
        omega
      rw [hnot, mul_zero]
  have hnd : U'.NoDup := by
    refine h.nodup.grow hG h0 hU' hps' ?_
    rw [List.map_cons, List.nodup_cons]
    refine ⟨fun hmem => ?_, hcl.1⟩
    obtain ⟨e, he, e'⟩ := List.mem_map.mp hmem
    exact (hl e he).2.2.2 e'
  have hnz : L' = none → U'.RowsNonzero := by
    intro hL
    have hL0 : L = none := by
      cases hLL : L with
      | none => rfl
      | some Z =>
        obtain ⟨Z', a, b1, -⟩ := hsome Z hLL
        rw [hL] at b1; cases b1
    refine (h.nozero hL0).grow hG h0 hU' hps' ?_
    intro e he
    rcases List.mem_cons.mp he with rfl | he
    · exact one_ne_zero
    · exact hcl.2 e he
  refine ⟨⟨g1, ?_, ?_, ?_, g2.x_some, g2.x_size, ?_, ?_, ?_, ?_, hnd, hnz, ?_⟩, g2⟩
  · rw [a2]; exact h.m_eq
  · rw [a4]; exact hps
  · omega
  · omega
  · intro t ht i hi
    rw [hpiv i (by omega)]
    exact h.zero (t + 1) (by omega) i hi
  · rw [span_pivot a1 e1 hv' hln]; exact h.span
  · intro hs
    cases L with
    | none => rw [hnone rfl] at hs; cases hs
    | some Z =>
      obtain ⟨Z', a, -, -, b3, b4⟩ := hsome Z rfl
      obtain ⟨a', b5, b6⟩ := h.p_size rfl
      rw [b3] at b5
      cases b5
      exact ⟨_, b4, by simpa using b6⟩
  · intro Z'' hZ''
    cases L with
    | none => rw [hnone rfl] at hZ''; cases hZ''
    | some Z =>
      obtain ⟨Z', a, b1, b2, b3, b4⟩ := hsome Z rfl
      obtain ⟨a', b5, b6⟩ := h.p_size rfl
      rw [b3] at b5
      cases b5
      rw [b1] at hZ''
      cases hZ''
      refine (h.L Z rfl).pivot a1 e1 hv' hln hlold b2 ?_ ?_
      · intro k hk
        rw [b3, b4]
        exact g_upd_ne _ _ _ _ (by omega)
      · rw [b4]
        exact g_upd_eq _ _ _ (by omega)

end

end Spasm

namespace Spasm

open Finset

theorem spanOf_perm {q : ℕ} {f : Nat → Nat → ZMod q} {n : Nat} {p : Nat → Nat} (hp : IsPerm p n) :
    spanOf (fun t => f (p t)) n = spanOf f n := by
  unfold spanOf
  congr 1
  ext v
  constructor
  · rintro ⟨i, hi, rfl⟩; exact ⟨p i, hp.1 i hi, rfl⟩
  · rintro ⟨i, hi, rfl⟩
    obtain ⟨k, hk, rfl⟩ := hp.surj hi
    exact ⟨k, hk, rfl⟩

/-- The remaining rows can be listed in another order. -/
theorem Partial.perm {q : ℕ} {A U : Csr} {qinv : Array Int} {v : Nat → Nat → ZMod q} {nr : Nat}
    {o : Nat → Nat} {old : Nat} {complete : Bool} {L : Option Triplet} {Lp : Option (Array Nat)}
    (h : Partial q A U qinv L Lp v nr o old complete) {p : Nat → Nat} (hp : IsPerm p nr) :
    Partial q A U qinv L Lp (fun t => v (p t)) nr (fun t => o (p t)) old complete := by
  refine ⟨h.ech, h.m_eq, h.psize, h.room, h.x_some, h.x_size, h.old_le, ?_, ?_, h.p_size, h.nodup, h.nozero, ?_⟩
  · intro t ht i hi; exact h.zero (p t) (hp.1 t ht) i hi
  · rw [spanOf_perm hp]; exact h.span
  · intro Z hZ
    have g := h.L Z hZ
    refine ⟨g.wfv, g.n_eq, g.m_ge, g.has, g.P_lt, g.diag, g.upper, ?_, ?_, ?_, ?_, ?_, ?_⟩
    · intro i hi hc c
      refine g.prod i hi ?_ c
      rcases hc with hc | ⟨hc, ht⟩
      · exact Or.inl hc
      · refine Or.inr ⟨hc, fun t ht' => ?_⟩
        obtain ⟨k, hk, rfl⟩ := hp.surj ht'
        exact ht k hk
    · intro t ht; exact g.rem_lt _ (hp.1 t ht)
    · intro s t hs ht e
      exact hp.2 s t hs ht (g.rem_inj _ _ (hp.1 s hs) (hp.1 t ht) e)
    · intro k t hk ht; exact g.rem_new k _ hk (hp.1 t ht)
    · intro t ht c hc; exact g.rem_old _ (hp.1 t ht) c hc
    · intro t ht c; exact g.rem _ (hp.1 t ht) c

/-- A factorization that has just started. -/
theorem Partial.init {q : ℕ} {A U : Csr} {qinv : Array Int} {complete : Bool} {L : Option Triplet}
    {Lp : Option (Array Nat)} (hU : U.WFV q) (hn : U.n = 0) (hm : U.m = A.m)
    (hps : A.n < U.p.size) (hx : U.x.isSome = true) (hxs : ∀ a, U.x = some a → U.j.size ≤ a.size)
    (hqs : U.m ≤ qinv.size) (hq : ∀ j, j < U.m → qinv.g j = -1)
    (hLp : L.isSome = true → ∃ a, Lp = some a ∧ A.n ≤ a.size)
    (hL : ∀ Z, L = some Z → Z.WFV q ∧ Z.n = A.n ∧ A.n ≤ Z.m ∧ Z.nz = 0) :
    Partial q A U qinv L Lp (A.entry q) A.n id 0 complete := by
  have hrow : U.rowSpace q = ⊥ := by
    rw [eq_bot_iff]
    exact spanOf_le fun i hi => by omega
  refine ⟨⟨hU, hqs, ?_, ?_, ?_, ?_, ?_, ?_, ?_, ?_⟩, hm, hps, by omega, hx, hxs, by omega, ?_, ?_, hLp,
    fun i hi => by omega, fun _ i hi => by omega, ?_⟩
  · intro j hj; rw [hq j hj]
  · intro j hj; rw [hq j hj]; omega
  · intro i hi; omega
  · intro i hi; omega
  · intro j hj h; rw [hq j hj] at h; omega
  · intro i hi; omega
  · intro i hi; omega
  · intro i k _ hk; omega
  · intro t _ i hi; omega
  · rw [hrow, bot_sup_eq]; rfl
  · intro Z hZ
    obtain ⟨h1, h2, h3, h4⟩ := hL Z hZ
    have hno : ∀ i c, ¬ Z.Has i c := by
      rintro i c ⟨k, hk, -⟩; omega
    refine ⟨h1, h2, h3, ?_, ?_, ?_, ?_, ?_, ?_, ?_, ?_, ?_, ?_⟩
    · intro i c hc; exact absurd hc (hno i c)
    · intro k hk; omega
    · intro k hk; omega
    · intro k j _ hj; omega
    · intro i hi hc c
      rcases hc with ⟨k, hk, -⟩ | ⟨-, ht⟩
      · omega
      · exact absurd rfl (ht i hi)
    · intro t ht; exact ht
    · intro s t _ _ e; exact e
    · intro k t hk; omega
    · intro t _ c hc; exact absurd hc (hno _ c)
    · intro t ht c
      rw [hn, Finset.sum_range_zero, add_zero]; rfl

/-- The first remaining row gives no new row of `U`. -/
theorem Partial.nopivot {q : ℕ} {A U0 U : Csr} {qinv : Array Int} {v : Nat → Nat → ZMod q} {nr : Nat}
    {o : Nat → Nat} {old : Nat} {complete : Bool} {L : Option Triplet} {Lp : Option (Array Nat)}
    (h : Partial q A U0 qinv L Lp v (nr + 1) o old complete) {unz : Nat}
    (hG : Grow U0 U unz [])
    {ℓ : Nat → ZMod q} (hv : ∀ c, v 0 c = ∑ k ∈ range U0.n, ℓ k * U0.entry q k c)
    {L' : Option Triplet} (hnone : L = none → L' = none)
    (hsome : ∀ Z, L = some Z → ∃ Z', L' = some Z' ∧ AddsRow q Z Z' (o 0) U0.n ℓ) :
    Partial q A U qinv L' Lp (fun t => v (t + 1)) nr (fun t => o (t + 1)) old complete := by
  have hroom := h.room
  have hlold : ∀ k, k < old → ℓ k = 0 := by
    refine h.coeff_old (t := 0) (by omega) (w := fun _ => 0) ?_ (fun _ _ => rfl)
    intro c; rw [hv c, zero_add]
  have key : Partial q A U0 qinv L' Lp (fun t => v (t + 1)) nr (fun t => o (t + 1)) old complete := by
    refine ⟨h.ech, h.m_eq, h.psize, by omega, h.x_some, h.x_size, h.old_le, ?_, ?_, ?_, h.nodup, fun hL => h.nozero (by
      cases hLL : L with
      | none => rfl
      | some Z =>
        obtain ⟨Z', b1, -⟩ := hsome Z hLL
        rw [hL] at b1; cases b1), ?_⟩
    · intro t ht i hi; exact h.zero (t + 1) (by omega) i hi
    · rw [span_nopivot hv]; exact h.span
    · intro hs
      cases L with
      | none => rw [hnone rfl] at hs; cases hs
      | some Z => exact h.p_size rfl
    · intro Z'' hZ''
      cases L with
      | none => rw [hnone rfl] at hZ''; cases hZ''
      | some Z =>
        obtain ⟨Z', b1, b2⟩ := hsome Z rfl
        rw [b1] at hZ''
        cases hZ''
        exact (h.L Z rfl).nopivot hv hlold b2
  exact key.of_grow hG (fun _ _ => rfl) (fun _ _ => rfl)

end Spasm

namespace Spasm

open Finset

/-- Every vector is the sum of a combination of the rows of `U` and of a vector that vanishes on the
pivotal columns. -/
theorem Echelon.reduce {q : ℕ} {U : Csr} {qinv : Array Int} (h : Echelon q U qinv)
    (v : Nat → ZMod q) : ∀ k, k ≤ U.n → ∃ (ℓ w : Nat → ZMod q),
      (∀ c, v c = w c + ∑ i ∈ range k, ℓ i * U.entry q i c) ∧ ∀ i, i < k → w (U.pivot i) = 0 := by
  intro k
  induction k with
  | zero => intro _; exact ⟨fun _ => 0, v, fun c => by simp, fun i hi => by omega⟩
  | succ k ih =>
    intro hk
    obtain ⟨ℓ, w, h1, h2⟩ := ih (by omega)
    refine ⟨fun i => if i = k then w (U.pivot k) else ℓ i,
      fun c => w c - w (U.pivot k) * U.entry q k c, ?_, ?_⟩
    · intro c
      rw [Finset.sum_range_succ, h1 c]
      have : ∑ i ∈ range k, (if i = k then w (U.pivot k) else ℓ i) * U.entry q i c =
          ∑ i ∈ range k, ℓ i * U.entry q i c := by
        refine Finset.sum_congr rfl fun i hi => ?_
        have := mem_range.mp hi
        rw [if_neg (by omega)]
      rw [this]
      simp only [if_true]
      ring
    · intro i hi
      simp only
      by_cases hik : i = k
      · subst hik
        rw [h.entry_pivot (by omega), mul_one, sub_self]
      · rw [h2 i (by omega), Csr.entry_eq_zero_of_not_inRow (h.tri i k (by omega) (by omega)),
          mul_zero, sub_zero]

/-- If all columns are pivotal then `U` spans everything. -/
theorem Echelon.full {q : ℕ} {U : Csr} {qinv : Array Int} (h : Echelon q U qinv) (hn : U.n = U.m)
    {v : Nat → ZMod q} (hv : ∀ c, U.m ≤ c → v c = 0) : v ∈ U.rowSpace q := by
  obtain ⟨ℓ, w, h1, h2⟩ := h.reduce v U.n (le_refl _)
  have hperm : IsPerm U.pivot U.n := by
    refine ⟨fun i hi => by rw [hn]; exact h.pivot_lt hi, ?_⟩
    intro i k hi hk e
    have e1 := h.piv i hi
    rw [e, h.piv k hk] at e1
    omega
  have hw : w = fun _ => 0 := by
    ext c
    by_cases hc : c < U.m
    · obtain ⟨i, hi, rfl⟩ := hperm.surj (by rw [hn]; exact hc)
      exact h2 i hi
    · have := h1 c
      rw [hv c (by omega), Finset.sum_eq_zero, add_zero] at this
      · exact this.symm
      · intro i hi
        rw [h.wfv.toWF.entry_ge (mem_range.mp hi) (by omega), mul_zero]
  have : v = fun c => ∑ i ∈ range U.n, ℓ i * U.entry q i c := by
    ext c; rw [h1 c, hw, zero_add]
  rw [this]
  exact sum_mem_spanOf ℓ

/-- Without `L`, the rest can be dropped if it is spanned by `U`. -/
theorem Partial.finish {q : ℕ} {A U : Csr} {qinv : Array Int} {v : Nat → Nat → ZMod q} {nr : Nat}
    {o : Nat → Nat} {old : Nat} {complete : Bool} {Lp : Option (Array Nat)}
    (h : Partial q A U qinv none Lp v nr o old complete) (hv : ∀ t, t < nr → v t ∈ U.rowSpace q)
    (v' : Nat → Nat → ZMod q) (o' : Nat → Nat) :
    Partial q A U qinv none Lp v' 0 o' old complete := by
  have hroom := h.room
  refine ⟨h.ech, h.m_eq, h.psize, by omega, h.x_some, h.x_size, h.old_le, fun t ht => by omega, ?_,
    (fun hs => nomatch hs), h.nodup, h.nozero, (fun Z hZ => nomatch hZ)⟩
  rw [← h.span]
  refine le_antisymm (sup_le le_sup_left (spanOf_le fun t ht => by omega)) ?_
  exact sup_le le_sup_left (le_trans (spanOf_le hv) le_sup_left)

end Spasm
