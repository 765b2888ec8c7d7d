import Verif.Proofs.SparseSolve
import Verif.Proofs.Permutation
import Verif.Spec.Triangular

namespace Spasm

open Finset

/-- Reading the first entry of row `i` in column `j`, when it is not repeated. -/
theorem diag_scan {q : ℕ} {L : Csr} (hL : L.WFV q) (hnd : L.NoDup) {i j : Nat} (hi : i < L.n)
    (hne : L.entry q i j ≠ 0) {lo hi' : Nat} (hlo : lo = L.p.g i) (hhi : hi' = L.p.g (i + 1)) :
    Ok (forBrk lo hi' (0 : Int) fun px (_ : Int) => do
      let c ← rd L.j px
      if c = j then do
        let v ← rdX L px
        .ok (.brk v)
      else .ok (.cont 0)) (fun r => Small q r.2 ∧ (r.2 : ZMod q) = L.entry q i j) := by
  subst hlo hhi
  have hnn := hL.p_nnz
  refine (Ok_forBrk (I := fun px (v : Int) => ∀ k, L.p.g i ≤ k → k < px → L.j.g k ≠ j)
    (B := fun px (v : Int) => Small q v ∧ (v : ZMod q) = L.entry q i j) (hL.row_le hi).1
    (fun k h1 h2 => by omega) ?_).mono ?_
  · rintro px v h1 h2 h3
    have hpx := hL.row_lt hi h2
    simp only [Ok_bind, Ok_rd]
    refine ⟨by omega, ?_⟩
    by_cases hc : L.j.g px = j
    · rw [if_pos hc, Ok_bind]
      apply rdX_ok hL hpx
      rw [Ok_ok]
      refine ⟨hL.small px hpx, ?_⟩
      unfold Csr.entry
      rw [Finset.sum_eq_single px]
      · rw [if_pos hc]
      · intro k hk hkp
        rw [mem_Ico] at hk
        rw [if_neg]
        intro e
        exact hkp (hnd i hi k px hk.1 hk.2 h1 h2 (e.trans hc.symm))
      · intro h; rw [mem_Ico] at h; omega
    · rw [if_neg hc, Ok_ok]
      intro k k1 k2
      by_cases he : k = px
      · rw [he]; exact hc
      · exact h3 k k1 (by omega)
  · rintro ⟨a, v⟩ (⟨-, -, h⟩ | ⟨-, h⟩)
    · exact h
    · exfalso
      apply hne
      unfold Csr.entry
      apply Finset.sum_eq_zero
      intro k hk
      rw [mem_Ico] at hk
      rw [if_neg (h k hk.1 hk.2)]

theorem zero_fill {x : Array Int} {n : Nat} (hx : n ≤ x.size) :
    Ok (forRange 0 n x fun i x => wr x i 0) (fun y => y.size = x.size ∧ (∀ i, i < n → y.g i = 0) ∧
      ∀ i, n ≤ i → y.g i = x.g i) := by
  refine Ok_forRange_imp (I := fun i (y : Array Int) => y.size = x.size ∧ (∀ k, k < i → y.g k = 0) ∧
    ∀ k, i ≤ k → y.g k = x.g k) (Nat.zero_le _) ⟨rfl, fun k hk => by omega, fun _ _ => rfl⟩ ?_
    (fun s h => h)
  rintro i y - hi ⟨h1, h2, h3⟩
  rw [Ok_wr]
  refine ⟨by omega, by simpa using h1, ?_, ?_⟩
  · intro k hk
    by_cases he : k = i
    · rw [he, g_upd_eq _ _ _ (by omega)]
    · rw [g_upd_ne _ _ _ _ he]; exact h2 k (by omega)
  · intro k hk
    rw [g_upd_ne _ _ _ _ (by omega)]; exact h3 k (by omega)

theorem sum_upd {q : ℕ} {x : Array Int} {i n : Nat} (hi : i < n) (hx : n ≤ x.size) (v : Int)
    (f : Nat → ZMod q) :
    ∑ k ∈ range n, ((x.upd i v).g k : ZMod q) * f k
      = ∑ k ∈ range n, (x.g k : ZMod q) * f k + ((v : ZMod q) - (x.g i : ZMod q)) * f i := by
  rw [Finset.sum_eq_sum_sdiff_singleton_add (mem_range.mpr hi),
    Finset.sum_eq_sum_sdiff_singleton_add (mem_range.mpr hi) (fun k => (x.g k : ZMod q) * f k),
    g_upd_eq _ _ _ (by omega)]
  have : ∑ k ∈ range n \ {i}, ((x.upd i v).g k : ZMod q) * f k
      = ∑ k ∈ range n \ {i}, (x.g k : ZMod q) * f k := by
    apply Finset.sum_congr rfl
    intro k hk
    rw [mem_sdiff, mem_singleton] at hk
    rw [g_upd_ne _ _ _ _ hk.2]
  rw [this]; ring

theorem dense_back_solve_spec {q : ℕ} [Fact q.Prime] {L : Csr} (hL : L.WFV q) (hnd : L.NoDup)
    {p : Option (Array Nat)} (hps : PermSize p L.m) (ht : LowerTri q L (permFun p))
    {b x : Array Int} (hb : L.m ≤ b.size) (hx : L.n ≤ x.size)
    (hbs : ∀ j, j < L.m → Small q (b.g j)) :
    Ok (dense_back_solve L b x p) (fun r => r.1.size = b.size ∧ r.2.size = x.size ∧
      (∀ c, c < L.m → ∑ i ∈ range L.n, (r.2.g i : ZMod q) * L.entry q i c = (b.g c : ZMod q)) ∧
      (∀ i, i < L.n → Bal q (r.2.g i)) ∧
      (∀ i, i < L.n → (∀ j, j < L.m → permFun p j ≠ i) → r.2.g i = 0) ∧
      (∀ i, L.n ≤ i → r.2.g i = x.g i)) := by
  have h2 := hL.good.two_le
  have hmx := hL.good.le_max
  have hlp := hL.p_size
  unfold dense_back_solve
  rw [Ok_bind]
  refine (zero_fill hx).mono ?_
  rintro x0 ⟨z1, z2, z3⟩
  refine Ok_forRange_imp (I := fun d (s : Array Int × Array Int) =>
      s.1.size = b.size ∧ s.2.size = x.size ∧
      (∀ c, c < L.m → (s.1.g c : ZMod q) + ∑ i ∈ range L.n, (s.2.g i : ZMod q) * L.entry q i c
        = (b.g c : ZMod q)) ∧
      (∀ c, c < L.m → L.m ≤ c + d → (s.1.g c : ZMod q) = 0) ∧
      (∀ c, c < L.m → Small q (s.1.g c)) ∧ (∀ i, i < L.n → Bal q (s.2.g i)) ∧
      (∀ i, i < L.n → (∀ j, j < L.m → L.m ≤ j + d → permFun p j ≠ i) → s.2.g i = 0) ∧
      (∀ i, L.n ≤ i → s.2.g i = x.g i)) (Nat.zero_le _) ?_ ?_ ?_
  · refine ⟨rfl, z1, ?_, fun c h1 h2 => by omega, hbs, ?_, fun i hi _ => z2 i hi, z3⟩
    · intro c _
      simp only
      rw [Finset.sum_eq_zero, add_zero]
      intro i hi
      rw [z2 i (mem_range.mp hi)]; simp
    · intro i hi; simp only; rw [z2 i hi]; exact bal_zero (by omega)
  · rintro d ⟨bb, xx⟩ - hd ⟨i1, i2, i3, i4, i5, i6, i7, i8⟩
    simp only at i1 i2 i3 i4 i5 i6 i7 i8 ⊢
    set j := L.m - 1 - d with hj
    have hjm : j < L.m := by omega
    rw [Ok_bind]
    apply permAt_ok hps hjm
    set i := permFun p j with hi
    have hin : i < L.n := ht.lt j hjm
    simp only [Ok_bind, Ok_cassert, decide_eq_true_eq, Ok_rd]
    refine ⟨hin, by omega, by omega, ?_⟩
    refine (diag_scan hL hnd hin (ht.diag j hjm) rfl rfl).mono ?_
    rintro ⟨_, dg⟩ ⟨d1, d2⟩
    simp only at d1 d2 ⊢
    have hdg : (dg : ZMod q) ≠ 0 := by rw [d2]; exact ht.diag j hjm
    have hdg0 : dg ≠ 0 := by rintro rfl; simp at hdg
    refine ⟨hdg0, ?_⟩
    apply inverse_zmod hL.good d1 hdg0
    intro al ha1 ha2
    refine ⟨by omega, ?_⟩
    apply mul_zmod hL.good ha1.small (i5 j hjm)
    intro xi hx1 hx2
    rw [Ok_wr]
    refine ⟨by omega, ?_⟩
    apply Ok_neg hmx hx1.small
    intro hns
    refine (scatter_spec hL hin hns bb (by omega) (fun c hc => i5 c (hL.inRow_lt hin hc))).mono ?_
    rintro b' ⟨b1, b2, b3, b4⟩
    simp only [Ok_wr, size_upd, Ok_ok]
    have hxx : (xx.upd i xi).upd i xi = xx.upd i xi := by
      apply array_ext_g (by simp)
      intro k hk
      by_cases he : k = i
      · rw [he, g_upd_eq _ _ _ (by simp; omega), g_upd_eq _ _ _ (by omega)]
      · rw [g_upd_ne _ _ _ _ he]
    have hx0 : xx.g i = 0 := by
      apply i7 i hin
      intro j' h1 h2' e
      have := ht.upper j j' (by omega) h1
      rw [← hi, ← e] at this
      exact ht.diag j' h1 this
    rw [hxx]
    refine ⟨by omega, by omega, by simpa using i2, ?_, ?_, ?_, ?_, ?_, ?_⟩
    · intro c hc
      rw [sum_upd hin (by omega), b2 c, hx0, ← i3 c hc]
      push_cast; ring
    · intro c hc hcd
      rw [b2 c]
      by_cases he : c = j
      · rw [he]
        push_cast
        rw [hx2, ha2, d2]
        have := ht.diag j hjm
        rw [← hi] at this
        field_simp
        ring
      · rw [ht.upper j c (by omega) hc, mul_zero, zero_add]
        exact i4 c hc (by omega)
    · intro c hc
      by_cases hr : L.InRow i c
      · exact (b3 c hr).small
      · rw [b4 c hr]; exact i5 c hc
    · intro k hk
      by_cases he : k = i
      · rw [he, g_upd_eq _ _ _ (by omega)]; exact hx1
      · rw [g_upd_ne _ _ _ _ he]; exact i6 k hk
    · intro k hk hn
      have he : k ≠ i := fun e => hn j hjm (by omega) (by rw [e])
      rw [g_upd_ne _ _ _ _ he]
      exact i7 k hk (fun j' h1 h2' => hn j' h1 (by omega))
    · intro k hk
      rw [g_upd_ne _ _ _ _ (by omega)]; exact i8 k hk
  · rintro ⟨bb, xx⟩ ⟨i1, i2, i3, i4, i5, i6, i7, i8⟩
    simp only at i1 i2 i3 i4 i5 i6 i7 i8 ⊢
    refine ⟨i1, i2, ?_, i6, ?_, i8⟩
    · intro c hc
      rw [← i3 c hc, i4 c hc (by omega), zero_add]
    · intro i hi hn
      exact i7 i hi (fun j h1 _ => hn j h1)

/-- A combination of the rows of `U` that vanishes on all the pivotal columns is zero. -/
theorem UpperUnit.eq_zero {q : ℕ} {U : Csr} {col : Nat → Nat} (h : UpperUnit q U col)
    {z : Nat → ZMod q} (hz : ∀ i, i < U.n → ∑ k ∈ range U.n, z k * U.entry q k (col i) = 0) :
    ∀ i, i < U.n → z i = 0 := by
  intro i
  induction i using Nat.strong_induction_on with
  | _ i ih =>
    intro hi
    have := hz i hi
    rw [Finset.sum_eq_single i, h.unit i hi, mul_one] at this
    · exact this
    · intro k hk hki
      rcases Nat.lt_or_gt_of_ne hki with hlt | hgt
      · rw [ih k hlt (mem_range.mp hk), zero_mul]
      · rw [h.lower i k hgt (mem_range.mp hk), mul_zero]
    · intro hn; exact absurd (mem_range.mpr hi) hn

theorem UpperUnit.inj {q : ℕ} (h2 : 2 ≤ q) {U : Csr} {col : Nat → Nat} (h : UpperUnit q U col)
    {i k : Nat} (hi : i < U.n) (hk : k < U.n) (he : col i = col k) : i = k := by
  have : Fact (1 < q) := ⟨by omega⟩
  by_contra hne
  rcases Nat.lt_or_gt_of_ne hne with hlt | hgt
  · have a := h.lower i k hlt hk
    rw [he, h.unit k hk] at a
    exact one_ne_zero a
  · have a := h.lower k i hgt hi
    rw [← he, h.unit i hi] at a
    exact one_ne_zero a

theorem UpperUnit.n_le {q : ℕ} (h2 : 2 ≤ q) {U : Csr} {col : Nat → Nat} (h : UpperUnit q U col) :
    U.n ≤ U.m := by
  have := Finset.card_le_card_of_injOn (s := range U.n) (t := range U.m) col ?_ ?_
  · simpa using this
  · intro i hi
    rw [mem_coe, mem_range] at *
    exact h.lt i hi
  · intro i hi k hk he
    rw [mem_coe, mem_range] at hi hk
    exact h.inj h2 hi hk he

theorem dense_forward_solve_spec {q : ℕ} {U : Csr} (hU : U.WFV q)
    {col : Option (Array Nat)} (hps : PermSize col U.n) (ht : UpperUnit q U (permFun col))
    {b x : Array Int} (hb : U.m ≤ b.size) (hx : U.n ≤ x.size)
    (hbs : ∀ j, j < U.m → Bal q (b.g j)) :
    Ok (dense_forward_solve U b x col) (fun r => r.1.size = b.size ∧ r.2.1.size = x.size ∧
      (∀ i, i < U.n → Bal q (r.2.1.g i)) ∧
      (∀ i, U.n ≤ i → r.2.1.g i = x.g i) ∧
      (∀ d, d < U.n → ∑ i ∈ range U.n, (r.2.1.g i : ZMod q) * U.entry q i (permFun col d)
        = (b.g (permFun col d) : ZMod q)) ∧
      (r.2.2 = true ↔ ∃ y : Nat → ZMod q, ∀ c, c < U.m →
        ∑ i ∈ range U.n, y i * U.entry q i c = (b.g c : ZMod q)) ∧
      (r.2.2 = true → ∀ c, c < U.m →
        ∑ i ∈ range U.n, (r.2.1.g i : ZMod q) * U.entry q i c = (b.g c : ZMod q))) := by
  have h2 := hU.good.two_le
  have hmx := hU.good.le_max
  unfold dense_forward_solve
  simp only [Ok_bind, Ok_cassert, decide_eq_true_eq]
  refine ⟨ht.n_le h2, ?_⟩
  refine (zero_fill hx).mono ?_
  rintro x0 ⟨z1, z2, z3⟩
  refine Ok_forRange_imp (I := fun d (s : Array Int × Array Int) =>
      s.1.size = b.size ∧ s.2.size = x.size ∧
      (∀ c, c < U.m → (s.1.g c : ZMod q) + ∑ i ∈ range U.n, (s.2.g i : ZMod q) * U.entry q i c
        = (b.g c : ZMod q)) ∧
      (∀ i, i < d → s.1.g (permFun col i) = 0) ∧
      (∀ c, c < U.m → Bal q (s.1.g c)) ∧ (∀ i, i < U.n → Bal q (s.2.g i)) ∧
      (∀ i, d ≤ i → i < U.n → s.2.g i = 0) ∧
      (∀ i, U.n ≤ i → s.2.g i = x.g i)) (Nat.zero_le _) ?_ ?_ ?_
  · refine ⟨rfl, z1, ?_, fun c h1 => by omega, hbs, ?_, fun i _ hi => z2 i hi, z3⟩
    · intro c _
      simp only
      rw [Finset.sum_eq_zero, add_zero]
      intro i hi
      rw [z2 i (mem_range.mp hi)]; simp
    · intro i hi; simp only; rw [z2 i hi]; exact bal_zero (by omega)
  · rintro i ⟨bb, xx⟩ - hi ⟨i1, i2, i3, i4, i5, i6, i7, i8⟩
    simp only at i1 i2 i3 i4 i5 i6 i7 i8 ⊢
    rw [Ok_bind]
    apply permAt_ok hps hi
    set j := permFun col i with hj
    have hjm : j < U.m := ht.lt i hi
    simp only [Ok_bind, Ok_rd]
    refine ⟨by omega, ?_⟩
    by_cases hz : bb.g j = 0
    · rw [if_pos hz, Ok_ok]
      refine ⟨i1, i2, i3, ?_, i5, i6, fun k h1 h2 => i7 k (by omega) h2, i8⟩
      intro k hk
      by_cases he : k = i
      · rw [he]; exact hz
      · exact i4 k (by omega)
    · rw [if_neg hz]
      simp only [Ok_bind, Ok_wr]
      refine ⟨by omega, ?_⟩
      apply Ok_neg hmx (i5 j hjm).small
      intro hns
      refine (scatter_spec hU hi hns bb (by omega)
        (fun c hc => (i5 c (hU.inRow_lt hi hc)).small)).mono ?_
      rintro b' ⟨b1, b2, b3, b4⟩
      have hbal : ∀ c, c < U.m → Bal q (b'.g c) := by
        intro c hc
        by_cases hr : U.InRow i c
        · exact b3 c hr
        · rw [b4 c hr]; exact i5 c hc
      have hzj : b'.g j = 0 := by
        rw [← small_eq_zero_iff h2 (hbal j hjm).small, b2 j, ht.unit i hi]
        push_cast; ring
      simp only [Ok_rd, Ok_cassert, decide_eq_true_eq, Ok_ok]
      refine ⟨by omega, hzj, by omega, by simpa using i2, ?_, ?_, hbal, ?_, ?_, ?_⟩
      · intro c hc
        rw [sum_upd hi (by omega), b2 c, i7 i (le_refl _) hi, ← i3 c hc]
        push_cast; ring
      · intro k hk
        by_cases he : k = i
        · rw [he]; exact hzj
        · have hkm := ht.lt k (by omega)
          rw [← small_eq_zero_iff h2 (hbal _ hkm).small, b2, ht.lower k i (by omega) hi,
            i4 k (by omega)]
          simp
      · intro k hk
        by_cases he : k = i
        · rw [he, g_upd_eq _ _ _ (by omega)]; exact i5 j hjm
        · rw [g_upd_ne _ _ _ _ he]; exact i6 k hk
      · intro k h1 h2'
        rw [g_upd_ne _ _ _ _ (by omega)]; exact i7 k (by omega) h2'
      · intro k hk
        rw [g_upd_ne _ _ _ _ (by omega)]; exact i8 k hk
  · rintro ⟨bb, xx⟩ ⟨i1, i2, i3, i4, i5, i6, i7, i8⟩
    simp only at i1 i2 i3 i4 i5 i6 i7 i8 ⊢
    refine (Ok_forBrk (I := fun j (o : Bool) => o = true ∧ ∀ c, c < j → bb.g c = 0)
      (B := fun j (o : Bool) => o = false ∧ bb.g j ≠ 0) (Nat.zero_le _)
      ⟨rfl, fun c hc => by omega⟩ ?_).mono ?_
    · rintro j o - hj ⟨rfl, ho⟩
      simp only [Ok_bind, Ok_rd]
      refine ⟨by omega, ?_⟩
      by_cases hz : bb.g j = 0
      · rw [if_neg (by simpa using hz), Ok_ok]
        refine ⟨rfl, fun c hc => ?_⟩
        by_cases he : c = j
        · rw [he]; exact hz
        · exact ho c (by omega)
      · rw [if_pos hz, Ok_ok]
        exact ⟨rfl, hz⟩
    · rintro ⟨j, o⟩ h
      rw [Ok_ok]
      refine ⟨i1, i2, i6, i8, ?_, ?_⟩
      · intro d hd
        rw [← i3 _ (ht.lt d hd), i4 d hd]; simp
      rcases h with ⟨-, hj, ho, hbj⟩ | ⟨-, ho, hz⟩
      · simp only at ho hj hbj ⊢
        subst ho
        refine ⟨⟨fun h => by simp at h, ?_⟩, fun h => by simp at h⟩
        rintro ⟨y, hy⟩
        exfalso
        have hz := ht.eq_zero (z := fun k => y k - (xx.g k : ZMod q)) ?_
        · have := i3 j hj
          rw [← hy j hj] at this
          have h0 : (bb.g j : ZMod q) = 0 := by
            have e : (bb.g j : ZMod q)
                = ∑ k ∈ range U.n, (y k - (xx.g k : ZMod q)) * U.entry q k j := by
              rw [eq_comm]
              simp only [sub_mul]
              rw [Finset.sum_sub_distrib, ← this]; ring
            rw [e]
            apply Finset.sum_eq_zero
            intro k hk
            rw [hz k (mem_range.mp hk), zero_mul]
          exact hbj ((small_eq_zero_iff h2 (i5 j hj).small).mp h0)
        · intro i hi
          have := i3 _ (ht.lt i hi)
          rw [← hy _ (ht.lt i hi), i4 i hi] at this
          simp only [sub_mul]
          rw [Finset.sum_sub_distrib, ← this]; simp
      · simp only at ho hz ⊢
        subst ho
        have hsol : ∀ c, c < U.m →
            ∑ i ∈ range U.n, (xx.g i : ZMod q) * U.entry q i c = (b.g c : ZMod q) := by
          intro c hc
          rw [← i3 c hc, hz c hc]; simp
        exact ⟨⟨fun _ => ⟨_, hsol⟩, fun _ => rfl⟩, fun _ => hsol⟩

end Spasm
