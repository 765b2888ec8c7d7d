import Verif.Model.Triangular
import Verif.Proofs.Reach

namespace Spasm

open Finset

/-- The workspace of the reachability routines is ready: right sizes, nothing marked. -/
structure Dfs.Ready (w : Dfs) (m : Nat) : Prop where
  xs : m ≤ w.xj.size
  ps : m ≤ w.pstack.size
  ms : m ≤ w.marks.size
  zero : ∀ j, j < m → w.marks.g j = 0

/-- `j` is in the list `xj[top..m)`. -/
def Dfs.Pat (s : Dfs) (m j : Nat) : Prop := ∃ t, s.top ≤ t ∧ t < m ∧ s.xj.g t = j

theorem Ok_neg {q : ℕ} (hq : q ≤ 0xfffffffb) {a : Int} (ha : Small q a) {Q : Int → Prop}
    (h : Small q (-a) → Q (-a)) : Ok (ZZp_neg a) Q := by
  unfold Small at *
  unfold ZZp_neg i32
  rw [if_pos (by omega), Ok_ok]
  exact h (by omega)

open scoped Classical in
/-- `spasm_sparse_triangular_solve`. -/
theorem sparse_triangular_solve_spec {q : ℕ} {U B : Csr} {qinv : Array Int} (hU : U.WFV q)
    (hB : B.WFV q) (hBm : B.m ≤ U.m) (hq : QinvOk U qinv) (hac : PAcyclic U qinv)
    (hunit : ∀ j, j < U.m → 0 ≤ qinv.g j → U.entry q (qinv.g j).toNat j = 1)
    {k : Nat} (hk : k < B.n) {w : Dfs} (hw : w.Ready U.m) {x : Array Int} (hx : U.m ≤ x.size) :
    Ok (sparse_triangular_solve U B k w x qinv) (fun r =>
      r.1.Ready U.m ∧ r.1.top ≤ U.m ∧ r.2.size = x.size ∧
      (∀ t, r.1.top ≤ t → t < U.m → r.1.xj.g t < U.m) ∧
      (∀ t u, r.1.top ≤ t → t < U.m → r.1.top ≤ u → u < U.m → r.1.xj.g t = r.1.xj.g u → t = u) ∧
      (∀ j, r.1.Pat U.m j ↔ ReachFrom U B qinv k j) ∧
      (∀ j, r.1.Pat U.m j → Bal q (r.2.g j)) ∧
      (∀ j, ¬ r.1.Pat U.m j → r.2.g j = x.g j) ∧
      ∃ v : Nat → ZMod q, (∀ j, r.1.Pat U.m j → v j = (r.2.g j : ZMod q)) ∧
        (∀ j, ¬ r.1.Pat U.m j → v j = 0) ∧
        ∀ c, c < U.m → B.entry q k c = (if qinv.g c < 0 then v c else 0) +
          ∑ j ∈ range U.m, if 0 ≤ qinv.g j then v j * U.entry q (qinv.g j).toNat c else 0) := by
  have h2 := hU.good.two_le
  have hmx := hU.good.le_max
  unfold sparse_triangular_solve
  rw [Ok_bind]
  refine (reach_spec hU.toWF hB.toWF hBm hq hk hw.xs hw.ps hw.ms hw.zero).mono ?_
  rintro s ⟨s1, s2, s3, s4, s5, s6, s7, s8, s9⟩
  have s9 := s9 hac
  have w1 := hw.xs
  have hpat : ∀ t, s.top ≤ t → t < U.m → s.Pat U.m (s.xj.g t) := fun t h1 h2 => ⟨t, h1, h2, rfl⟩
  have hpatlt : ∀ j, s.Pat U.m j → j < U.m := by
    rintro j ⟨t, h1, h2, rfl⟩; exact s5 t h1 h2
  have hclosed : ∀ j j', s.Pat U.m j → PEdge U qinv j j' → s.Pat U.m j' := by
    intro j j' hj hE
    obtain ⟨j0, a1, a2⟩ := (s7 j).mp hj
    exact (s7 j').mpr ⟨j0, a1, a2.tail hE⟩
  have hrow : ∀ j, B.InRow k j → s.Pat U.m j := fun j hj => (s7 j).mpr ⟨j, hj, .refl⟩
  -- clear x
  rw [Ok_bind]
  refine Ok_forRange_imp (I := fun px (y : Array Int) => y.size = x.size ∧
      (∀ t, s.top ≤ t → t < px → y.g (s.xj.g t) = 0) ∧ (∀ j, ¬ s.Pat U.m j → y.g j = x.g j))
    s4 ⟨rfl, fun t h1 h2 => by omega, fun j _ => rfl⟩ ?_ ?_
  · rintro px y h1 h2 ⟨c1, c2, c3⟩
    have := s5 px h1 h2
    simp only [Ok_bind, Ok_rd, Ok_wr]
    refine ⟨by omega, by omega, by simpa using c1, ?_, ?_⟩
    · intro t t1 t2
      by_cases he : s.xj.g t = s.xj.g px
      · rw [he, g_upd_eq _ _ _ (by omega)]
      · rw [g_upd_ne _ _ _ _ he]
        refine c2 t t1 ?_
        rcases Nat.lt_or_ge t px with h | h
        · exact h
        · have : t = px := by omega
          rw [this] at he; exact absurd rfl he
    · intro j hj
      rw [g_upd_ne]
      · exact c3 j hj
      · intro e; exact hj ⟨px, h1, h2, e.symm⟩
  rintro y ⟨c1, c2, c3⟩
  have cz : ∀ j, s.Pat U.m j → y.g j = 0 := by
    rintro j ⟨t, t1, t2, rfl⟩; exact c2 t t1 t2
  -- scatter B[k]
  rw [Ok_bind]
  refine (scatter_spec hB hk (small_one h2) y (by omega) (fun j hj => by
    rw [cz j (hrow j hj)]; exact small_zero q)).mono ?_
  rintro z ⟨d1, d2, d3, d4⟩
  have dpat : ∀ j, s.Pat U.m j → (z.g j : ZMod q) = B.entry q k j := by
    intro j hj
    rw [d2 j, cz j hj]; simp
  have dbal : ∀ j, s.Pat U.m j → Bal q (z.g j) := by
    intro j hj
    by_cases h : B.InRow k j
    · exact d3 j h
    · rw [d4 j h, cz j hj]; exact bal_zero (by omega)
  have dout : ∀ j, ¬ s.Pat U.m j → z.g j = x.g j := by
    intro j hj
    rw [d4 j (fun h => hj (hrow j h)), c3 j hj]
  have bout : ∀ j, ¬ s.Pat U.m j → B.entry q k j = 0 := by
    intro j hj
    exact Csr.entry_eq_zero_of_not_inRow (fun h => hj (hrow j h))
  -- elimination
  rw [Ok_bind]
  refine Ok_forRange_imp (I := fun px (y : Array Int) => y.size = x.size ∧
      (∀ j, s.Pat U.m j → Bal q (y.g j)) ∧ (∀ j, ¬ s.Pat U.m j → y.g j = x.g j) ∧
      (∀ c, s.Pat U.m c → B.entry q k c =
        (if ∃ t, s.top ≤ t ∧ t < px ∧ s.xj.g t = c ∧ 0 ≤ qinv.g c then 0 else (y.g c : ZMod q)) +
        ∑ t ∈ Ico s.top px, if 0 ≤ qinv.g (s.xj.g t) then
          (y.g (s.xj.g t) : ZMod q) * U.entry q (qinv.g (s.xj.g t)).toNat c else 0))
    s4 ⟨by omega, dbal, dout, ?_⟩ ?_ ?_
  · intro c hc
    rw [if_neg (by rintro ⟨t, t1, t2, -⟩; omega), Ico_self, sum_empty, add_zero, dpat c hc]
  · rintro px y h1 h2' ⟨e1, e2, e3, e4⟩
    have hjm := s5 px h1 h2'
    have hqs := hq.size
    set j := s.xj.g px with hj
    simp only [Ok_bind, Ok_rd]
    refine ⟨by omega, by omega, ?_⟩
    by_cases hi : qinv.g j < 0
    · rw [if_pos hi, Ok_ok]
      refine ⟨e1, e2, e3, ?_⟩
      intro c hc
      rw [sum_Ico_succ_top h1, if_neg (c := 0 ≤ qinv.g (s.xj.g px)) (by rw [← hj]; omega), add_zero,
        e4 c hc]
      congr 1
      apply if_congr _ rfl rfl
      constructor
      · rintro ⟨t, t1, t2, t3⟩; exact ⟨t, t1, by omega, t3⟩
      · rintro ⟨t, t1, t2, t3, t4⟩
        refine ⟨t, t1, ?_, t3, t4⟩
        by_contra hcon
        have : t = px := by omega
        rw [this, ← hj] at t3
        rw [← t3] at t4
        omega
    · rw [if_neg hi]
      obtain ⟨i, hie⟩ : ∃ i : Nat, qinv.g j = i := ⟨(qinv.g j).toNat, by omega⟩
      have hin : i < U.n := by have := hq.lt j hjm; omega
      have hE : ∀ c, U.InRow i c → PEdge U qinv j c := by
        intro c hc; unfold PEdge; rw [hie]; exact ⟨by omega, hc⟩
      have hpj : s.Pat U.m j := hpat px h1 h2'
      have hu1 : U.entry q i j = 1 := by
        have := hunit j hjm (by omega); rw [hie] at this; exact this
      have : Fact (1 < q) := ⟨by omega⟩
      have hself : U.InRow i j := by
        by_contra hc
        rw [Csr.entry_eq_zero_of_not_inRow hc] at hu1
        exact zero_ne_one hu1
      simp only [Ok_bind, Ok_idx, Ok_rd, ← hj, hie, Int.toNat_natCast]
      refine ⟨by omega, by omega, ?_⟩
      apply Ok_neg hmx (e2 j hpj).small
      intro hns
      refine (scatter_spec hU hin hns y (by omega) (fun c hc =>
        (e2 c (hclosed j c hpj (hE c hc))).small)).mono ?_
      rintro v ⟨v1, v2, v3, v4⟩
      have hvj : v.g j = 0 := by
        rw [← small_eq_zero_iff h2 (v3 j hself).small, v2 j, hu1]
        push_cast; ring
      simp only [Ok_cassert, Ok_wr, decide_eq_true_eq]
      refine ⟨by omega, hvj, by omega, by simp; omega, ?_, ?_, ?_⟩
      · intro c hc
        by_cases he : c = j
        · rw [he, g_upd_eq _ _ _ (by omega)]; exact e2 j hpj
        · rw [g_upd_ne _ _ _ _ he]
          by_cases hr : U.InRow i c
          · exact v3 c hr
          · rw [v4 c hr]; exact e2 c hc
      · intro c hc
        rw [g_upd_ne _ _ _ _ (fun e : c = j => hc (by rw [e]; exact hpj)),
          v4 c (fun hr => hc (hclosed j c hpj (hE c hr))), e3 c hc]
      · intro c hc
        have hold : ∀ t, s.top ≤ t → t < px → 0 ≤ qinv.g (s.xj.g t) →
            (v.upd j (y.g j)).g (s.xj.g t) = y.g (s.xj.g t) := by
          intro t t1 t2 _
          have hne : s.xj.g t ≠ j := by
            intro e
            have := s6 t px t1 (by omega) h1 h2' e
            omega
          rw [g_upd_ne _ _ _ _ hne]
          apply v4
          intro hr
          obtain ⟨u, u1, u2, u3⟩ := s9 px h1 h2' _ (hE _ hr) hne
          have := s6 u t (by omega) u2 t1 (by omega) u3
          omega
        have hsum : (∑ t ∈ Ico s.top px, if 0 ≤ qinv.g (s.xj.g t) then
            ((v.upd j (y.g j)).g (s.xj.g t) : ZMod q) * U.entry q (qinv.g (s.xj.g t)).toNat c else 0)
            = ∑ t ∈ Ico s.top px, if 0 ≤ qinv.g (s.xj.g t) then
              (y.g (s.xj.g t) : ZMod q) * U.entry q (qinv.g (s.xj.g t)).toNat c else 0 := by
          apply Finset.sum_congr rfl
          intro t ht
          rw [mem_Ico] at ht
          split
          · rename_i hqt; rw [hold t ht.1 ht.2 hqt]
          · rfl
        rw [sum_Ico_succ_top h1, hsum, ← hj, if_pos (c := 0 ≤ qinv.g j) (by omega), hie,
          g_upd_eq _ _ _ (by omega), Int.toNat_natCast, e4 c hc]
        by_cases he : c = j
        · subst he
          rw [if_neg, if_pos ⟨px, h1, by omega, rfl, by omega⟩, hu1]
          · ring
          · rintro ⟨t, t1, t2, t3, -⟩
            have := s6 t px t1 (by omega) h1 h2' t3
            omega
        · rw [g_upd_ne _ _ _ _ he]
          by_cases hd : ∃ t, s.top ≤ t ∧ t < px ∧ s.xj.g t = c ∧ 0 ≤ qinv.g c
          · rw [if_pos hd, if_pos]
            · obtain ⟨t, t1, t2, t3, t4⟩ := hd
              have hz : U.entry q i c = 0 := by
                apply Csr.entry_eq_zero_of_not_inRow
                intro hr
                obtain ⟨u, u1, u2, u3⟩ := s9 px h1 h2' _ (hE _ hr) he
                have := s6 u t (by omega) u2 t1 (by omega) (u3.trans t3.symm)
                omega
              rw [hz]; ring
            · obtain ⟨t, t1, t2, t3⟩ := hd
              exact ⟨t, t1, by omega, t3⟩
          · rw [if_neg hd, if_neg]
            · rw [v2 c]; push_cast; ring
            · rintro ⟨t, t1, t2, t3, t4⟩
              apply hd
              refine ⟨t, t1, ?_, t3, t4⟩
              by_contra hcon
              have : t = px := by omega
              rw [this] at t3
              exact he t3.symm
  · rintro y ⟨e1, e2, e3, e4⟩
    rw [Ok_ok]
    refine ⟨⟨by simp only; omega, by have := hw.ps; simp only; omega,
      by have := hw.ms; simp only; omega, s8⟩, s4, e1, s5, s6, s7, e2, e3, ?_⟩
    refine ⟨fun j => if s.Pat U.m j then (y.g j : ZMod q) else 0,
      fun j hj => if_pos hj, fun j hj => if_neg hj, ?_⟩
    intro c hc
    have hconv : (∑ j ∈ range U.m, if 0 ≤ qinv.g j then
          (if s.Pat U.m j then (y.g j : ZMod q) else 0) * U.entry q (qinv.g j).toNat c else 0)
        = ∑ t ∈ Ico s.top U.m, if 0 ≤ qinv.g (s.xj.g t) then
          (y.g (s.xj.g t) : ZMod q) * U.entry q (qinv.g (s.xj.g t)).toNat c else 0 := by
      rw [← Finset.sum_image (s := Ico s.top U.m) (g := fun t => s.xj.g t)
        (f := fun j => if 0 ≤ qinv.g j then
          (y.g j : ZMod q) * U.entry q (qinv.g j).toNat c else 0)]
      · symm
        apply Finset.sum_subset_zero_on_sdiff
        · intro j hj
          rw [mem_image] at hj
          obtain ⟨t, ht, rfl⟩ := hj
          rw [mem_Ico] at ht
          exact mem_range.mpr (s5 t ht.1 ht.2)
        · intro j hj
          rw [mem_sdiff, mem_image] at hj
          rw [if_neg (show ¬ s.Pat U.m j from ?_)]
          · simp
          · rintro ⟨t, t1, t2, t3⟩
            exact hj.2 ⟨t, mem_Ico.mpr ⟨t1, t2⟩, t3⟩
        · intro j hj
          rw [mem_image] at hj
          obtain ⟨t, ht, rfl⟩ := hj
          rw [mem_Ico] at ht
          rw [if_pos (hpat t ht.1 ht.2)]
      · intro t ht u hu hf
        rw [mem_coe, mem_Ico] at ht hu
        exact s6 t u ht.1 ht.2 hu.1 hu.2 hf
    rw [hconv]
    beta_reduce
    by_cases hp : s.Pat U.m c
    · rw [e4 c hp, if_pos hp]
      congr 1
      by_cases hqc : qinv.g c < 0
      · rw [if_neg (by rintro ⟨t, -, -, -, h⟩; omega), if_pos hqc]
      · obtain ⟨t, t1, t2, t3⟩ := hp
        rw [if_pos ⟨t, t1, t2, t3, by omega⟩, if_neg hqc]
    · rw [bout c hp, if_neg hp, ite_self, zero_add]
      symm
      apply Finset.sum_eq_zero
      intro t ht
      rw [mem_Ico] at ht
      split
      · rename_i hqt
        rw [Csr.entry_eq_zero_of_not_inRow, mul_zero]
        intro hr
        exact hp (hclosed _ c (hpat t ht.1 ht.2) ⟨hqt, hr⟩)
      · rfl

end Spasm
