import Verif.Proofs.Matching

namespace Spasm

open Finset

theorem konig {A : Csr} (hA : A.WF) {p qinv : Array Int} (hM : Matching A p qinv) {W : Nat → Prop}
    (hW : MClosed A qinv W) (hun : ∀ i, i < A.n → p.g i < 0 → W i) {S : Finset (Nat × Nat)}
    (hS : IsMatching A S) : S.card ≤ pivCount A.m qinv := by
  classical
  unfold pivCount
  refine Finset.card_le_card_of_injOn (fun e => if W e.1 then e.2 else (p.g e.1).toNat) ?_ ?_
  · intro e he
    obtain ⟨h1, h2⟩ := hS.1 e he
    simp only [coe_filter, mem_range, Set.mem_setOf_eq]
    by_cases hw : W e.1
    · rw [if_pos hw]
      exact ⟨hA.inRow_lt h1 h2, ((hW _ hw).2 _ h2).1⟩
    · rw [if_neg hw]
      have h0 : 0 ≤ p.g e.1 := by
        by_contra hn
        exact hw (hun _ h1 (by omega))
      have := hM.p_lt _ h1
      refine ⟨by omega, ?_⟩
      rw [hM.qp _ h1 h0]; omega
  · intro e he f hf hef
    obtain ⟨e1, e2⟩ := hS.1 e he
    obtain ⟨f1, f2⟩ := hS.1 f hf
    have hpos : ∀ i, i < A.n → ¬ W i → 0 ≤ p.g i := by
      intro i hi hw
      by_contra hn
      exact hw (hun _ hi (by omega))
    have mixed : ∀ g h : Nat × Nat, g.1 < A.n → A.InRow g.1 g.2 → h.1 < A.n → W g.1 → ¬ W h.1 →
        g.2 ≠ (p.g h.1).toNat := by
      intro g h g1 g2 h1 w1 w2 e
      have := ((hW _ w1).2 _ g2).2
      rw [e, hM.qp _ h1 (hpos _ h1 w2), Int.toNat_natCast] at this
      exact w2 this
    by_cases hw : W e.1 <;> by_cases hw' : W f.1 <;> simp only [hw, hw', if_true, if_false] at hef
    · exact hS.2.2 e f he hf hef
    · exact absurd hef (mixed e f e1 e2 f1 hw hw')
    · exact absurd hef.symm (mixed f e f1 f2 e1 hw' hw)
    · refine hS.2.1 e f he hf ?_
      have a1 := hM.qp _ e1 (hpos _ e1 hw)
      have a2 := hM.qp _ f1 (hpos _ f1 hw')
      rw [hef, a2] at a1
      exact_mod_cast a1.symm

theorem IsMatching.card_le {A : Csr} (hA : A.WF) {S : Finset (Nat × Nat)} (hS : IsMatching A S) :
    S.card ≤ min A.n A.m := by
  have h1 := Finset.card_le_card_of_injOn (s := S) (t := range A.n) Prod.fst
    (fun e he => by simpa using (hS.1 e he).1)
    (fun e he f hf h => hS.2.1 e f he hf h)
  have h2 := Finset.card_le_card_of_injOn (s := S) (t := range A.m) Prod.snd
    (fun e he => by simpa using hA.inRow_lt (hS.1 e he).1 (hS.1 e he).2)
    (fun e he f hf h => hS.2.2 e f he hf h)
  simp only [card_range] at h1 h2
  omega

theorem Matching.rows_card {A : Csr} {p qinv : Array Int} (h : Matching A p qinv) :
    ((range A.n).filter fun i => 0 ≤ p.g i).card = pivCount A.m qinv := by
  unfold pivCount
  refine Finset.card_bij (fun i _ => (p.g i).toNat) ?_ ?_ ?_
  · intro i hi
    simp only [mem_filter, mem_range] at hi ⊢
    have := h.p_lt i hi.1
    refine ⟨by omega, ?_⟩
    rw [h.qp i hi.1 hi.2]; omega
  · intro i hi k hk e
    simp only [mem_filter, mem_range] at hi hk
    have a := h.qp i hi.1 hi.2
    rw [e, h.qp k hk.1 hk.2] at a
    exact_mod_cast a.symm
  · intro j hj
    simp only [mem_filter, mem_range] at hj
    have := h.q_lt j hj.1
    have e := h.pq j hj.1 hj.2
    refine ⟨(qinv.g j).toNat, ?_, ?_⟩
    · simp only [mem_filter, mem_range]
      refine ⟨by omega, by rw [e]; omega⟩
    · rw [e, Int.toNat_natCast]

theorem card_filter_full {n : Nat} {P : Nat → Prop} [DecidablePred P]
    (h : n ≤ ((range n).filter P).card) : ∀ i, i < n → P i := by
  intro i hi
  have he : (range n).filter P = range n :=
    Finset.eq_of_subset_of_card_le (Finset.filter_subset _ _) (by simpa using h)
  have : i ∈ (range n).filter P := by rw [he]; exact mem_range.mpr hi
  exact (mem_filter.mp this).2

/-- A matching which uses all rows or all columns. -/
theorem Matching.full {A : Csr} (hA : A.WF) {p qinv : Array Int} (h : Matching A p qinv)
    (hf : ¬ pivCount A.m qinv < min A.n A.m) :
    ∃ W, MClosed A qinv W ∧ ∀ i, i < A.n → p.g i < 0 → W i := by
  rcases le_total A.n A.m with hc | hc
  · have hall := card_filter_full (n := A.n) (P := fun i => 0 ≤ p.g i) (by rw [h.rows_card]; omega)
    refine ⟨fun _ => False, fun i hi => hi.elim, fun i hi hn => ?_⟩
    have := hall i hi
    omega
  · have hall := card_filter_full (n := A.m) (P := fun j => 0 ≤ qinv.g j)
      (by unfold pivCount at hf; omega)
    refine ⟨fun i => i < A.n, fun i hi => ⟨hi, fun j hj => ?_⟩, fun i hi _ => hi⟩
    have hjm := hA.inRow_lt hi hj
    have h1 := hall j hjm
    have h2 := h.q_lt j hjm
    exact ⟨h1, by omega⟩

theorem maximum_matching_closed (jk : Junk) {A : Csr} (hA : A.WF) {p qinv : Array Int}
    (hps : p.size = A.n) (hqs : qinv.size = A.m) :
    Ok (maximum_matching jk A p qinv) (fun r => Matching A r.2.1 r.2.2 ∧
      r.1 = pivCount A.m r.2.2 ∧
      ∃ W, MClosed A r.2.2 W ∧ ∀ i, i < A.n → r.2.1.g i < 0 → W i) := by
  unfold maximum_matching
  simp only
  rw [Ok_bind]
  refine Ok_forRange_imp (I := fun j (q : Array Int) => q.size = A.m ∧ ∀ c, c < j → q.g c = -1)
    (by omega) ⟨hqs, fun c hc => by omega⟩ ?_ ?_
  · rintro j q - hj ⟨h1, h2⟩
    rw [Ok_wr]
    refine ⟨by omega, by simpa using h1, fun c hc => ?_⟩
    by_cases he : c = j
    · rw [he, g_upd_eq _ _ _ (by omega)]
    · rw [g_upd_ne _ _ _ _ he]; exact h2 c (by omega)
  · rintro q0 ⟨hq1, hq2⟩
    rw [Ok_bind]
    refine Ok_forRange_imp (I := fun i (s : Array Int × Array Int × Array Nat) => s.1.size = A.n ∧
        s.2.1.size = A.n ∧ s.2.2.size = A.n ∧ ∀ c, c < i → s.1.g c = -1 ∧ s.2.1.g c = -1 ∧
        s.2.2.g c = 0) (by omega) ⟨hps, by simp, by simp, fun c hc => by omega⟩ ?_ ?_
    · rintro i ⟨p', mk, lk⟩ - hi ⟨h1, h2, h3, h4⟩
      simp only at h1 h2 h3 h4 ⊢
      simp only [Ok_bind, Ok_wr, Ok_ok, size_upd]
      refine ⟨by omega, by omega, by omega, h1, h2, h3, fun c hc => ?_⟩
      by_cases he : c = i
      · rw [he, g_upd_eq _ _ _ (by omega), g_upd_eq _ _ _ (by omega), g_upd_eq _ _ _ (by omega)]
        exact ⟨rfl, rfl, rfl⟩
      · rw [g_upd_ne _ _ _ _ he, g_upd_ne _ _ _ _ he, g_upd_ne _ _ _ _ he]; exact h4 c (by omega)
    · rintro ⟨p0, mk, lk⟩ ⟨h1, h2, h3, h4⟩
      simp only at h1 h2 h3 h4 ⊢
      have hM0 : Matching A p0 q0 := by
        refine ⟨h1, hq1, ?_, ?_, ?_, ?_, ?_, ?_, ?_⟩
        · intro i hi; rw [(h4 i hi).1]
        · intro i hi; rw [(h4 i hi).1]; omega
        · intro j hj; rw [hq2 j hj]
        · intro j hj; rw [hq2 j hj]; omega
        · intro i hi h; rw [(h4 i hi).1] at h; omega
        · intro j hj h; rw [hq2 j hj] at h; omega
        · intro i hi h; rw [(h4 i hi).1] at h; omega
      have hc0 : pivCount A.m q0 = 0 := by
        unfold pivCount
        rw [Finset.card_eq_zero, Finset.filter_eq_empty_iff]
        intro j hj
        rw [hq2 j (mem_range.mp hj)]; omega
      rw [Ok_bind]
      refine (Ok_forBrk (I := fun i (s : Nat × MPath) => Matching A s.2.p s.2.qinv ∧
          PathBase A s.2 ∧ s.1 = pivCount A.m s.2.qinv ∧ (∀ k, k < A.n → s.2.marks.g k < i) ∧
          ∃ W, MClosed A s.2.qinv W ∧ ∀ k, k < i → s.2.p.g k < 0 → W k)
        (B := fun i (s : Nat × MPath) => Matching A s.2.p s.2.qinv ∧
          s.1 = pivCount A.m s.2.qinv ∧ ¬ s.1 < min A.n A.m) (by omega) ?_ ?_).mono ?_
      · refine ⟨hM0, ⟨by simp, by simp, by simp, h2, h3, ?_⟩, hc0.symm, ?_, fun _ => False,
          fun i hi => hi.elim, fun k hk => by omega⟩
        · intro i hi
          simp only
          rw [(h4 i hi).2.2]
          exact ⟨hA.p_mono i hi, fun k k1 k2 => by omega⟩
        · intro k hk
          simp only
          rw [(h4 k hk).2.1]; omega
      · rintro i ⟨k, s⟩ - hi ⟨i1, i2, i3, i4, W, i5, i6⟩
        simp only at i1 i2 i3 i4 i5 i6 ⊢
        by_cases hk : k < min A.n A.m
        · rw [if_pos hk, Ok_bind]
          unfold matching_row
          rw [Ok_bind, Ok_rd]
          refine ⟨by rw [i1.psize]; omega, ?_⟩
          by_cases hneg : s.p.g i < 0
          · rw [if_pos hneg, Ok_bind]
            refine (augmenting_path_spec hA i1 i2 hi hneg i4).mono ?_
            rintro s' ⟨r1, r2, r3⟩
            rw [Ok_ok]
            rcases r3 with ⟨r3, r4⟩ | ⟨r3, r4, r5, W', r6, r7⟩
            · rw [if_pos r3, Ok_ok]
              refine ⟨r4.mt, r1, by simp only; rw [r4.count, i3], ?_, W, r4.closed W i5, ?_⟩
              · intro k hk; have := r2 k hk; simp only; omega
              · intro c hc hcn
                simp only at hcn
                by_cases he : c = i
                · rw [he] at hcn; have := r4.new; omega
                · refine i6 c (by omega) ?_
                  by_contra hn
                  have := r4.keep c (by omega)
                  omega
            · rw [if_neg (by rw [r3]; simp), Ok_ok]
              refine ⟨by simp only; rw [r4, r5]; exact i1, r1, by simp only; rw [r5, i3], ?_,
                fun c => W c ∨ W' c, ?_, ?_⟩
              · intro k hk; have := r2 k hk; simp only; omega
              · simp only [r5]
                rintro c (hc | hc)
                · exact ⟨(i5 c hc).1, fun j hj => ⟨((i5 c hc).2 j hj).1, .inl ((i5 c hc).2 j hj).2⟩⟩
                · exact ⟨(r6 c hc).1, fun j hj => ⟨((r6 c hc).2 j hj).1, .inr ((r6 c hc).2 j hj).2⟩⟩
              · intro c hc hcn
                simp only [r4] at hcn
                by_cases he : c = i
                · right; rw [he]; exact r7
                · left; exact i6 c (by omega) hcn
          · rw [if_neg hneg, Ok_ok, Ok_ok]
            refine ⟨i1, i2, i3, fun c hc => ?_, W, i5, fun c hc hcn => ?_⟩
            · have := i4 c hc; simp only; omega
            · by_cases he : c = i
              · rw [he] at hcn; exact absurd hcn hneg
              · exact i6 c (by omega) hcn
        · rw [if_neg hk, Ok_ok]
          exact ⟨i1, i3, hk⟩
      · rintro ⟨t, k, s⟩ hr
        rw [Ok_ok]
        rcases hr with ⟨-, -, r1, r2, r3⟩ | ⟨-, r1, r2, r3, -, W, r4, r5⟩
        · simp only at r2 r3
          exact ⟨r1, r2, r1.full hA (by rw [← r2]; exact r3)⟩
        · exact ⟨r1, r3, W, r4, r5⟩

theorem maximum_matching_spec (jk : Junk) {A : Csr} (hA : A.WF) {p qinv : Array Int}
    (hps : p.size = A.n) (hqs : qinv.size = A.m) :
    Ok (maximum_matching jk A p qinv) (fun r => Matching A r.2.1 r.2.2 ∧
      r.1 = pivCount A.m r.2.2 ∧ ∀ S, IsMatching A S → S.card ≤ r.1) := by
  refine (maximum_matching_closed jk hA hps hqs).mono ?_
  rintro r ⟨r1, r2, W, r3, r4⟩
  refine ⟨r1, r2, fun S hS => ?_⟩
  rw [r2]
  exact konig hA r1 r3 r4 hS

end Spasm
