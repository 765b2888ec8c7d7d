import Verif.Model.Solve
import Verif.Proofs.Lu

namespace Spasm

open Finset

theorem invq_spec (jk : Junk) {q : ℕ} {U : Csr} {qinv : Array Int} (h : Echelon q U qinv) :
    Ok (forRange 0 U.m (mkArr U.n jk.nat) fun j Uq => do
      let i ← rd qinv j
      if i ≠ -1 then do
        let i ← idx i
        wr Uq i j
      else .ok Uq) (fun Uq => Uq.size = U.n ∧ ∀ i, i < U.n → Uq.g i = U.pivot i) := by
  have hsz := h.size
  refine Ok_forRange_imp (I := fun j (Uq : Array Nat) => Uq.size = U.n ∧
    ∀ i, i < U.n → U.pivot i < j → Uq.g i = U.pivot i) (Nat.zero_le _) ?_ ?_ ?_
  · exact ⟨by simp, fun i _ h => by omega⟩
  · rintro j Uq - hj ⟨c1, c2⟩
    have hl := h.lt j hj
    have hg := h.ge j hj
    simp only [Ok_bind, Ok_rd]
    refine ⟨by omega, ?_⟩
    by_cases hc : qinv.g j = -1
    · rw [if_neg (by simpa using hc), Ok_ok]
      refine ⟨c1, fun i hi hp => ?_⟩
      rcases Nat.lt_or_ge (U.pivot i) j with hlt | hge
      · exact c2 i hi hlt
      · have e : U.pivot i = j := by omega
        have := h.piv i hi
        rw [e] at this; omega
    · rw [if_pos hc]
      simp only [Ok_bind, Ok_idx, Ok_wr]
      refine ⟨by omega, by omega, by simpa using c1, ?_⟩
      intro i hi hp
      have hloc := h.loc j hj (by omega)
      by_cases he : i = (qinv.g j).toNat
      · rw [he, g_upd_eq _ _ _ (by omega), hloc]
      · rw [g_upd_ne _ _ _ _ he]
        rcases Nat.lt_or_ge (U.pivot i) j with hlt | hge
        · exact c2 i hi hlt
        · have e : U.pivot i = j := by omega
          have := h.piv i hi
          rw [e] at this; omega
  · rintro Uq ⟨c1, c2⟩
    exact ⟨c1, fun i hi => c2 i hi (h.pivot_lt hi)⟩

theorem solve_full (jk : Junk) {q : ℕ} [Fact q.Prime] {A L : Csr} {fact : Lu}
    (hL : fact.L = some L) (hf : IsFact q A L fact.U fact.qinv fact.p fact.complete)
    {b x : Array Int} (hb : A.m ≤ b.size) (hx : A.n ≤ x.size)
    (hbs : ∀ j, j < A.m → Bal q (b.g j)) :
    Ok (solve jk fact b x) (fun r => r.1.size = x.size ∧
      (∀ i, i < A.n → Bal q (r.1.g i)) ∧
      (r.2 = true ↔ InSpan q A (fun c => (b.g c : ZMod q))) ∧
      (r.2 = true → ∀ c, c < A.m →
        ∑ i ∈ range A.n, (r.1.g i : ZMod q) * A.entry q i c = (b.g c : ZMod q)) ∧
      (∀ i, i < A.n → (∀ j, j < fact.U.n → permFun fact.p j ≠ i) → r.1.g i = 0) ∧
      (∀ d, d < fact.U.n → ∑ i ∈ range A.n, (r.1.g i : ZMod q) * A.entry q i (fact.U.pivot d)
        = (b.g (fact.U.pivot d) : ZMod q))) := by
  have hm := hf.m_eq
  have hLm := hf.L_m
  have hLn := hf.L_n
  have h2 := hf.ech.wfv.good.two_le
  unfold solve
  rw [hL]
  simp only [Ok_bind, Ok_ok]
  refine (invq_spec jk hf.ech).mono ?_
  rintro Uq ⟨u1, u2⟩
  refine Ok_forRange_imp (I := fun i (y : Array Int) => y.size = fact.U.m ∧
    ∀ k, k < i → y.g k = b.g k) (Nat.zero_le _) ⟨by simp, fun k hk => by omega⟩ ?_ ?_
  · rintro i y - hi ⟨c1, c2⟩
    simp only [Ok_bind, Ok_rd, Ok_wr]
    refine ⟨by omega, by omega, by simpa using c1, fun k hk => ?_⟩
    by_cases he : k = i
    · subst he; rw [g_upd_eq _ _ _ (by omega)]
    · rw [g_upd_ne _ _ _ _ he]; exact c2 k (by omega)
  rintro y ⟨y1, y2⟩
  have hU : UpperUnit q fact.U (permFun (some Uq)) :=
    hf.ech.upperUnit.congr (fun i hi => (u2 i hi).symm)
  refine (dense_forward_solve_spec hf.ech.wfv (col := some Uq) (x := mkArr fact.U.n jk.int)
    (by rintro a ⟨⟩; omega) hU (b := y) (by omega) (by simp)
    (fun j hj => by rw [y2 j hj]; exact hbs j (by omega))).mono ?_
  rintro ⟨y', z, ok⟩ ⟨f1, f2, f3, f4, f7, f5, f6⟩
  simp only [size_mkArr] at f1 f2 f3 f4 f5 f6 f7 ⊢
  refine (dense_back_solve_spec hf.L_wfv hf.L_nodup (by rw [hLm]; exact hf.p_size) hf.tri
    (b := z) (x := x) (by omega) (by omega) (fun j hj => (f3 j (by omega)).small)).mono ?_
  rintro ⟨z', x'⟩ ⟨g1, g2, g3, g4, g5, g6⟩
  simp only at g1 g2 g3 g4 g5 g6 ⊢
  -- x A = x L U = z U
  have hprod : ∀ c, c < A.m → ∑ i ∈ range A.n, (x'.g i : ZMod q) * A.entry q i c =
      ∑ k ∈ range fact.U.n, (z.g k : ZMod q) * fact.U.entry q k c := by
    intro c hc
    have e1 : ∀ i ∈ range A.n, (x'.g i : ZMod q) * A.entry q i c =
        ∑ k ∈ range fact.U.n, (x'.g i : ZMod q) * L.entry q i k * fact.U.entry q k c := by
      intro i hi
      rw [mem_range] at hi
      by_cases hp : ∃ j, j < fact.U.n ∧ permFun fact.p j = i
      · rw [hf.prod i hi (Or.inr hp) c hc, Finset.mul_sum]
        refine Finset.sum_congr rfl fun k _ => by ring
      · have : x'.g i = 0 := g5 i (by omega) (fun j hj e => hp ⟨j, by omega, e⟩)
        rw [this]; simp
    rw [Finset.sum_congr rfl e1, Finset.sum_comm]
    refine Finset.sum_congr rfl fun k hk => ?_
    rw [mem_range] at hk
    rw [← Finset.sum_mul, ← hLn, g3 k (by omega)]
  refine ⟨g2, fun i hi => g4 i (by omega), ?_, ?_, fun i hi hn => g5 i (by omega)
    (fun j hj => hn j (by omega)), ?_⟩
  · rw [f5]
    constructor
    · rintro ⟨w, hw⟩
      refine InSpan.trans (A := fact.U) hm hf.span_U ⟨w, fun c hc => ?_⟩
      rw [hw c hc, y2 c hc]
    · intro hs
      obtain ⟨w, hw⟩ := InSpan.trans hm.symm hf.span hs
      refine ⟨w, fun c hc => ?_⟩
      rw [hw c hc, y2 c hc]
  · intro hok c hc
    have hz := f6 hok c (by omega)
    rw [y2 c (by omega)] at hz
    rw [← hz]
    exact hprod c hc
  · intro d hd
    have hpl : fact.U.pivot d < fact.U.m := hf.ech.pivot_lt hd
    rw [hprod _ (by omega)]
    have := f7 d hd
    rw [show permFun (some Uq) d = Uq.g d from rfl, u2 d hd, y2 _ hpl] at this
    exact this

theorem solve_spec (jk : Junk) {q : ℕ} [Fact q.Prime] {A L : Csr} {fact : Lu}
    (hL : fact.L = some L) (hf : IsFact q A L fact.U fact.qinv fact.p fact.complete)
    {b x : Array Int} (hb : A.m ≤ b.size) (hx : A.n ≤ x.size)
    (hbs : ∀ j, j < A.m → Bal q (b.g j)) :
    Ok (solve jk fact b x) (fun r => r.1.size = x.size ∧
      (∀ i, i < A.n → Bal q (r.1.g i)) ∧
      (r.2 = true ↔ InSpan q A (fun c => (b.g c : ZMod q))) ∧
      (r.2 = true → ∀ c, c < A.m →
        ∑ i ∈ range A.n, (r.1.g i : ZMod q) * A.entry q i c = (b.g c : ZMod q))) := by
  refine (solve_full jk hL hf hb hx hbs).mono ?_
  rintro r ⟨h1, h2, h3, h4, -⟩
  exact ⟨h1, h2, h3, h4⟩

end Spasm
