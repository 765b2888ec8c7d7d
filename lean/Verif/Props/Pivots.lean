import Verif.Proofs.Reorder
import Verif.Proofs.Entry
import Verif.Spec.Check2
import Mathlib.Tactic.IntervalCases

/-
C23: structural pivots found from leftmost entries and unobstructed columns.
-/

namespace Spasm

open Finset

/-- Pivots chosen in the leftmost columns of all nonempty rows are at least one. -/
theorem C23_some {A : Csr} (hA : A.WF) (h0 : 0 < A.p.g A.n) {qinv : Array Int}
    (h : ∀ k, k < A.n → ∀ j, A.InRow k j → (∀ c, A.InRow k c → j ≤ c) → 0 ≤ qinv.g j ∧
      A.p.g ((qinv.g j).toNat + 1) - A.p.g (qinv.g j).toNat ≤ A.p.g (k + 1) - A.p.g k) :
    0 < pivCount A.m qinv := by
  obtain ⟨i, hi, j, hij, hmin⟩ := hA.exists_leftmost h0
  have hj := hA.inRow_lt hi hij
  unfold pivCount
  rw [card_pos]
  exact ⟨j, by rw [mem_filter, mem_range]; exact ⟨hj, (h i hi j hij hmin).1⟩⟩

/-- C23. On every matrix without explicit zero, the two Faugère-Lachartre searches succeed (no
assertion fails, no out-of-bounds access); the pivots form a matching of rows and columns on
entries of `A`, without alternating cycle; the number returned is the number of pivots, and it is not
zero unless the matrix is empty. -/
theorem C23_pivots (q : ℕ) (A : Csr) (hA : A.WFV q) (hz : A.NoZero) :
    Ok (pivots_find A none) (fun r => PivotSet A r.2.1 r.2.2 ∧ r.1 = pivCount A.m r.2.2 ∧
      (0 < A.p.g A.n → 0 < r.1)) := by
  unfold pivots_find
  simp only [Ok_bind]
  refine (find_FL_pivots_spec hA.toWF hA.has_x hz (by simp) (by simp)
    (fun i hi => g_mkArr _ _ _ hi) (fun j hj => g_mkArr _ _ _ hj)).mono ?_
  rintro ⟨n1, pinv, qinv⟩ ⟨h1, h2, -, h3⟩
  refine (find_FL_column_pivots_spec hA.toWF h1).mono ?_
  rintro ⟨n2, pinv', qinv'⟩ ⟨g1, g2, -⟩
  simp only at *
  rw [Ok_ok]
  refine ⟨g1, by simp only; omega, fun h0 => ?_⟩
  have := C23_some hA.toWF h0 h3
  simp only at this ⊢
  omega

/-- C23 (values). The pivots are nonzero coefficients of the matrix. -/
theorem C23_nonzero (q : ℕ) (A : Csr) (hA : A.WFV q) (hnd : A.NoDup) (hz : A.NoZero)
    (pinv qinv : Array Int) (h : Matching A pinv qinv) (i : Nat) (hi : i < A.n)
    (hp : 0 ≤ pinv.g i) : A.entry q i (pinv.g i).toNat ≠ 0 :=
  hA.entry_ne_zero hnd hz hi (h.ent i hi hp)

/-- C23 (triangular form). Whatever acyclic set of pivots was found, `spasm_pivots_reorder` succeeds
and returns a permutation of the rows, with the pivotal rows first, for which the pivotal submatrix
is upper triangular. -/
theorem C23_triangular (jk : Junk) (q : ℕ) (A : Csr) (hA : A.WFV q) (pinv qinv : Array Int)
    (h : PivotSet A pinv qinv) (p : Array Nat) (hp : p.size = A.n) :
    Ok (pivots_reorder jk A pinv qinv (pivCount A.m qinv) p) (fun p' =>
      PivotOrder A pinv (pivCount A.m qinv) p' ∧
      ∀ a b, a < b → b < pivCount A.m qinv →
        A.entry q (p'.g b) (pinv.g (p'.g a)).toNat = 0) := by
  refine (pivots_reorder_spec jk hA.toWF h rfl hp).mono ?_
  intro p' hp'
  exact ⟨hp', fun a b hab hb => Csr.entry_eq_zero_of_not_inRow (hp'.tri a b hab hb)⟩

/-! ### A concrete case -/

/-- A 4 x 5 matrix modulo 7. Rows 0 and 1 compete for column 0; row 1 is sparser, and row 0 gets a
pivot from the second search. -/
def exP : Csr :=
  { n := 4, m := 5, p := #[0, 3, 5, 8, 9], j := #[0, 2, 3, 0, 3, 1, 3, 0, 3],
    x := some #[1, 2, 3, 2, 1, -3, 1, 1, 2], F := Field.ofPrime 7 }

theorem exP_wfv : exP.WFV 7 := Csr.wfv_of_check (by decide +kernel)

theorem exP_nozero : exP.NoZero := by unfold Csr.NoZero; decide +kernel

theorem exP_nodup : exP.NoDup := Csr.nodup_of_check exP_wfv.toWF (by decide +kernel)

/-- C47. The first search: every column in which some row starts gets a pivot, in a row which starts
there and is a sparsest one among the rows which start there. -/
theorem C47_leftmost (q : ℕ) (A : Csr) (hA : A.WFV q) (hz : A.NoZero) (pinv qinv : Array Int)
    (hps : pinv.size = A.n) (hqs : qinv.size = A.m) (hp : ∀ i, i < A.n → pinv.g i = -1)
    (hq : ∀ j, j < A.m → qinv.g j = -1) :
    Ok (find_FL_pivots A pinv qinv) (fun r => ∀ i j, i < A.n → A.InRow i j →
      (∀ c, A.InRow i c → j ≤ c) → ∃ k, k < A.n ∧ r.2.2.g j = k ∧ r.2.1.g k = j ∧ A.InRow k j ∧
        (∀ c, A.InRow k c → j ≤ c) ∧ A.p.g (k + 1) - A.p.g k ≤ A.p.g (i + 1) - A.p.g i) := by
  refine (find_FL_pivots_spec hA.toWF hA.has_x hz hps hqs hp hq).mono ?_
  rintro ⟨n1, P, Q⟩ ⟨h1, -, h3, h4⟩ i j hi hin hmin
  simp only at h1 h3 h4 ⊢
  have hj := hA.toWF.inRow_lt hi hin
  obtain ⟨g1, g2⟩ := h4 i hi j hin hmin
  have hk := h1.toMatching.q_lt j hj
  have e := h1.toMatching.pq j hj g1
  have hk' : (Q.g j).toNat < A.n := by omega
  have he := h1.toMatching.ent _ hk' (by omega)
  rw [e, Int.toNat_natCast] at he
  refine ⟨(Q.g j).toNat, hk', by omega, e, he, fun c hc => ?_, g2⟩
  have := h3 _ hk' (by omega) c hc
  omega

/-- Rows 0 and 1 of `exP` start in column 0; row 1 is sparser and gets the pivot. -/
example : exP.InRow 0 0 ∧ exP.InRow 1 0 ∧
    find_FL_pivots exP #[-1, -1, -1, -1] #[-1, -1, -1, -1, -1] =
      .ok (2, #[-1, 0, -1, 3], #[1, -1, -1, 3, -1]) :=
  ⟨⟨0, by decide +kernel⟩, ⟨3, by decide +kernel⟩, by decide +kernel⟩

/-- The pivots found on the concrete matrix. -/
example : ∃ r, pivots_find exP none = .ok r ∧ r.1 = 4 ∧ r.2.1 = #[2, 0, 1, 3] ∧
    r.2.2 = #[1, 2, 0, 3, -1] := ⟨_, rfl, by decide +kernel⟩

example : Ok (pivots_find exP none) (fun r => PivotSet exP r.2.1 r.2.2 ∧
    r.1 = pivCount exP.m r.2.2 ∧ (0 < exP.p.g exP.n → 0 < r.1)) := C23_pivots 7 exP exP_wfv exP_nozero

/-- C23 (registering a pivot). On every matching, making entry `(i, j)` a pivot, where row `i` or
column `j` is still free, succeeds; the result is a matching in which row `i` and column `j` are
matched, the former partner of `i` (or of `j`) is released, all the others are untouched, and the
returned number is how many pivots were gained. -/
theorem C23_register (A : Csr) (pinv qinv : Array Int) (h : Matching A pinv qinv) (i j : Nat)
    (hi : i < A.n) (hj : j < A.m) (he : A.InRow i j) (hfree : pinv.g i = -1 ∨ qinv.g j = -1) :
    Ok (register_pivot i j pinv qinv) (fun r => Matching A r.2.1 r.2.2 ∧
      r.2.1.g i = j ∧ r.2.2.g j = i ∧
      (∀ i', i' < A.n → i' ≠ i → r.2.1.g i' = if pinv.g i' = j then -1 else pinv.g i') ∧
      (∀ j', j' < A.m → j' ≠ j → r.2.2.g j' = if qinv.g j' = i then -1 else qinv.g j') ∧
      (r.1 = if pinv.g i = -1 ∧ qinv.g j = -1 then 1 else 0)) := by
  have hps := h.psize
  have hqs := h.qsize
  have p1 := h.p_ge i hi
  have p2 := h.p_lt i hi
  have q1 := h.q_ge j hj
  have q2 := h.q_lt j hj
  -- the matching obtained, whatever the way
  have key : ∀ P Q : Array Int, P.size = A.n → Q.size = A.m → P.g i = j → Q.g j = i →
      (∀ i', i' < A.n → i' ≠ i → P.g i' = if pinv.g i' = j then -1 else pinv.g i') →
      (∀ j', j' < A.m → j' ≠ j → Q.g j' = if qinv.g j' = i then -1 else qinv.g j') →
      Matching A P Q := by
    intro P Q sP sQ ePi eQj hP hQ
    refine ⟨sP, sQ, ?_, ?_, ?_, ?_, ?_, ?_, ?_⟩
    · intro a ha
      by_cases hai : a = i
      · rw [hai, ePi]; omega
      · rw [hP a ha hai]; split
        · omega
        · exact h.p_ge a ha
    · intro a ha
      by_cases hai : a = i
      · rw [hai, ePi]; omega
      · rw [hP a ha hai]; split
        · omega
        · exact h.p_lt a ha
    · intro a ha
      by_cases hai : a = j
      · rw [hai, eQj]; omega
      · rw [hQ a ha hai]; split
        · omega
        · exact h.q_ge a ha
    · intro a ha
      by_cases hai : a = j
      · rw [hai, eQj]; omega
      · rw [hQ a ha hai]; split
        · omega
        · exact h.q_lt a ha
    · intro a ha h0
      by_cases hai : a = i
      · rw [hai, ePi]; simpa using eQj
      · rw [hP a ha hai] at h0 ⊢
        split at h0
        · omega
        · rename_i hne
          rw [if_neg hne]
          have e := h.qp a ha h0
          have hl := h.p_lt a ha
          rw [hQ _ (by omega) (by omega), e, if_neg (by omega)]
    · intro b hb h0
      by_cases hbj : b = j
      · rw [hbj, eQj]; simpa using ePi
      · rw [hQ b hb hbj] at h0 ⊢
        split at h0
        · omega
        · rename_i hne
          rw [if_neg hne]
          have e := h.pq b hb h0
          have hl := h.q_lt b hb
          rw [hP _ (by omega) (by omega), e, if_neg (by omega)]
    · intro a ha h0
      by_cases hai : a = i
      · rw [hai, ePi]; simpa using he
      · rw [hP a ha hai] at h0 ⊢
        split at h0
        · omega
        · rename_i hne
          rw [if_neg hne]; exact h.ent a ha h0
  have fin : ∀ P Q : Array Int, P.size = A.n → Q.size = A.m → P.g i = j → Q.g j = i →
      (∀ i', i' < A.n → i' ≠ i → P.g i' = if pinv.g i' = j then -1 else pinv.g i') →
      (∀ j', j' < A.m → j' ≠ j → Q.g j' = if qinv.g j' = i then -1 else qinv.g j') →
      Matching A P Q ∧ P.g i = j ∧ Q.g j = i ∧
      (∀ i', i' < A.n → i' ≠ i → P.g i' = if pinv.g i' = j then -1 else pinv.g i') ∧
      (∀ j', j' < A.m → j' ≠ j → Q.g j' = if qinv.g j' = i then -1 else qinv.g j') :=
    fun P Q a b c d e f => ⟨key P Q a b c d e f, c, d, e, f⟩
  unfold register_pivot
  simp only [Ok_bind, Ok_rd, Ok_cassert]
  refine ⟨by omega, by omega, by simp; omega, ?_⟩
  by_cases c1 : pinv.g i = -1
  · rw [if_neg (not_not.2 c1)]
    by_cases c2 : qinv.g j = -1
    · simp only [c1, c2, ne_eq, not_true_eq_false, if_false, Ok_bind, Ok_ok, Ok_wr]
      refine ⟨by omega, by omega, ?_⟩
      have F := fin (pinv.upd i j) (qinv.upd j i) (by simp [hps]) (by simp [hqs])
        (g_upd_eq _ _ _ (by omega)) (g_upd_eq _ _ _ (by omega)) ?_ ?_
      · exact ⟨F.1, F.2.1, F.2.2.1, F.2.2.2.1, F.2.2.2.2, by rw [if_pos (by simp)]⟩
      · intro a ha hai
        rw [g_upd_ne _ _ _ _ hai, if_neg]
        intro e
        have := h.qp a ha (by omega)
        rw [e] at this; simp at this; omega
      · intro a ha haj
        rw [g_upd_ne _ _ _ _ haj, if_neg]
        intro e
        have := h.pq a ha (by omega)
        rw [e] at this; simp at this; omega
    · have e := h.pq j hj (by omega)
      simp only [c2, ne_eq, not_false_eq_true, if_true, Ok_bind, Ok_rdI, Ok_cassert, Ok_wrI, Ok_ok,
        Ok_wr]
      refine ⟨by omega, by omega, by simpa using e, ?_, by omega, by omega, ?_⟩
      · simp; intro e'; rw [e'] at e; simp at e; omega
      · refine ⟨by simp; omega, by omega, ?_⟩
        have hne : (qinv.g j).toNat ≠ i := by intro e'; rw [e'] at e; omega
        have F := fin ((pinv.upd (qinv.g j).toNat (-1)).upd i j) (qinv.upd j i) (by simp [hps])
          (by simp [hqs]) (g_upd_eq _ _ _ (by simp; omega)) (g_upd_eq _ _ _ (by omega)) ?_ ?_
        · exact ⟨F.1, F.2.1, F.2.2.1, F.2.2.2.1, F.2.2.2.2, by rw [if_neg (by tauto)]⟩
        · intro a ha hai
          rw [g_upd_ne _ _ _ _ hai]
          by_cases haq : a = (qinv.g j).toNat
          · rw [haq, g_upd_eq _ _ _ (by omega), if_pos e]
          · rw [g_upd_ne _ _ _ _ haq, if_neg]
            intro e1
            have := h.qp a ha (by omega)
            rw [e1] at this; simp at this; omega
        · intro a ha haj
          rw [g_upd_ne _ _ _ _ haj, if_neg]
          intro e1
          have := h.pq a ha (by omega)
          rw [e1] at this; simp at this; omega
  · have c2 : qinv.g j = -1 := by tauto
    have e := h.qp i hi (by omega)
    rw [if_pos c1]
    simp only [c2, ne_eq, not_true_eq_false, if_false, Ok_bind, Ok_rdI, Ok_cassert, Ok_wrI, Ok_ok,
      Ok_wr]
    refine ⟨by omega, by omega, by simpa using e, ?_, by omega, by omega, ?_⟩
    · simp; intro e'; rw [e'] at e; simp at e; omega
    · refine ⟨by omega, by simp; omega, ?_⟩
      have hne : (pinv.g i).toNat ≠ j := by intro e'; rw [e'] at e; omega
      have F := fin (pinv.upd i j) ((qinv.upd (pinv.g i).toNat (-1)).upd j i) (by simp [hps])
          (by simp [hqs]) (g_upd_eq _ _ _ (by omega)) (g_upd_eq _ _ _ (by simp; omega)) ?_ ?_
      · exact ⟨F.1, F.2.1, F.2.2.1, F.2.2.2.1, F.2.2.2.2, by rw [if_neg (by tauto)]⟩
      · intro a ha hai
        rw [g_upd_ne _ _ _ _ hai, if_neg]
        intro e1
        have := h.qp a ha (by omega)
        rw [e1] at this; simp at this; omega
      · intro a ha haj
        rw [g_upd_ne _ _ _ _ haj]
        by_cases haq : a = (pinv.g i).toNat
        · rw [haq, g_upd_eq _ _ _ (by omega), if_pos e]
        · rw [g_upd_ne _ _ _ _ haq, if_neg]
          intro e1
          have := h.pq a ha (by omega)
          rw [e1] at this; simp at this; omega

/-- Row 1 of `exP` gives up column 0 for column 3. -/
example : Matching exP #[-1, 0, -1, -1] #[1, -1, -1, -1, -1] ∧ exP.InRow 1 3 ∧
    register_pivot 1 3 #[-1, 0, -1, -1] #[1, -1, -1, -1, -1] =
      .ok (0, #[-1, 3, -1, -1], #[-1, -1, -1, 1, -1]) := by
  refine ⟨⟨rfl, rfl, ?_, ?_, ?_, ?_, ?_, ?_, ?_⟩, ⟨4, by decide +kernel⟩, by decide +kernel⟩
  all_goals first
    | decide +kernel
    | (intro a ha h0
       change a < 4 at ha
       interval_cases a <;> first | exact absurd h0 (by decide +kernel) | exact ⟨3, by decide +kernel⟩)

end Spasm
