import Verif.Proofs.MaxMatching
import Verif.Props.Csr
import Verif.Props.Pivots

/-
C31: maximum matchings; C32: permuted and restricted matchings.
-/

namespace Spasm

open Finset

/-- C31. For every sparse matrix, `spasm_maximum_matching` terminates, does no invalid access and
violates no assertion; `p` and `qinv` describe a matching between rows and columns, on entries of
`A`, of the size returned; no matching is larger. -/
theorem C31_maximum_matching (jk : Junk) (A : Csr) (hA : A.WF) (p qinv : Array Int)
    (hp : p.size = A.n) (hq : qinv.size = A.m) :
    Ok (maximum_matching jk A p qinv) (fun r => Matching A r.2.1 r.2.2 ∧
      r.1 = ((range A.m).filter fun j => 0 ≤ r.2.2.g j).card ∧
      ∀ S : Finset (Nat × Nat), IsMatching A S → S.card ≤ r.1) :=
  maximum_matching_spec jk hA hp hq

/-- The size returned is also the number of matched rows. -/
theorem C31_rows (A : Csr) (p qinv : Array Int) (h : Matching A p qinv) :
    ((range A.n).filter fun i => 0 ≤ p.g i).card = ((range A.m).filter fun j => 0 ≤ qinv.g j).card :=
  h.rows_card

/-- A pattern where the greedy choice must be revised: rows `{0}`, `{0, 1}`, `{1}`, `{0, 2}`, visited
in this order; columns 0, 1, 2. -/
def exMt : Csr :=
  { n := 4, m := 3, p := #[0, 2, 3, 4, 6], j := #[0, 1, 0, 1, 0, 2], x := none, F := Field.ofPrime 7 }

example : exMt.WF := Csr.wf_of_check (by decide +kernel)

/-- The matching found on it: row 0 is first matched to column 0, then moved to column 1. -/
example : (match maximum_matching default exMt #[5, 5, 5, 5] #[5, 5, 5] with
    | .ok r => decide (r.1 = 3 ∧ r.2.1 = #[1, 0, -1, 2] ∧ r.2.2 = #[1, 0, 3])
    | .error _ => false) = true := by decide +kernel

/-! ### C32 -/

theorem permute_row_matching_spec (jk : Junk) {n : Nat} {jm : Array Int} {p qinv : Array Nat}
    (hp : n ≤ p.size) (hpl : ∀ i, i < n → p.g i < jm.size)
    (hj : ∀ i, i < n → jm.g (p.g i) = -1 ∨ (0 ≤ jm.g (p.g i) ∧ (jm.g (p.g i)).toNat < qinv.size)) :
    Ok (permute_row_matching jk n jm p qinv) (fun r => r.size = n ∧ ∀ i, i < n →
      r.g i = if jm.g (p.g i) = -1 then -1 else (qinv.g (jm.g (p.g i)).toNat : Int)) := by
  unfold permute_row_matching
  refine Ok_forRange_imp (I := fun k (r : Array Int) => r.size = n ∧ ∀ i, i < k →
      r.g i = if jm.g (p.g i) = -1 then -1 else (qinv.g (jm.g (p.g i)).toNat : Int)) (by omega)
    ⟨by simp, fun i hi => by omega⟩ ?_ (fun s hs => hs)
  rintro i r - hi ⟨h1, h2⟩
  have key : ∀ v, v = (if jm.g (p.g i) = -1 then -1 else (qinv.g (jm.g (p.g i)).toNat : Int)) →
      Ok (wr r i v) (fun r => r.size = n ∧ ∀ k, k < i + 1 →
        r.g k = if jm.g (p.g k) = -1 then -1 else (qinv.g (jm.g (p.g k)).toNat : Int)) := by
    intro v hv
    rw [Ok_wr]
    refine ⟨by omega, by simpa using h1, fun k hk => ?_⟩
    by_cases he : k = i
    · rw [he, g_upd_eq _ _ _ (by omega), hv]
    · rw [g_upd_ne _ _ _ _ he]; exact h2 k (by omega)
  rw [Ok_bind, Ok_rd]
  refine ⟨by omega, ?_⟩
  rw [Ok_bind, Ok_rd]
  refine ⟨hpl i hi, ?_⟩
  by_cases hv : jm.g (p.g i) = -1
  · rw [if_pos hv]
    exact key _ (by rw [if_pos hv])
  · rw [if_neg hv, Ok_bind, Ok_rdI]
    rcases hj i hi with h | ⟨h3, h4⟩
    · exact absurd h hv
    · exact ⟨h3, h4, key _ (by rw [if_neg hv])⟩

/-- C32 (permutation). If `jmatch`, `imatch` describe a matching of `A`, then the permuted matchings
describe a matching of the matrix returned by `spasm_permute(A, p, qinv)`, of the same size. -/
theorem C32_permute (jk : Junk) (A : Csr) (hA : A.WF) (jm im : Array Int) (hM : Matching A jm im)
    (p q pinv qinv : Array Nat) (hps : A.n ≤ p.size) (hqs : A.m ≤ q.size) (hpis : A.n ≤ pinv.size)
    (hqis : A.m ≤ qinv.size) (hp : IsPerm p.g A.n) (hq : IsPerm q.g A.m)
    (hpi : ∀ i, i < A.n → pinv.g (p.g i) = i) (hqi : ∀ j, j < A.m → qinv.g (q.g j) = j)
    (values : Bool) :
    Ok (permute jk A (some p) (some qinv) values) (fun B =>
      Ok (permute_row_matching jk A.n jm p qinv) (fun jm' =>
        Ok (permute_column_matching jk A.m im pinv q) (fun im' =>
          Matching B jm' im' ∧
          (∀ i, i < A.n → (jm'.g i = -1 ↔ jm.g (p.g i) = -1)) ∧
          ∀ i, i < A.n → 0 ≤ jm.g (p.g i) → (q.g (jm'.g i).toNat : Int) = jm.g (p.g i)))) := by
  have hpi' : ∀ i, i < A.n → p.g (pinv.g i) = i := by
    intro i hi
    obtain ⟨k, hk, rfl⟩ := hp.surj hi
    rw [hpi k hk]
  have hqi' : ∀ j, j < A.m → q.g (qinv.g j) = j := by
    intro j hj
    obtain ⟨k, hk, rfl⟩ := hq.surj hj
    rw [hqi k hk]
  have hpil : ∀ i, i < A.n → pinv.g i < A.n := by
    intro i hi
    obtain ⟨k, hk, rfl⟩ := hp.surj hi
    rw [hpi k hk]; exact hk
  have hqil : ∀ j, j < A.m → qinv.g j < A.m := by
    intro j hj
    obtain ⟨k, hk, rfl⟩ := hq.surj hj
    rw [hqi k hk]; exact hk
  refine (permute_spec hA values (p := some p) (qinv := some qinv) (fun a ha => by cases ha; exact hps)
    hp (fun a ha => by cases ha; exact hqis) hqil).mono ?_
  rintro B ⟨-, b2, b3, b4, -⟩
  have hent : ∀ i, i < A.n → ∀ j, A.InRow (p.g i) j → B.InRow i (qinv.g j) := by
    intro i hi j hj
    rw [Csr.inRow_iff] at hj ⊢
    obtain ⟨e, he, rfl⟩ := hj
    rw [b4 i hi]
    exact ⟨_, List.mem_map_of_mem he, rfl⟩
  refine (permute_row_matching_spec jk hps (fun i hi => by rw [hM.psize]; exact hp.1 i hi) ?_).mono ?_
  · intro i hi
    have h1 := hM.p_ge _ (hp.1 i hi)
    have h2 := hM.p_lt _ (hp.1 i hi)
    by_cases h : jm.g (p.g i) = -1
    · left; exact h
    · right; exact ⟨by omega, by omega⟩
  rintro jm' ⟨j1, j2⟩
  refine (permute_row_matching_spec jk hqs (fun i hi => by rw [hM.qsize]; exact hq.1 i hi) ?_).mono ?_
  · intro i hi
    have h1 := hM.q_ge _ (hq.1 i hi)
    have h2 := hM.q_lt _ (hq.1 i hi)
    by_cases h : im.g (q.g i) = -1
    · left; exact h
    · right; exact ⟨by omega, by omega⟩
  rintro im' ⟨i1, i2⟩
  have J : ∀ i, i < A.n → (jm.g (p.g i) = -1 ∧ jm'.g i = -1) ∨
      (0 ≤ jm.g (p.g i) ∧ (jm.g (p.g i)).toNat < A.m ∧
        jm'.g i = (qinv.g (jm.g (p.g i)).toNat : Int)) := by
    intro i hi
    have h1 := hM.p_ge _ (hp.1 i hi)
    have h2 := hM.p_lt _ (hp.1 i hi)
    have h3 := j2 i hi
    by_cases h : jm.g (p.g i) = -1
    · left; rw [if_pos h] at h3; exact ⟨h, h3⟩
    · right; rw [if_neg h] at h3; exact ⟨by omega, by omega, h3⟩
  have I : ∀ j, j < A.m → (im.g (q.g j) = -1 ∧ im'.g j = -1) ∨
      (0 ≤ im.g (q.g j) ∧ (im.g (q.g j)).toNat < A.n ∧
        im'.g j = (pinv.g (im.g (q.g j)).toNat : Int)) := by
    intro j hj
    have h1 := hM.q_ge _ (hq.1 j hj)
    have h2 := hM.q_lt _ (hq.1 j hj)
    have h3 := i2 j hj
    by_cases h : im.g (q.g j) = -1
    · left; rw [if_pos h] at h3; exact ⟨h, h3⟩
    · right; rw [if_neg h] at h3; exact ⟨by omega, by omega, h3⟩
  refine ⟨⟨by rw [j1, b2], by rw [i1, b3], ?_, ?_, ?_, ?_, ?_, ?_, ?_⟩, ?_, ?_⟩
  · intro i hi
    rw [b2] at hi
    rcases J i hi with ⟨-, h⟩ | ⟨-, -, h⟩ <;> rw [h] <;> omega
  · intro i hi
    rw [b2] at hi
    rw [b3]
    rcases J i hi with ⟨-, h⟩ | ⟨-, h0, h⟩
    · rw [h]; omega
    · rw [h]; have := hqil _ h0; omega
  · intro j hj
    rw [b3] at hj
    rcases I j hj with ⟨-, h⟩ | ⟨-, -, h⟩ <;> rw [h] <;> omega
  · intro j hj
    rw [b3] at hj
    rw [b2]
    rcases I j hj with ⟨-, h⟩ | ⟨-, h0, h⟩
    · rw [h]; omega
    · rw [h]; have := hpil _ h0; omega
  · intro i hi h0
    rw [b2] at hi
    rcases J i hi with ⟨-, h⟩ | ⟨k1, k2, h⟩
    · rw [h] at h0; omega
    · rw [h, Int.toNat_natCast]
      rcases I (qinv.g (jm.g (p.g i)).toNat) (hqil _ k2) with ⟨l1, -⟩ | ⟨l1, l2, l3⟩
      · rw [hqi' _ k2, hM.qp _ (hp.1 i hi) k1] at l1; omega
      · rw [l3, hqi' _ k2, hM.qp _ (hp.1 i hi) k1, Int.toNat_natCast, hpi i hi]
  · intro j hj h0
    rw [b3] at hj
    rcases I j hj with ⟨-, h⟩ | ⟨k1, k2, h⟩
    · rw [h] at h0; omega
    · rw [h, Int.toNat_natCast]
      rcases J (pinv.g (im.g (q.g j)).toNat) (hpil _ k2) with ⟨l1, -⟩ | ⟨l1, l2, l3⟩
      · rw [hpi' _ k2, hM.pq _ (hq.1 j hj) k1] at l1; omega
      · rw [l3, hpi' _ k2, hM.pq _ (hq.1 j hj) k1, Int.toNat_natCast, hqi j hj]
  · intro i hi h0
    rw [b2] at hi
    rcases J i hi with ⟨-, h⟩ | ⟨k1, k2, h⟩
    · rw [h] at h0; omega
    · rw [h, Int.toNat_natCast]
      exact hent i hi _ (hM.ent _ (hp.1 i hi) k1)
  · intro i hi
    rcases J i hi with ⟨h1, h2⟩ | ⟨k1, k2, h⟩
    · exact ⟨fun _ => h1, fun _ => h2⟩
    · constructor <;> intro h' <;> omega
  · intro i hi h0
    rcases J i hi with ⟨h1, h2⟩ | ⟨k1, k2, h⟩
    · omega
    · rw [h, Int.toNat_natCast, hqi' _ k2]; omega

theorem submatching_spec (jk : Junk) {mt : Array Int} {a b : Nat} {c d : Int} (hab : a ≤ b)
    (hs : b ≤ mt.size) (hin : ∀ i, a ≤ i → i < b → mt.g i = -1 ∨ (c ≤ mt.g i ∧ mt.g i < c + d)) :
    Ok (submatching jk mt a b c d) (fun r => r.size = b - a ∧ ∀ i, i < b - a →
      r.g i = if mt.g (a + i) = -1 then -1 else mt.g (a + i) - c) := by
  unfold submatching
  refine Ok_forRange_imp (I := fun k (r : Array Int) => r.size = b - a ∧ ∀ i, a + i < k →
      r.g i = if mt.g (a + i) = -1 then -1 else mt.g (a + i) - c) hab
    ⟨by simp, fun i hi => by omega⟩ ?_ ?_
  · rintro i r h1 h2 ⟨h3, h4⟩
    have key : ∀ v, v = (if mt.g i = -1 then -1 else mt.g i - c) →
        (r.upd (i - a) v).size = b - a ∧ ∀ k, a + k < i + 1 →
          (r.upd (i - a) v).g k = if mt.g (a + k) = -1 then -1 else mt.g (a + k) - c := by
      intro v hv
      refine ⟨by simpa using h3, fun k hk => ?_⟩
      by_cases he : k = i - a
      · have e : a + k = i := by omega
        rw [e, he, g_upd_eq _ _ _ (by omega), hv]
      · rw [g_upd_ne _ _ _ _ he]; exact h4 k (by omega)
    rw [Ok_bind, Ok_rd]
    refine ⟨by omega, ?_⟩
    by_cases hv : mt.g i = -1
    · rw [if_pos hv, Ok_wr]
      exact ⟨by omega, key _ (by rw [if_pos hv])⟩
    · rw [if_neg hv]
      rcases hin i h1 h2 with h | ⟨h5, h6⟩
      · exact absurd h hv
      · simp only [Ok_bind, Ok_wr, Ok_cassert, Ok_ok, decide_eq_true_eq]
        exact ⟨by omega, by omega, by omega, key _ (by rw [if_neg hv])⟩
  · rintro r ⟨h1, h2⟩
    exact ⟨h1, fun i hi => h2 i (by omega)⟩

/-- C32 (restriction). If the rows `a, ..., b - 1` and the columns `c, ..., d - 1` are matched only
between them, then the restricted matchings describe a matching of the submatrix. -/
theorem C32_submatching (jk : Junk) (A : Csr) (hA : A.WF) (jm im : Array Int) (hM : Matching A jm im)
    (a b c d : Nat) (hab : a ≤ b) (hbn : b ≤ A.n) (hcd : c ≤ d) (hdm : d ≤ A.m)
    (hr : ∀ i, a ≤ i → i < b → jm.g i = -1 ∨ ((c : Int) ≤ jm.g i ∧ jm.g i < d))
    (hc : ∀ j, c ≤ j → j < d → im.g j = -1 ∨ ((a : Int) ≤ im.g j ∧ im.g j < b)) (values : Bool) :
    Ok (submatrix jk A a b c d values) (fun B =>
      Ok (submatching jk jm a b c d) (fun jm' =>
        Ok (submatching jk im c d a b) (fun im' =>
          Matching B jm' im' ∧
          (∀ i, i < b - a → jm'.g i = if jm.g (a + i) = -1 then -1 else jm.g (a + i) - c) ∧
          ∀ j, j < d - c → im'.g j = if im.g (c + j) = -1 then -1 else im.g (c + j) - a))) := by
  refine (C08_submatrix_partial jk A hA a b c d values (by omega) (by omega) (by omega)
    (by omega)).mono ?_
  rintro B ⟨-, b2, b3, -, b5, -⟩
  have hBn : B.n = b - a := by omega
  have hBm : B.m = d - c := by omega
  refine (submatching_spec jk hab (by rw [hM.psize]; exact hbn) (fun i h1 h2 => by
    rcases hr i h1 h2 with h | h
    · left; exact h
    · right; omega)).mono ?_
  rintro jm' ⟨j1, j2⟩
  refine (submatching_spec jk hcd (by rw [hM.qsize]; exact hdm) (fun i h1 h2 => by
    rcases hc i h1 h2 with h | h
    · left; exact h
    · right; omega)).mono ?_
  rintro im' ⟨i1, i2⟩
  have J : ∀ i, i < b - a → (jm.g (a + i) = -1 ∧ jm'.g i = -1) ∨
      ((c : Int) ≤ jm.g (a + i) ∧ jm.g (a + i) < d ∧ jm'.g i = jm.g (a + i) - c) := by
    intro i hi
    have h := j2 i hi
    rcases hr (a + i) (by omega) (by omega) with h1 | h1
    · left; rw [if_pos h1] at h; exact ⟨h1, h⟩
    · right; rw [if_neg (by omega)] at h; exact ⟨h1.1, h1.2, h⟩
  have I : ∀ j, j < d - c → (im.g (c + j) = -1 ∧ im'.g j = -1) ∨
      ((a : Int) ≤ im.g (c + j) ∧ im.g (c + j) < b ∧ im'.g j = im.g (c + j) - a) := by
    intro j hj
    have h := i2 j hj
    rcases hc (c + j) (by omega) (by omega) with h1 | h1
    · left; rw [if_pos h1] at h; exact ⟨h1, h⟩
    · right; rw [if_neg (by omega)] at h; exact ⟨h1.1, h1.2, h⟩
  refine ⟨⟨by omega, by omega, ?_, ?_, ?_, ?_, ?_, ?_, ?_⟩, j2, i2⟩
  · intro i hi; rcases J i (by omega) with h | h <;> omega
  · intro i hi; rcases J i (by omega) with h | h <;> omega
  · intro j hj; rcases I j (by omega) with h | h <;> omega
  · intro j hj; rcases I j (by omega) with h | h <;> omega
  · intro i hi h0
    rcases J i (by omega) with h | ⟨h1, h2, h3⟩
    · omega
    · have e := hM.qp (a + i) (by omega) (by omega)
      have e1 : c + (jm'.g i).toNat = (jm.g (a + i)).toNat := by omega
      rcases I (jm'.g i).toNat (by omega) with k | ⟨-, -, k⟩
      · rw [e1, e] at k; omega
      · rw [k, e1, e]; omega
  · intro j hj h0
    rcases I j (by omega) with h | ⟨h1, h2, h3⟩
    · omega
    · have e := hM.pq (c + j) (by omega) (by omega)
      have e1 : a + (im'.g j).toNat = (im.g (c + j)).toNat := by omega
      rcases J (im'.g j).toNat (by omega) with k | ⟨-, -, k⟩
      · rw [e1, e] at k; omega
      · rw [k, e1, e]; omega
  · intro i hi h0
    rcases J i (by omega) with h | ⟨h1, h2, h3⟩
    · omega
    · rw [b5 i _ hi (by omega), Int.toNat_natCast, Int.toNat_natCast]
      have e1 : c + (jm'.g i).toNat = (jm.g (a + i)).toNat := by omega
      rw [e1]
      exact hM.ent (a + i) (by omega) (by omega)

/-- The assertion `pmatch[i - a] < d` (src/spasm_matching.c:189) does not detect rows that are matched
outside the block: row 0 is matched to column 3, outside the columns 1..2, and the function returns
2, which is not a column of the submatrix. -/
theorem C32_weak_assertion (jk : Junk) : submatching jk #[3] 0 1 1 3 = .ok #[2] := rfl

/-- The matching found above. -/
theorem exMt_matching : Matching exMt #[1, 0, -1, 2] #[1, 0, 3] := by
  have h := C31_maximum_matching default exMt (Csr.wf_of_check (by decide +kernel)) #[5, 5, 5, 5]
    #[5, 5, 5] rfl rfl
  rw [Ok_iff] at h
  obtain ⟨r, h1, h2, -⟩ := h
  have : (match maximum_matching default exMt #[5, 5, 5, 5] #[5, 5, 5] with
    | .ok r => decide (r.1 = 3 ∧ r.2.1 = #[1, 0, -1, 2] ∧ r.2.2 = #[1, 0, 3])
    | .error _ => false) = true := by decide +kernel
  rw [h1] at this
  simp only [decide_eq_true_eq] at this
  rwa [this.2.1, this.2.2] at h2

/-- A matching, permutations and a block that meet the hypotheses. -/
example : Matching exMt #[1, 0, -1, 2] #[1, 0, 3] ∧ IsPerm (#[2, 0, 3, 1] : Array Nat).g 4 ∧
    IsPerm (#[1, 2, 0] : Array Nat).g 3 ∧
    (∀ i, i < 4 → (#[1, 3, 0, 2] : Array Nat).g ((#[2, 0, 3, 1] : Array Nat).g i) = i) ∧
    (∀ j, j < 3 → (#[2, 0, 1] : Array Nat).g ((#[1, 2, 0] : Array Nat).g j) = j) ∧
    (∀ i, 2 ≤ i → i < 4 → (#[1, 0, -1, 2] : Array Int).g i = -1 ∨
      (2 ≤ (#[1, 0, -1, 2] : Array Int).g i ∧ (#[1, 0, -1, 2] : Array Int).g i < 3)) :=
  ⟨exMt_matching, isPerm_of_check (by decide), isPerm_of_check (by decide), by decide, by decide,
    by decide⟩

end Spasm
