import Verif.Spec.Check
import Mathlib.Data.Matrix.Mul
import Mathlib.Algebra.BigOperators.Fin

/-
Properties C03 to C08 and C11: dense/sparse products, transpose, permutations, submatrices,
reallocation.
-/

namespace Spasm

open Finset Matrix

/-! ### C03 -/

/-- C03 (scatter). `spasm_scatter` adds `beta` times row `i` to `x`, modulo `q`, touches only the
columns of the row and leaves balanced values there. -/
theorem C03_scatter (q : ℕ) (A : Csr) (hA : A.WFV q) (i : Nat) (hi : i < A.n) (beta : Int)
    (hb : Small q beta) (x : Array Int) (hx : A.m ≤ x.size)
    (hs : ∀ j, A.InRow i j → Small q (x.g j)) :
    Ok (scatter A i beta x) (fun y => y.size = x.size ∧
      (∀ j, (y.g j : ZMod q) = (x.g j : ZMod q) + beta * A.entry q i j) ∧
      (∀ j, A.InRow i j → Bal q (y.g j)) ∧ (∀ j, ¬ A.InRow i j → y.g j = x.g j)) := by
  refine (scatter_spec hA hi hb x hx hs).mono ?_
  rintro y ⟨h1, h2, h3, h4⟩
  exact ⟨h1, fun j => by rw [h2, add_comm], h3, h4⟩

/-- C03 (xApy). `y := x A + y`. -/
theorem C03_xApy (q : ℕ) (A : Csr) (hA : A.WFV q) (x y : Array Int) (hx : A.n ≤ x.size)
    (hy : A.m ≤ y.size) (hxs : ∀ i, i < A.n → Small q (x.g i))
    (hys : ∀ j, j < A.m → Small q (y.g j)) :
    Ok (xApy x A y) (fun z => z.size = y.size ∧
      vec q z A.m = vec q x A.n ᵥ* A.toMat q + vec q y A.m ∧
      (∀ j, j < A.m → Small q (z.g j)) ∧
      (∀ j, j < A.m → Bal q (y.g j) → Bal q (z.g j)) ∧
      (∀ j, A.m ≤ j → z.g j = y.g j)) := by
  refine (xApy_spec hA x y hx hy hxs hys).mono ?_
  rintro z ⟨h1, h2, h3, h4, h5⟩
  refine ⟨h1, ?_, h3, h4, h5⟩
  funext j
  simp only [vec, Pi.add_apply, Matrix.vecMul, dotProduct, Csr.toMat]
  rw [h2, Finset.sum_range]

/-- C03 (Axpy). `y := A x + y`. -/
theorem C03_Axpy (q : ℕ) (A : Csr) (hA : A.WFV q) (x y : Array Int) (hx : A.m ≤ x.size)
    (hy : A.n ≤ y.size) (hxs : ∀ j, j < A.m → Small q (x.g j))
    (hys : ∀ i, i < A.n → Small q (y.g i)) :
    Ok (Axpy A x y) (fun z => z.size = y.size ∧
      vec q z A.n = A.toMat q *ᵥ vec q x A.m + vec q y A.n ∧
      (∀ i, i < A.n → Small q (z.g i)) ∧
      (∀ i, i < A.n → Bal q (y.g i) → Bal q (z.g i)) ∧
      (∀ i, A.n ≤ i → z.g i = y.g i)) := by
  refine (Axpy_spec hA x y hx hy hxs hys).mono ?_
  rintro z ⟨h1, h2, h3, h4, h5⟩
  refine ⟨h1, ?_, h3, h4, h5⟩
  funext i
  simp only [vec, Pi.add_apply, Matrix.mulVec, dotProduct, Csr.toMat]
  rw [h2 i i.2, Finset.sum_range]

example : exA.WFV 7 ∧ (0 < exA.n ∧ Small 7 (-3)) ∧ (∀ j, j < 3 → Small 7 ((#[1, -3, 2] : Array Int).g j)) := by
  refine ⟨exA_wfv, ⟨by decide, by unfold Small; omega⟩, ?_⟩
  unfold Small
  decide

/-! ### C04 -/

/-- C04. `spasm_transpose`: dimensions, exact content of the rows (the entries of column `j` in
order of rows), matrix entries, presence of values. -/
theorem C04_transpose (jk : Junk) (A : Csr) (hA : A.WF) (keep : Bool) :
    Ok (transpose jk A keep) (fun T => T.WF ∧ T.n = A.m ∧ T.m = A.n ∧
      -- the entries of `A`, mirrored, each exactly once
      (∀ j, j < A.m → T.row j = (List.range A.n).flatMap fun i =>
        ((A.row i).filter (fun e => decide (e.1 = j))).map
          (fun e => (i, if keep then e.2 else 1))) ∧
      -- column indices of each row are in nondecreasing order
      (∀ j, j < A.m → ((T.row j).map Prod.fst).Pairwise (· ≤ ·)) ∧
      -- the transposed matrix
      (keep = true → ∀ q i j, i < A.n → j < A.m → T.entry q j i = A.entry q i j) ∧
      T.p.g T.n = A.p.g A.n ∧
      T.x.isSome = (keep && A.x.isSome) ∧
      (∀ q, keep = true → A.x.isSome = true → A.WFV q → T.WFV q)) := by
  refine (transpose_spec jk hA keep).mono ?_
  rintro T ⟨h1, h2, h3, h4, h5, h6, h7, h8, h9⟩
  refine ⟨h1, h2, h3, h4, ?_, ?_, h9, h5, ?_⟩
  · intro j hj
    rw [h4 j hj, ← flat_eq_flatMap, map_flat]
    have : ∀ n, (flat (fun i => (((A.row i).filter (fun e => decide (e.1 = j))).map
        (fun e => (i, if keep then e.2 else 1))).map Prod.fst) n).Pairwise (· ≤ ·) ∧
        ∀ x ∈ (flat (fun i => (((A.row i).filter (fun e => decide (e.1 = j))).map
        (fun e => (i, if keep then e.2 else 1))).map Prod.fst) n), x < n := by
      intro n
      induction n with
      | zero => simp [flat]
      | succ n ih =>
        simp only [flat]
        refine ⟨?_, ?_⟩
        · rw [List.pairwise_append]
          refine ⟨ih.1, ?_, ?_⟩
          · rw [List.map_map, List.pairwise_map]
            exact List.Pairwise.imp (fun _ => le_refl _) (List.pairwise_of_forall (R := fun _ _ => True) (fun _ _ => trivial))
          · intro x hx y hy
            have := ih.2 x hx
            rw [List.map_map, List.mem_map] at hy
            obtain ⟨e, -, rfl⟩ := hy
            simp only [Function.comp]
            omega
        · intro x hx
          rw [List.mem_append] at hx
          rcases hx with hx | hx
          · have := ih.2 x hx; omega
          · rw [List.map_map, List.mem_map] at hx
            obtain ⟨e, -, rfl⟩ := hx
            simp
    exact (this A.n).1
  · intro hk q i j hi hj
    rw [Csr.entry_eq_lsum, Csr.entry_eq_lsum, h4 j hj, ← flat_eq_flatMap, lsum_flat]
    simp only [hk, if_true, lsum_map_const]
    rw [Finset.sum_ite_eq' (range A.n) i, if_pos (mem_range.mpr hi)]
  · intro q hk hx hV
    apply h1.toWFV (h7 q hV.good) (fun _ => by rw [h5, hk, hx]; rfl)
    intro j hj e he
    rw [h2] at hj
    rw [h4 j hj, List.mem_flatMap] at he
    obtain ⟨i, hi, he⟩ := he
    rw [List.mem_map] at he
    obtain ⟨e', he', rfl⟩ := he
    simp only [hk, if_true]
    exact hV.mem_row_small (List.mem_range.mp hi) (List.mem_filter.mp he').1

/-- C04 (involution). Transposing twice gives a matrix with the same rows up to the order of
the entries; if the rows of `A` are sorted it gives back exactly the same rows. -/
theorem C04_transpose_twice (jk jk' : Junk) (A : Csr) (hA : A.WF) :
    Ok (do let T ← transpose jk A true; transpose jk' T true) (fun B => B.WF ∧ B.n = A.n ∧ B.m = A.m ∧
      (∀ i, i < A.n → (B.row i).Perm (A.row i)) ∧
      (∀ i, i < A.n → (A.row i).Pairwise (fun a b => a.1 < b.1) → B.row i = A.row i) ∧
      (∀ q i j, i < A.n → j < A.m → B.entry q i j = A.entry q i j)) := by
  rw [Ok_bind]
  refine (C04_transpose jk A hA true).mono ?_
  rintro T ⟨h1, h2, h3, h4, -, h5, -⟩
  refine (C04_transpose jk' T h1 true).mono ?_
  rintro B ⟨g1, g2, g3, g4, gs, g5, -⟩
  rw [h3] at g2 g4 gs
  rw [h2] at g3 g4
  have hperm : ∀ i, i < A.n → (B.row i).Perm (A.row i) := by
    intro i hi
    rw [g4 i hi, ← flat_eq_flatMap]
    refine List.Perm.trans (List.Perm.of_eq ?_)
      (perm_flat_filter Prod.fst (A.row i) A.m (fun e he => hA.mem_row hi he))
    apply flat_congr
    intro j hj
    rw [h4 j hj]
    simp only [if_true]
    rw [← flat_eq_flatMap]
    -- entries of row j of T with column i: those coming from row i
    have : ∀ n, ((flat (fun i => ((A.row i).filter (fun e => decide (e.1 = j))).map
        (fun e => (i, e.2))) n).filter (fun e => decide (e.1 = i))).map (fun e => (j, e.2))
        = if i < n then (A.row i).filter (fun e => decide (e.1 = j)) else [] := by
      intro n
      induction n with
      | zero => rfl
      | succ n ih =>
        simp only [flat]
        rw [List.filter_append, List.map_append, ih]
        by_cases hin : i = n
        · subst hin
          rw [if_neg (by omega), if_pos (by omega), List.nil_append, List.filter_map, List.map_map]
          rw [List.filter_eq_self.mpr (fun e _ => by simp)]
          conv_rhs => rw [← List.map_id ((A.row i).filter (fun e => decide (e.1 = j)))]
          apply List.map_congr_left
          intro e he
          have := (List.mem_filter.mp he).2
          simp only [decide_eq_true_eq] at this
          simp only [Function.comp, ← this]; rfl
        · have : ((((A.row n).filter (fun e => decide (e.1 = j))).map
              (fun e => (n, e.2))).filter (fun e => decide (e.1 = i))) = [] := by
            rw [List.filter_eq_nil_iff]
            intro e he
            rw [List.mem_map] at he
            obtain ⟨e', -, rfl⟩ := he
            simp; omega
          rw [this, List.map_nil, List.append_nil]
          by_cases h : i < n
          · rw [if_pos h, if_pos (by omega)]
          · rw [if_neg h, if_neg (by omega)]
    rw [this, if_pos hi]
  refine ⟨g1, g2, g3, hperm, ?_, ?_⟩
  · intro i hi hs
    have hle := gs i hi
    rw [List.pairwise_map] at hle
    refine List.Perm.eq_of_pairwise ?_ hle (hs.imp (fun h => Nat.le_of_lt h)) (hperm i hi)
    intro a b ha hb hab hba
    have ha' := (hperm i hi).mem_iff.mp ha
    by_contra hne
    have hi' : ∀ x ∈ A.row i, ∀ y ∈ A.row i, x ≠ y → x.1 ≠ y.1 := by
      intro x hx y hy hxy
      haveI : Std.Symm (fun x y : Nat × Int => x.1 ≠ y.1) := ⟨fun _ _ h => h.symm⟩
      refine List.Pairwise.forall (R := fun x y => x.1 ≠ y.1) (hs.imp (fun h => Nat.ne_of_lt h)) hx hy hxy
    exact hi' a ha' b hb hne (Nat.le_antisymm hab hba)
  · intro q i j hi hj
    rw [g5 rfl q j i (by rw [h2]; exact hj) (by rw [h3]; exact hi), h5 rfl q i j hi hj]

example : exA.WF := exA_wfv.toWF

/-! ### C05 -/

/-- C05 (pinv). -/
theorem C05_pinv (jk : Junk) (p : Option (Array Nat)) (n : Nat) (hp : PermSize p n)
    (hperm : IsPerm (permFun p) n) :
    Ok (pinv jk p n) (fun r => PermSize r n ∧ IsPerm (permFun r) n ∧
      (∀ i, i < n → permFun r (permFun p i) = i) ∧ (∀ i, i < n → permFun p (permFun r i) = i)) :=
  pinv_spec hp hperm

/-- C05 (pvec). -/
theorem C05_pvec (p : Option (Array Nat)) (b x : Array Int) (n : Nat) (hp : PermSize p n)
    (hperm : IsPerm (permFun p) n) (hb : n ≤ b.size) (hx : n ≤ x.size) :
    Ok (pvec p b x n) (fun y => y.size = x.size ∧ (∀ k, k < n → y.g k = b.g (permFun p k)) ∧
      ∀ k, n ≤ k → y.g k = x.g k) := pvec_spec hp hperm.1 hb hx

/-- C05 (ipvec). -/
theorem C05_ipvec (p : Option (Array Nat)) (b x : Array Int) (n : Nat) (hp : PermSize p n)
    (hperm : IsPerm (permFun p) n) (hb : n ≤ b.size) (hx : n ≤ x.size) :
    Ok (ipvec p b x n) (fun y => y.size = x.size ∧ (∀ k, k < n → y.g (permFun p k) = b.g k) ∧
      ∀ k, n ≤ k → y.g k = x.g k) := by
  refine (ipvec_spec hp hperm.1 hperm.2 hb hx).mono ?_
  rintro y ⟨h1, h2, h3⟩
  refine ⟨h1, h2, fun k hk => h3 k (fun i hi => ?_)⟩
  have := hperm.1 i hi
  omega

/-- C05 (inverse). `spasm_ipvec` undoes `spasm_pvec` and conversely. -/
theorem C05_pvec_ipvec (p : Option (Array Nat)) (b x y : Array Int) (n : Nat) (hp : PermSize p n)
    (hperm : IsPerm (permFun p) n) (hb : n ≤ b.size) (hx : n ≤ x.size) (hy : n ≤ y.size) :
    Ok (do let u ← pvec p b x n; ipvec p u y n) (fun z => ∀ k, k < n → z.g k = b.g k) ∧
    Ok (do let u ← ipvec p b x n; pvec p u y n) (fun z => ∀ k, k < n → z.g k = b.g k) := by
  constructor
  · rw [Ok_bind]
    refine (C05_pvec p b x n hp hperm hb hx).mono ?_
    rintro u ⟨h1, h2, -⟩
    refine (C05_ipvec p u y n hp hperm (by omega) hy).mono ?_
    rintro z ⟨g1, g2, -⟩ k hk
    obtain ⟨i, hi, rfl⟩ := hperm.surj hk
    rw [g2 i hi, h2 i hi]
  · rw [Ok_bind]
    refine (C05_ipvec p b x n hp hperm hb hx).mono ?_
    rintro u ⟨h1, h2, -⟩
    refine (C05_pvec p u y n hp hperm (by omega) hy).mono ?_
    rintro z ⟨g1, g2, -⟩ k hk
    rw [g2 k hk, h2 k hk]

/-- C05 (range). `spasm_range_pvec` permutes `x[a..b)` and nothing else. -/
theorem C05_range_pvec (x p : Array Nat) (a b : Nat) (hab : a ≤ b) (hx : b ≤ x.size)
    (hp : b - a ≤ p.size) (hperm : IsPerm (fun i => p.g i) (b - a)) :
    Ok (range_pvec x a b p) (fun r => r.1.size = x.size ∧
      (∀ i, i < b - a → r.1.g (a + i) = x.g (a + p.g i)) ∧
      (∀ k, k < a ∨ b ≤ k → r.1.g k = x.g k)) := range_pvec_spec hab hx hp hperm.1

example : PermSize (some #[2, 0, 1]) 3 ∧ IsPerm (permFun (some #[2, 0, 1])) 3 := by
  refine ⟨fun a ha => by cases ha; decide, isPerm_of_check (by decide +kernel)⟩

/-! ### C06 -/

/-- C06. `spasm_permute`. -/
theorem C06_permute (jk : Junk) (A : Csr) (hA : A.WF) (p qinv : Option (Array Nat)) (values : Bool)
    (hps : PermSize p A.n) (hp : IsPerm (permFun p) A.n)
    (hqs : PermSize qinv A.m) (hq : IsPerm (permFun qinv) A.m) :
    Ok (permute jk A p qinv values) (fun B => B.WF ∧ B.n = A.n ∧ B.m = A.m ∧
      (∀ i, i < A.n → B.row i = (A.row (permFun p i)).map
        (fun e => (permFun qinv e.1, if values then e.2 else 1))) ∧
      B.p.g B.n = A.p.g A.n ∧
      (values = true → ∀ q i j, i < A.n → j < A.m →
        B.entry q i (permFun qinv j) = A.entry q (permFun p i) j) ∧
      B.x.isSome = (values && A.x.isSome) ∧
      (∀ q, values = true → A.x.isSome = true → A.WFV q → B.WFV q)) := by
  refine (permute_spec hA values hps hp hqs hq.1).mono ?_
  rintro B ⟨h1, h2, h3, h4, h5, h6, h7⟩
  refine ⟨h1, h2, h3, h4, ?_, ?_, h5, ?_⟩
  · rw [h1.p_eq_offs (le_refl _), hA.p_eq_offs (le_refl _), h2, offs_eq_sum, offs_eq_sum,
      ← hp.sum_comp (fun i => (A.row i).length)]
    apply Finset.sum_congr rfl
    intro i hi
    rw [h4 i (mem_range.mp hi), List.length_map]
  · intro hv q i j hi hj
    rw [Csr.entry_eq_lsum, Csr.entry_eq_lsum, h4 i hi]
    simp only [hv, if_true]
    apply lsum_map_inj
    intro e he hg
    exact hq.2 e.1 j (hA.mem_row (hp.1 i hi) he) hj hg
  · intro q hv hx hV
    apply h1.toWFV (h7 q hV.good) (fun _ => by rw [h5, hv, hx]; rfl)
    intro i hi e he
    rw [h2] at hi
    rw [h4 i hi, List.mem_map] at he
    obtain ⟨e', he', rfl⟩ := he
    simp only [hv, if_true]
    exact hV.mem_row_small (hp.1 i hi) he'

example : exA.WF ∧ PermSize (some #[1, 0]) exA.n ∧ IsPerm (permFun (some #[1, 0])) exA.n ∧
    PermSize (some #[2, 0, 1]) exA.m ∧ IsPerm (permFun (some #[2, 0, 1])) exA.m :=
  ⟨exA_wfv.toWF, fun a ha => by cases ha; decide, isPerm_of_check (by decide +kernel),
    fun a ha => by cases ha; decide, isPerm_of_check (by decide +kernel)⟩

/-! ### C07 -/

/-- C07. `spasm_random_permutation` returns a permutation whatever `rand()` returns. -/
theorem C07_random_permutation (jk : Junk) (rand : Nat → Nat) (n : Nat) :
    Ok (random_permutation jk rand n) (fun p => p.size = n ∧ IsPerm (fun i => p.g i) n) :=
  random_permutation_spec jk rand n

example : random_permutation default (fun i => 7 * i + 3) 5 = .ok #[2, 4, 1, 0, 3] := by
  decide +kernel

/-! ### C08 -/

/-- C08 (partial: `r0 ≤ r1`; the code is wrong when `r1 < r0`, see `C08_reversed_range_ub`). -/
theorem C08_submatrix_partial (jk : Junk) (A : Csr) (hA : A.WF) (r0 r1 c0 c1 : Int) (wv : Bool)
    (hr0 : 0 ≤ r0) (hr : r0 ≤ r1) (hr1 : r1 ≤ A.n) (hc0 : 0 ≤ c0) :
    Ok (submatrix jk A r0 r1 c0 c1 wv) (fun B => B.WF ∧ (B.n : Int) = r1 - r0 ∧
      (B.m : Int) = max 0 (c1 - c0) ∧
      (wv = true → ∀ q i j, i < B.n → j < B.m →
        B.entry q i j = A.entry q (r0.toNat + i) (c0.toNat + j)) ∧
      (∀ i j, i < B.n → j < B.m → (B.InRow i j ↔ A.InRow (r0.toNat + i) (c0.toNat + j))) ∧
      (∀ q, wv = true → A.WFV q → B.WFV q)) := by
  refine (submatrix_spec jk hA wv hr0 hr hr1).mono ?_
  rintro B ⟨h1, h2, h3, h4, h5, h6, h7, h8⟩
  refine ⟨h1, h2, h3, ?_, ?_, ?_⟩
  · intro hv q i j hi hj
    rw [Csr.entry_eq_lsum, Csr.entry_eq_lsum, h4 i hi, hv]
    exact lsum_subEnt _ _ hc0 (by omega)
  · intro i j hi hj
    rw [Csr.inRow_iff, Csr.inRow_iff, h4 i hi]
    constructor
    · rintro ⟨e, he, rfl⟩
      rw [List.mem_filterMap] at he
      obtain ⟨a, ha, hfa⟩ := he
      refine ⟨a, ha, ?_⟩
      simp only [subEnt] at hfa
      split at hfa
      · simp only [Option.some.injEq] at hfa
        rw [← hfa]; simp only; omega
      · simp at hfa
    · rintro ⟨a, ha, hj'⟩
      refine ⟨((a.1 - c0).toNat, if wv then a.2 else 1), ?_, by simp only; omega⟩
      rw [List.mem_filterMap]
      refine ⟨a, ha, ?_⟩
      simp only [subEnt]
      rw [if_pos (by omega)]
  · intro q hv hV
    have hAx : 0 < B.p.g B.n → 0 < A.p.g A.n := by
      intro hpos
      obtain ⟨i, e1, e2, e3⟩ := h1.row_of_pos hpos
      have hmem : B.ent 0 ∈ B.row i := Csr.mem_seg.mpr ⟨0, e2, e3, rfl⟩
      rw [h4 i e1, List.mem_filterMap] at hmem
      obtain ⟨a, ha, -⟩ := hmem
      obtain ⟨k, f1, f2, -⟩ := Csr.mem_seg.mp ha
      have := hA.row_lt (i := r0.toNat + i) (by omega) f2
      omega
    apply h1.toWFV (h8 q hV.good) (fun hpos => by rw [h5 hpos, hv, hV.has_x (hAx hpos)]; rfl)
    intro i hi e he
    rw [h4 i hi, List.mem_filterMap] at he
    obtain ⟨a, ha, hfa⟩ := he
    simp only [subEnt, hv, if_true] at hfa
    split at hfa
    · simp only [Option.some.injEq] at hfa
      rw [← hfa]
      show Small q a.2
      exact hV.mem_row_small (i := r0.toNat + i) (by omega) ha
    · simp at hfa

/-- C08 fails for reversed row ranges: `Bp[r1 - r0]` is an access at a negative index. -/
theorem C08_reversed_range_ub (jk : Junk) : submatrix jk exA 1 0 0 3 true = .error .ub := by
  have h : ∀ A : Csr, A.F.p = 7 → A.p.size = 3 → submatrix jk A 1 0 0 3 true = .error .ub := by
    intro A hF hp
    unfold submatrix
    have hi : csr_alloc jk (max 0 ((0 : Int) - 1)).toNat (max 0 ((3 : Int) - 0)).toNat
        (A.p.g 0 - A.p.g 1) A.F.p (A.x.isSome && true) = csr_alloc jk 0 3
        (A.p.g 0 - A.p.g 1) A.F.p (A.x.isSome && true) := rfl
    have r0 : rdI A.p 0 = .ok (A.p.g 0) := by
      unfold rdI rd idx; simp [hp, bind, Except.bind, Array.g]
    have r1 : rdI A.p 1 = .ok (A.p.g 1) := by
      unfold rdI rd idx; simp [hp, bind, Except.bind, Array.g]
    simp only [r0, r1, bind, Except.bind, hi]
    have := csr_alloc_spec jk (F := A.F) 0 3 (A.p.g 0 - A.p.g 1) (A.x.isSome && true)
      (Or.inr (by rw [hF]; norm_num))
    rw [Ok_iff] at this
    obtain ⟨B, hB, -⟩ := this
    rw [hB]
    simp [forRange, forN, idx]
  exact h exA rfl rfl

example : exA.WF ∧ (0 : Int) ≤ 1 ∧ (1 : Int) ≤ 2 ∧ (2 : Int) ≤ exA.n := ⟨exA_wfv.toWF, by decide, by decide, by decide⟩

/-! ### C11 -/

/-- C11 (realloc). -/
theorem C11_realloc (jk : Junk) (A : Csr) (hA : A.WF) (nzmax : Int)
    (h : nzmax < 0 ∨ (A.p.g A.n : Int) ≤ nzmax) :
    Ok (csr_realloc jk A nzmax) (fun B => B.WF ∧ B.n = A.n ∧ B.m = A.m ∧
      (∀ i, i < A.n → B.row i = A.row i) ∧
      (∀ q i j, i < A.n → B.entry q i j = A.entry q i j) ∧
      B.nzmax = (if nzmax < 0 then A.p.g A.n else nzmax.toNat) ∧
      (∀ q, A.WFV q → B.WFV q)) := by
  refine (csr_realloc_spec jk hA h).mono ?_
  rintro B ⟨h1, h2, h3, h4, h5, h6, h7, h8, h9, -, -⟩
  refine ⟨h1, h2, h3, h6, ?_, h9, ?_⟩
  · intro q i j hi
    rw [Csr.entry_eq_lsum, Csr.entry_eq_lsum, h6 i hi]
  · intro q hV
    apply h1.toWFV (by rw [h5]; exact hV.good) (fun hpos => by
      rw [h4, h2] at hpos
      rw [h7 (Or.inl hpos)]; exact hV.has_x hpos)
    intro i hi e he
    rw [h2] at hi
    rw [h6 i hi] at he
    exact hV.mem_row_small hi he

/-- C11 (resize). -/
theorem C11_resize (jk : Junk) (A : Csr) (hA : A.WF) (n m : Nat) (hn : A.n ≤ n) (hm : A.m ≤ m) :
    Ok (csr_resize jk A n m) (fun B => B.WF ∧ B.n = n ∧ B.m = m ∧
      (∀ i, i < A.n → B.row i = A.row i) ∧ (∀ i, A.n ≤ i → i < n → B.row i = []) ∧
      (∀ q i j, i < n → B.entry q i j = if i < A.n then A.entry q i j else 0) ∧
      (∀ q, A.WFV q → B.WFV q)) := by
  refine (csr_resize_spec jk hA hn hm).mono ?_
  rintro B ⟨h1, h2, h3, h4, h5, h6, h7, h8, h9, h10, h11⟩
  refine ⟨h1, h2, h3, h7, h8, ?_, ?_⟩
  · intro q i j hi
    by_cases hc : i < A.n
    · rw [if_pos hc, Csr.entry_eq_lsum, Csr.entry_eq_lsum, h7 i hc]
    · rw [if_neg hc, Csr.entry_eq_lsum, h8 i (by omega) hi, lsum_nil]
  · intro q hV
    apply h1.toWFV (by rw [h6]; exact hV.good) (fun hpos => by
      rw [h2, h11 n hn (le_refl _)] at hpos
      rw [h5]; exact hV.has_x hpos)
    intro i hi e he
    rw [h2] at hi
    by_cases hc : i < A.n
    · rw [h7 i hc] at he
      exact hV.mem_row_small hc he
    · rw [h8 i (by omega) hi] at he; simp at he

example : exA.WF ∧ exA.p.g exA.n = 5 ∧ ((exA.p.g exA.n : Int) ≤ 17) ∧ exA.n ≤ 4 ∧ exA.m ≤ 3 :=
  ⟨exA_wfv.toWF, by decide, by decide, by decide, by decide⟩

end Spasm
