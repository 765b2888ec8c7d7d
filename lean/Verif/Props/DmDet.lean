import Verif.Props.DmWritten
import Verif.Props.Compose
import Mathlib.LinearAlgebra.Matrix.Block
import Mathlib.LinearAlgebra.Matrix.Determinant.Basic
import Mathlib.LinearAlgebra.Matrix.NonsingularInverse
import Mathlib.LinearAlgebra.Matrix.Rank
import Mathlib.Tactic.LinearCombination

/-!
C86: the determinant of a matrix is, up to its sign, the product of those of the blocks found by `dm`.  `diagBlock` is specified in Spec/DmForm.lean.
-/

namespace Spasm

open Sha Finset

/-- The determinant of a block triangular matrix. -/
theorem det_blocks {F : Type} [CommRing F] {n : Nat} (M : Nat → Nat → F) {r : Nat → Nat} {K : Nat} (h0 : r 0 = 0)
    (hK : r K = n) (hlt : ∀ b, b < K → r b < r (b + 1))
    (htri : ∀ i j, i < n → j < n → M i j ≠ 0 → ∀ b, b < K → r b ≤ i → r b ≤ j) :
    (Matrix.of fun i j : Fin n => M i j).det = ∏ b ∈ range K, (diagBlock M r b).det := by
  have mono : ∀ a b, a ≤ b → b ≤ K → r a ≤ r b := by
    intro a b hab
    induction b with
    | zero => intro _; rw [show a = 0 by omega]
    | succ b ih =>
      intro hb
      rcases Nat.lt_or_ge a (b + 1) with h1 | h1
      · have := hlt b (by omega)
        have := ih (by omega) (by omega)
        omega
      · rw [show a = b + 1 by omega]
  have ex : ∀ i, i < n → ∃ b, b < K ∧ r b ≤ i ∧ i < r (b + 1) := by
    intro i hi
    by_contra hn
    push Not at hn
    have : ∀ b, b ≤ K → r b ≤ i := by
      intro b
      induction b with
      | zero => intro _; omega
      | succ b ih => intro hb; exact hn b (by omega) (ih (by omega))
    have := this K le_rfl
    omega
  have uq : ∀ a b i, a < K → b < K → r a ≤ i → i < r (a + 1) → r b ≤ i → i < r (b + 1) → a = b := by
    intro a b i ha hb h1 h2 h3 h4
    rcases Nat.lt_trichotomy a b with hab | hab | hab
    · have := mono (a + 1) b (by omega) (by omega); omega
    · exact hab
    · have := mono (b + 1) a (by omega) (by omega); omega
  choose! β hβ1 hβ2 hβ3 using ex
  let bl : Fin n → Fin K := fun i => ⟨β i, hβ1 i i.isLt⟩
  have hM : Matrix.BlockTriangular (Matrix.of fun i j : Fin n => M i j) bl := by
    intro i j hij
    by_contra hne
    have h1 := htri i j i.isLt j.isLt hne (β i) (hβ1 i i.isLt) (hβ2 i i.isLt)
    have h2 := hβ3 j j.isLt
    have h3 : β j < β i := hij
    have := mono (β j + 1) (β i) (by omega) (le_of_lt (hβ1 i i.isLt))
    omega
  rw [hM.det_fintype, ← Fin.prod_univ_eq_prod_range (fun b => (diagBlock M r b).det) K]
  refine Finset.prod_congr rfl fun b _ => ?_
  have hb := b.isLt
  have hn : r (b + 1) ≤ n := by rw [← hK]; exact mono _ _ (by omega) le_rfl
  let e : Fin (r (b + 1) - r b) ≃ {i : Fin n // bl i = b} :=
    { toFun := fun x => ⟨⟨r b + x, by omega⟩, Fin.ext (uq _ _ (r b + x) (hβ1 _ (by omega)) hb (hβ2 _ (by omega))
        (hβ3 _ (by omega)) (by omega) (by omega))⟩
      invFun := fun y => ⟨y.1 - r b, by
        have h1 : β y.1 = b := congrArg Fin.val y.2
        have h2 := hβ2 y.1 y.1.isLt
        have h3 := hβ3 y.1 y.1.isLt
        rw [h1] at h2 h3
        omega⟩
      left_inv := fun x => Fin.ext (by simp)
      right_inv := fun y => by
        have h1 : β y.1 = b := congrArg Fin.val y.2
        have h2 := hβ2 y.1 y.1.isLt
        rw [h1] at h2
        refine Subtype.ext (Fin.ext ?_)
        show r b + (y.1 - r b) = y.1
        omega }
  rw [← Matrix.det_submatrix_equiv_self e]
  rfl

/-- The permutation of `Fin n`. -/
noncomputable def IsPerm.toPerm {p : Nat → Nat} {n : Nat} (h : IsPerm p n) : Equiv.Perm (Fin n) :=
  Equiv.ofBijective (fun i => ⟨p i, h.1 i i.isLt⟩) (Finite.injective_iff_bijective.mp fun i j e =>
    Fin.ext (h.2 i j i.isLt j.isLt (Fin.ext_iff.mp e)))

theorem IsPerm.toPerm_val {p : Nat → Nat} {n : Nat} (h : IsPerm p n) (i : Fin n) : (h.toPerm i : Nat) = p i := rfl

/-- C86. If all rows of a square matrix can be matched, `dm` writes the matrix with permuted rows and columns in block upper
triangular form, with square blocks on the diagonal that fill the whole matrix, and the determinant of the matrix is the
product of those of the blocks, up to its sign. -/
theorem C86_det (jk : Junk) (jw : Nat → W) {f : List Char} {n : Nat} {l : List (Int × Int × Int)}
    (hf : IsFile f n n l) (hc : NoCancel 42013 l) {S : Finset (Nat × Nat)} (hS : FileMatching 42013 n n l S)
    (hn : S.card = n) :
    Ok (tool_dm jk jw f) (fun g => ∃ (l' : List (Int × Int × Int)) (p q : Nat → Nat) (r : Nat → Nat) (K : Nat),
      IsFile g n n l' ∧ IsPerm p n ∧ IsPerm q n ∧
      (∀ i j, i < n → j < n → fileEntry 42013 l' i j = fileEntry 42013 l (p i) (q j)) ∧
      r 0 = 0 ∧ r K = n ∧ (∀ b, b < K → r b < r (b + 1)) ∧
      (∀ i j, i < n → j < n → ∀ b, b < K → r b ≤ i → j < r b → fileEntry 42013 l' i j = 0) ∧
      ∃ ε : ℤˣ, (fileMat 42013 n n l).det = ((ε : ℤ) : ZMod 42013) * ∏ b ∈ range K, (diagBlock (fileEntry 42013 l') r b).det) := by
  refine (C85_written jk jk jw jw hf hc).mono ?_
  rintro g ⟨l', p, q, h, k, s, c, r, K, g1, hp, hq, he, hB, -⟩
  refine ⟨l', p, q, r, K, g1, hp, hq, he, ?_⟩
  obtain ⟨b1, b2, b3, b4⟩ := hB.le
  -- a matching of the permuted matrix with `n` entries
  obtain ⟨T, hT, hTc⟩ : ∃ T, MatchingE (fun i j => fileEntry 42013 l' i j ≠ 0) n n T ∧ T.card = n := by
    have ip : ∀ y, y < n → ∃ x, x < n ∧ p x = y := fun y hy => by
      obtain ⟨x, hx⟩ := hp.toPerm.surjective ⟨y, hy⟩
      exact ⟨x, x.isLt, Fin.ext_iff.mp hx⟩
    have iq : ∀ y, y < n → ∃ x, x < n ∧ q x = y := fun y hy => by
      obtain ⟨x, hx⟩ := hq.toPerm.surjective ⟨y, hy⟩
      exact ⟨x, x.isLt, Fin.ext_iff.mp hx⟩
    choose! u hu1 hu2 using ip
    choose! v hv1 hv2 using iq
    have h1 : ∀ e ∈ S, ∀ e' ∈ S, u e.1 = u e'.1 → e = e' := fun e he e' he' h =>
      hS.row e he e' he' (by rw [← hu2 _ (hS.entry e he).1, ← hu2 _ (hS.entry e' he').1, h])
    have h2 : ∀ e ∈ S, ∀ e' ∈ S, v e.2 = v e'.2 → e = e' := fun e he e' he' h =>
      hS.col e he e' he' (by rw [← hv2 _ (hS.entry e he).2.1, ← hv2 _ (hS.entry e' he').2.1, h])
    refine ⟨S.image fun e => (u e.1, v e.2), ⟨?_, ?_, ?_⟩, ?_⟩
    · intro e h
      obtain ⟨e, hm, rfl⟩ := mem_image.mp h
      obtain ⟨e1, e2, e3⟩ := hS.entry e hm
      refine ⟨hu1 _ e1, hv1 _ e2, ?_⟩
      rw [he _ _ (hu1 _ e1) (hv1 _ e2), hu2 _ e1, hv2 _ e2]
      exact e3
    · intro e h e' h' hee
      obtain ⟨e, hm, rfl⟩ := mem_image.mp h
      obtain ⟨e', hm', rfl⟩ := mem_image.mp h'
      rw [h1 e hm e' hm' hee]
    · intro e h e' h' hee
      obtain ⟨e, hm, rfl⟩ := mem_image.mp h
      obtain ⟨e', hm', rfl⟩ := mem_image.mp h'
      rw [h2 e hm e' hm' hee]
    · rw [card_image_of_injOn fun e hm e' hm' hee => h1 e hm e' hm' (Prod.ext_iff.mp hee).1, hn]
  have hk : k = n := by
    by_contra hne
    obtain ⟨U, hU, hmiss⟩ := (hB.vmiss k (by omega)).mp le_rfl
    have h1 := hU.2 T hT
    have h2 : U.card ≤ ((range n).erase k).card :=
      card_le_card_of_injOn Prod.fst (fun e hm => mem_erase.mpr ⟨hmiss e hm, mem_range.mpr (hU.1.entry e hm).1⟩)
        fun e hm e' hm' hee => hU.1.row e hm e' hm' hee
    rw [card_erase_of_mem (mem_range.mpr (by omega)), card_range] at h2
    omega
  have hh : h = 0 := by
    by_contra hne
    obtain ⟨U, hU, hmiss⟩ := (hB.hmiss 0 (by omega)).mp (by omega)
    have h1 := hU.2 T hT
    have h2 : U.card ≤ ((range n).erase 0).card :=
      card_le_card_of_injOn Prod.snd (fun e hm => mem_erase.mpr ⟨hmiss e hm, mem_range.mpr (hU.1.entry e hm).2.1⟩)
        fun e hm e' hm' hee => hU.1.col e hm e' hm' hee
    rw [card_erase_of_mem (mem_range.mpr (by omega)), card_range] at h2
    omega
  have hc0 : c = 0 := by omega
  subst hh hk hc0
  have htri : ∀ i j, i < k → j < k → fileEntry 42013 l' i j ≠ 0 → ∀ b, b < K → r b ≤ i → r b ≤ j := by
    intro i j hi hj e b hb hr
    have := hB.tri i j hi hj e b hb hr
    omega
  refine ⟨hB.first, hB.last, hB.lt, ?_, Equiv.Perm.sign hp.toPerm * Equiv.Perm.sign hq.toPerm, ?_⟩
  · intro i j hi hj b hb hr hjr
    by_contra hne
    have := htri i j hi hj hne b hb hr
    omega
  · rw [← det_blocks (fileEntry 42013 l') hB.first hB.last hB.lt htri]
    have hm : (Matrix.of fun i j : Fin k => fileEntry 42013 l' i j)
        = ((fileMat 42013 k k l).submatrix hp.toPerm id).submatrix id hq.toPerm := by
      ext i j
      exact he i j i.isLt j.isLt
    rw [hm, Matrix.det_permute', Matrix.det_permute, Units.val_mul, Int.cast_mul]
    have s1 : (((Equiv.Perm.sign hp.toPerm : ℤˣ) : ℤ) : ZMod 42013) * ((Equiv.Perm.sign hp.toPerm : ℤˣ) : ℤ) = 1 := by
      rw [← Int.cast_mul, ← Units.val_mul, Int.units_mul_self]; simp
    have s2 : (((Equiv.Perm.sign hq.toPerm : ℤˣ) : ℤ) : ZMod 42013) * ((Equiv.Perm.sign hq.toPerm : ℤˣ) : ℤ) = 1 := by
      rw [← Int.cast_mul, ← Units.val_mul, Int.units_mul_self]; simp
    linear_combination (-(fileMat 42013 k k l).det * (((Equiv.Perm.sign hq.toPerm : ℤˣ) : ℤ) : ZMod 42013) ^ 2) * s1
      - (fileMat 42013 k k l).det * s2

/-- C86 (the matching). If the determinant is not zero, all rows can be matched. -/
theorem C86_matched {n : Nat} {l : List (Int × Int × Int)} (h : (fileMat 42013 n n l).det ≠ 0) :
    ∃ S, FileMatching 42013 n n l S ∧ S.card = n := by
  rw [Matrix.det_apply] at h
  obtain ⟨σ, -, hσ⟩ := Finset.exists_ne_zero_of_sum_ne_zero h
  have hne : ∀ i : Fin n, fileEntry 42013 l (σ i) i ≠ 0 := by
    intro i h0
    refine hσ ?_
    rw [Finset.prod_eq_zero (f := fun i => fileMat 42013 n n l (σ i) i) (mem_univ i) (show fileMat 42013 n n l (σ i) i = 0 from h0), smul_zero]
  refine ⟨univ.image fun i : Fin n => ((σ i : Nat), (i : Nat)), ⟨?_, ?_, ?_⟩, ?_⟩
  · intro e he
    obtain ⟨i, -, rfl⟩ := mem_image.mp he
    exact ⟨(σ i).isLt, i.isLt, hne i⟩
  · intro e he e' he' hee
    obtain ⟨i, -, rfl⟩ := mem_image.mp he
    obtain ⟨i', -, rfl⟩ := mem_image.mp he'
    rw [σ.injective (Fin.ext hee)]
  · intro e he e' he' hee
    obtain ⟨i, -, rfl⟩ := mem_image.mp he
    obtain ⟨i', -, rfl⟩ := mem_image.mp he'
    rw [Fin.ext hee]
  · rw [card_image_of_injective _ fun i i' e => Fin.ext (Prod.ext_iff.mp e).2, card_univ, Fintype.card_fin]

/-- C86 (singular matrices). If all rows of a square matrix can be matched, the matrix is singular modulo 42013 if and only
if one of the blocks of the file written by `dm` is. -/
theorem C86_singular (jk : Junk) (jw : Nat → W) {f : List Char} {n : Nat} {l : List (Int × Int × Int)}
    (hf : IsFile f n n l) (hc : NoCancel 42013 l) {S : Finset (Nat × Nat)} (hS : FileMatching 42013 n n l S)
    (hn : S.card = n) :
    Ok (tool_dm jk jw f) (fun g => ∃ (l' : List (Int × Int × Int)) (r : Nat → Nat) (K : Nat),
      IsFile g n n l' ∧ r 0 = 0 ∧ r K = n ∧ (∀ b, b < K → r b < r (b + 1)) ∧
      (∀ i j, i < n → j < n → ∀ b, b < K → r b ≤ i → j < r b → fileEntry 42013 l' i j = 0) ∧
      ((fileMat 42013 n n l).det = 0 ↔ ∃ b, b < K ∧ (diagBlock (fileEntry 42013 l') r b).det = 0)) := by
  have : Fact (Nat.Prime 42013) := ⟨by norm_num⟩
  refine (C86_det jk jw hf hc hS hn).mono ?_
  rintro g ⟨l', p, q, r, K, g1, -, -, -, h1, h2, h3, h4, ε, h5⟩
  refine ⟨l', r, K, g1, h1, h2, h3, h4, ?_⟩
  have hε : ((ε : ℤ) : ZMod 42013) ≠ 0 := by
    rcases Int.units_eq_one_or ε with h | h <;> subst h <;> simp
  rw [h5, mul_eq_zero, Finset.prod_eq_zero_iff]
  simp [hε]

/-- Full rank. -/
theorem rank_full_iff {F : Type} [_root_.Field F] {n : Nat} (M : Matrix (Fin n) (Fin n) F) : M.rank = n ↔ M.det ≠ 0 := by
  constructor
  · intro h
    have h1 : LinearMap.range M.mulVecLin = ⊤ := by
      apply Submodule.eq_top_of_finrank_eq
      rw [Module.finrank_fin_fun]
      exact h
    have h2 : Function.Surjective M.mulVec := LinearMap.range_eq_top.mp h1
    have h3 := Matrix.mulVec_surjective_iff_isUnit.mp h2
    exact ((Matrix.isUnit_iff_isUnit_det M).mp h3).ne_zero
  · intro h
    rw [Matrix.rank_of_isUnit M ((Matrix.isUnit_iff_isUnit_det M).mpr (isUnit_iff_ne_zero.mpr h)), Fintype.card_fin]

/-- C86 (with `rank`). For a square matrix, with an exact method, `rank` for the modulus 42013 prints the number of rows if
and only if all rows can be matched and no block of the file written by `dm` is singular.  The first part is necessary; when
it holds, the second one decides. -/
theorem C86_rank (jk jk' : Junk) (jw jw' : Nat → W) (h0 : Nat → B) {env : Env} {opts : Opts} (hx : Exact jk 42013 env opts)
    {f : List Char} {n : Nat} {l : List (Int × Int × Int)} (hf : IsFile f n n l) (hc : NoCancel 42013 l) (allow : Bool) :
    ∃ x g, tool_rank jk jw h0 env opts f (42013 : ℕ) allow = .ok x ∧ tool_dm jk' jw' f = .ok g ∧
      (x = n → ∃ S, FileMatching 42013 n n l S ∧ S.card = n) ∧
      ((∃ S, FileMatching 42013 n n l S ∧ S.card = n) → ∃ (l' : List (Int × Int × Int)) (r : Nat → Nat) (K : Nat),
        IsFile g n n l' ∧ r 0 = 0 ∧ r K = n ∧ (∀ b, b < K → r b < r (b + 1)) ∧
        (∀ i j, i < n → j < n → ∀ b, b < K → r b ≤ i → j < r b → fileEntry 42013 l' i j = 0) ∧
        (x = n ↔ ∀ b, b < K → (diagBlock (fileEntry 42013 l') r b).det ≠ 0)) := by
  have : Fact (Nat.Prime 42013) := ⟨by norm_num⟩
  obtain ⟨x, e, e2⟩ := Ok_iff.mp (rank_exact jk jw env opts (by norm_num) hf hc hx h0 allow)
  obtain ⟨g, e3, -⟩ := Ok_iff.mp (C85_written jk' jk' jw' jw' hf hc)
  refine ⟨x, g, e, e3, ?_, ?_⟩
  · intro h
    exact C86_matched ((rank_full_iff _).mp (e2.symm.trans h))
  · rintro ⟨S, hS, hn⟩
    obtain ⟨g', e4, l', r, K, a1, a2, a3, a4, a5, a6⟩ := Ok_iff.mp (C86_singular jk' jw' hf hc hS hn)
    obtain rfl : g = g' := by rw [e3] at e4; exact Except.ok.inj e4
    refine ⟨l', r, K, a1, a2, a3, a4, a5, ?_⟩
    rw [e2, rank_full_iff, ne_eq, a6]
    push Not
    rfl

/-- A square matrix with two blocks. -/
def exSquareFile : List Char := "3 3 M\n1 1 5\n2 2 -2\n3 3 7\n3 1 4\n2 1 6\n1 2 3\n0 0 0\n".toList

theorem exSquareFile_file : IsFile exSquareFile 3 3 [(1, 1, 5), (2, 2, -2), (3, 3, 7), (3, 1, 4), (2, 1, 6), (1, 2, 3)] := by
  refine ⟨.inl ?_, by decide, by decide, by decide, by decide, by decide⟩
  refine ⟨"3 3 M".toList, ["1 1 5".toList, "2 2 -2".toList, "3 3 7".toList, "3 1 4".toList, "2 1 6".toList,
    "1 2 3".toList], "0 0 0".toList, [],
    ⟨⟨by decide, by decide, by decide⟩, [], [' '], [' '], [], by simp [Blank], by simp [Blank],
      by simp [Blank], by simp, by decide +kernel⟩,
      .cons ?_ (.cons ?_ (.cons ?_ (.cons ?_ (.cons ?_ (.cons ?_ .nil))))), ?_, by simp, by decide +kernel⟩ <;>
  exact ⟨⟨by decide, by decide, by decide⟩, [], [' '], [' '], [], by simp [Blank], by simp [Blank],
      by simp [Blank], by simp, by simp, by simp, by decide +kernel⟩

/-- The hypotheses are met: the rows of this matrix can be matched; the file written has a block with one row, then one with
two rows. -/
example : ∃ S, FileMatching 42013 3 3 [(1, 1, 5), (2, 2, -2), (3, 3, 7), (3, 1, 4), (2, 1, 6), (1, 2, 3)] S ∧ S.card = 3 :=
  ⟨{(0, 0), (1, 1), (2, 2)}, ⟨by decide, by decide, by decide⟩, by decide⟩

example : NoCancel 42013 [(1, 1, 5), (2, 2, -2), (3, 3, 7), (3, 1, 4), (2, 1, 6), (1, 2, 3)] :=
  Distinct.noCancel (by unfold Distinct; decide)

example := C86_rank default default exJw exJw default exExactP exSquareFile_file
  (Distinct.noCancel (by unfold Distinct; decide)) true

example : tool_dm default exJw exSquareFile =
      .ok "3 3 M\n1 1 7\n1 2 4\n2 2 5\n2 3 3\n3 3 -2\n3 2 6\n0 0 0\n".toList := by
  decide +kernel

end Spasm
