import Verif.Spec.Ffpack
import Verif.Proofs.Rank
import Verif.Proofs.TransferBlock
import Mathlib.LinearAlgebra.Matrix.Block
import Mathlib.Data.Fintype.EquivFin

/-
The number returned by the dense linear algebra library is the rank.
-/

namespace Spasm

open Finset

section
variable {q : ℕ} [Fact q.Prime]

/-- The matrix whose coefficients are given. -/
def denseMat (q n m : Nat) (w : Nat → Nat → Int) : Matrix (Fin n) (Fin m) (ZMod q) := fun i j => (w i j : ZMod q)

theorem finrank_denseRow (n m : Nat) (w : Nat → Nat → Int) :
    Module.finrank (ZMod q) (spanOf (denseRow q m w) n) = (denseMat q n m w).rank := by
  let E : (Fin m → ZMod q) →ₗ[ZMod q] (Nat → ZMod q) :=
    { toFun := fun v c => if h : c < m then v ⟨c, h⟩ else 0
      map_add' := fun v w => by ext c; by_cases h : c < m <;> simp [h]
      map_smul' := fun a v => by ext c; by_cases h : c < m <;> simp [h] }
  have hE : Function.Injective E := by
    intro v w hvw
    ext c
    have := congrFun hvw c
    simpa [E] using this
  have hrow : spanOf (denseRow q m w) n = (Submodule.span (ZMod q) (Set.range (denseMat q n m w).row)).map E := by
    rw [Submodule.map_span, ← Set.range_comp, spanOf_eq_range]
    congr 2
  rw [Matrix.rank_eq_finrank_span_row, hrow]
  exact (LinearEquiv.finrank_eq (Submodule.equivMapOfInjective E hE _)).symm

theorem DenseRref.rank {n m r : Nat} {w w' : Nat → Nat → Int} {Q : Array Nat} (h : DenseRref q n m w r w' Q) :
    (denseMat q n m w).rank = r := by
  rw [← finrank_denseRow, ← h.span, spanOf_eq_range, finrank_span_eq_card, Fintype.card_fin]
  rw [Fintype.linearIndependent_iff]
  intro g hg i
  have hi := i.isLt
  have hrm := h.r_m
  have hval : ∀ k : Fin r, denseRrefRow q m r Q w' k (Q.g i) = if k = i then 1 else 0 := by
    intro k
    unfold denseRrefRow onCols
    rw [Finset.sum_eq_single i.val]
    · rw [if_pos rfl]
      beta_reduce
      rw [if_pos hi]
      simp only [Fin.ext_iff, eq_comm]
    · intro t ht hne
      exact if_neg fun he => hne (h.perm.2 t i (mem_range.mp ht) (by omega) he)
    · intro hn
      exact absurd (mem_range.mpr (by omega)) hn
  have := congrFun hg (Q.g i)
  rw [Finset.sum_apply] at this
  simpa [hval] using this

theorem IsPluq.rank {n m r : Nat} {w w' : Nat → Nat → Int} {P Q : Array Nat} (hs : ∀ i, i < r → (w' i i : ZMod q) ≠ 0)
    (h : IsPluq q n m w r w' P Q) : (denseMat q n m w).rank = r := by
  have hrn := h.r_n
  have hrm := h.r_m
  let L : Matrix (Fin n) (Fin r) (ZMod q) := fun i k => luL q w' i k
  let U : Matrix (Fin r) (Fin m) (ZMod q) := fun k j => luU q w' k j
  let f : Fin n → Fin n := fun i => ⟨P.g i, h.p_perm.1 i i.isLt⟩
  let g : Fin m → Fin m := fun j => ⟨Q.g j, h.q_perm.1 j j.isLt⟩
  have hf : Function.Bijective f := Finite.injective_iff_bijective.mp fun i k he =>
    Fin.ext (h.p_perm.2 i k i.isLt k.isLt (congrArg Fin.val he))
  have hg : Function.Bijective g := Finite.injective_iff_bijective.mp fun i k he =>
    Fin.ext (h.q_perm.2 i k i.isLt k.isLt (congrArg Fin.val he))
  have hLU : (denseMat q n m w).submatrix f g = L * U := by
    ext i j
    rw [Matrix.mul_apply, ← Finset.sum_range fun k => luL q w' i k * luU q w' k j]
    exact h.prod i j i.isLt j.isLt
  have hr : ((denseMat q n m w).submatrix f g).rank = (denseMat q n m w).rank :=
    Matrix.rank_submatrix _ (Equiv.ofBijective f hf) (Equiv.ofBijective g hg)
  refine le_antisymm ?_ ?_
  · rw [← hr, hLU]
    exact le_trans (Matrix.rank_mul_le_left _ _) (Matrix.rank_le_width L)
  · let a : Fin r → Fin n := fun i => ⟨i, by omega⟩
    let b : Fin r → Fin m := fun i => ⟨i, by omega⟩
    have h1 : (L * U).submatrix a b = L.submatrix a id * U.submatrix id b := by
      ext i j
      rfl
    have hdL : (L.submatrix a id).det ≠ 0 := by
      rw [Matrix.det_of_isLowerTriangular]
      · refine Finset.prod_ne_zero_iff.mpr fun i _ => ?_
        show luL q w' i i ≠ 0
        unfold luL
        rw [if_pos (le_refl _)]
        exact hs i i.isLt
      · intro i j hij
        show luL q w' i j = 0
        unfold luL
        exact if_neg (by have : i < j := hij; simpa using this)
    have hdU : (U.submatrix id b).det ≠ 0 := by
      rw [Matrix.det_of_isUpperTriangular]
      · refine Finset.prod_ne_zero_iff.mpr fun i _ => ?_
        show luU q w' i i ≠ 0
        unfold luU
        rw [if_pos rfl]
        exact one_ne_zero
      · intro i j hij
        show luU q w' i j = 0
        have : j.val < i.val := hij
        unfold luU
        rw [if_neg (by omega), if_neg (by omega)]
    have h2 : ((L * U).submatrix a b).rank = r := by
      rw [h1, Matrix.rank_of_det_ne_zero, Fintype.card_fin]
      rw [Matrix.det_mul]
      exact mul_ne_zero hdL hdU
    rw [← h2, ← hLU, Matrix.submatrix_submatrix]
    exact Matrix.rank_submatrix_le _ _ _

end

end Spasm
