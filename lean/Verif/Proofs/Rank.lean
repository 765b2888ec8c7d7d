import Verif.Proofs.Steps
import Verif.Proofs.Kernel
import Mathlib.LinearAlgebra.FiniteDimensional.Lemmas
import Mathlib.LinearAlgebra.Dimension.Constructions
import Mathlib.LinearAlgebra.Matrix.Rank

/-
Dimensions of row spaces.
-/

namespace Spasm

open Finset

section
variable {q : ℕ}

theorem spanOf_eq_range (f : Nat → Nat → ZMod q) (n : Nat) :
    spanOf f n = Submodule.span (ZMod q) (Set.range fun i : Fin n => f i) := by
  unfold spanOf
  congr 1
  ext v
  constructor
  · rintro ⟨i, hi, rfl⟩; exact ⟨⟨i, hi⟩, rfl⟩
  · rintro ⟨i, rfl⟩; exact ⟨i, i.isLt, rfl⟩

instance spanOf_finite (f : Nat → Nat → ZMod q) (n : Nat) : Module.Finite (ZMod q) (spanOf f n) :=
  Module.Finite.span_of_finite _ ((Set.finite_Iio n).image f)

instance rowSpace_finite (A : Csr) : Module.Finite (ZMod q) (A.rowSpace q) := spanOf_finite _ _

variable [Fact q.Prime]

theorem finrank_spanOf_le (f : Nat → Nat → ZMod q) (n : Nat) :
    Module.finrank (ZMod q) (spanOf f n) ≤ n := by
  rw [spanOf_eq_range]
  have := finrank_range_le_card (R := ZMod q) fun i : Fin n => f i
  rwa [Fintype.card_fin] at this

theorem finrank_sup_le (V W : Submodule (ZMod q) (Nat → ZMod q)) [Module.Finite (ZMod q) V]
    [Module.Finite (ZMod q) W] : Module.finrank (ZMod q) (V ⊔ W : Submodule (ZMod q) (Nat → ZMod q)) ≤
      Module.finrank (ZMod q) V + Module.finrank (ZMod q) W := by
  rw [← Submodule.finrank_sup_add_finrank_inf_eq]
  exact Nat.le_add_right _ _

theorem Echelon.linInd {U : Csr} {qinv : Array Int} (h : Echelon q U qinv) :
    LinearIndependent (ZMod q) fun i : Fin U.n => U.entry q i := by
  rw [Fintype.linearIndependent_iff]
  intro g hg i
  have := h.coeff_zero_of_lt (fun k => if hk : k < U.n then g ⟨k, hk⟩ else 0) (le_refl _) ?_ i i.isLt
  · rw [dif_pos i.isLt] at this; exact this
  · intro i _
    have := congrFun hg (U.pivot i)
    rw [Finset.sum_apply] at this
    rw [Finset.sum_range]
    simpa using this

/-- The rank of an echelonized matrix is its number of rows. -/
theorem Echelon.rank {U : Csr} {qinv : Array Int} (h : Echelon q U qinv) :
    Module.finrank (ZMod q) (U.rowSpace q) = U.n := by
  unfold Csr.rowSpace
  rw [spanOf_eq_range, finrank_span_eq_card h.linInd, Fintype.card_fin]

/-- The rank of a matrix is the dimension of its row space. -/
theorem finrank_rowSpace {A : Csr} (hA : A.WF) :
    Module.finrank (ZMod q) (A.rowSpace q) = (A.toMat q).rank := by
  let E : (Fin A.m → ZMod q) →ₗ[ZMod q] (Nat → ZMod q) :=
    { toFun := fun v c => if h : c < A.m then v ⟨c, h⟩ else 0
      map_add' := fun v w => by ext c; by_cases h : c < A.m <;> simp [h]
      map_smul' := fun a v => by ext c; by_cases h : c < A.m <;> simp [h] }
  have hE : Function.Injective E := by
    intro v w hvw
    ext c
    have := congrFun hvw c
    simpa [E] using this
  have hrow : A.rowSpace q = (Submodule.span (ZMod q) (Set.range (A.toMat q).row)).map E := by
    rw [Submodule.map_span, ← Set.range_comp]
    unfold Csr.rowSpace
    rw [spanOf_eq_range]
    congr 2
    ext i c
    simp only [Function.comp, E, LinearMap.coe_mk, AddHom.coe_mk]
    split
    · rfl
    · exact hA.entry_ge i.isLt (by omega)
  rw [Matrix.rank_eq_finrank_span_row, hrow]
  exact (LinearEquiv.finrank_eq (Submodule.equivMapOfInjective E hE _)).symm

/-- `U` spans everything if it has enough rows. -/
theorem Echelon.span_of_count {U : Csr} {qinv : Array Int} (h : Echelon q U qinv)
    {V : Submodule (ZMod q) (Nat → ZMod q)} [Module.Finite (ZMod q) V] (hle : U.rowSpace q ≤ V)
    (hn : Module.finrank (ZMod q) V ≤ U.n) : U.rowSpace q = V :=
  Submodule.eq_of_le_of_finrank_le hle (by rw [h.rank]; exact hn)

end

end Spasm
