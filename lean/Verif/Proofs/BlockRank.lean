import Mathlib.LinearAlgebra.Matrix.Rank
import Mathlib.Data.Matrix.Block
import Mathlib.LinearAlgebra.FiniteDimensional.Lemmas
import Mathlib.Logic.Equiv.Fin.Basic
import Mathlib.Algebra.BigOperators.Intervals
import Verif.Spec.DmForm

/-!
The rank of a block triangular matrix is at least the sum of those of its blocks.
-/

namespace Spasm

open Finset

theorem rank_fromBlocks_ge {F : Type} [_root_.Field F] {m1 m2 n1 n2 : Type} [Fintype m1] [Fintype m2] [Fintype n1] [Fintype n2]
    (A : Matrix m1 n1 F) (B : Matrix m1 n2 F) (D : Matrix m2 n2 F) :
    A.rank + D.rank ≤ (Matrix.fromBlocks A B 0 D).rank := by
  classical
  set M := Matrix.fromBlocks A B 0 D with hM
  let W := LinearMap.range M.mulVecLin
  let p : (m1 ⊕ m2 → F) →ₗ[F] (m2 → F) := LinearMap.funLeft F F Sum.inr
  let ι : (m1 → F) →ₗ[F] (m1 ⊕ m2 → F) :=
    { toFun := fun v => Sum.elim v 0
      map_add' := fun u v => by ext i; cases i <;> simp
      map_smul' := fun a v => by ext i; cases i <;> simp }
  have hι : Function.Injective ι := fun u v h => by
    ext i
    exact congrFun h (Sum.inl i)
  have h1 : LinearMap.range D.mulVecLin ≤ LinearMap.range (p.domRestrict W) := by
    rintro _ ⟨y, rfl⟩
    refine ⟨⟨M.mulVecLin (Sum.elim 0 y), ⟨_, rfl⟩⟩, ?_⟩
    ext i
    simp [p, hM, LinearMap.funLeft, Matrix.fromBlocks_mulVec]
  have h2 : (LinearMap.range A.mulVecLin).map ι ≤ (LinearMap.ker (p.domRestrict W)).map W.subtype := by
    rintro _ ⟨_, ⟨x, rfl⟩, rfl⟩
    have e : M.mulVecLin (Sum.elim x 0) = ι (A.mulVecLin x) := by
      ext i
      cases i <;> simp [ι, hM, Matrix.fromBlocks_mulVec]
    refine ⟨⟨ι (A.mulVecLin x), ⟨_, e⟩⟩, ?_, rfl⟩
    rw [SetLike.mem_coe, LinearMap.mem_ker]
    ext i
    simp [p, ι, LinearMap.funLeft]
  have h3 := LinearMap.finrank_range_add_finrank_ker (p.domRestrict W)
  have h4 := Submodule.finrank_mono h1
  have h5 := Submodule.finrank_mono h2
  rw [← (Submodule.equivMapOfInjective ι hι _).finrank_eq, Submodule.finrank_map_subtype_eq] at h5
  unfold Matrix.rank
  show _ ≤ Module.finrank F W
  omega

theorem rank_split {F : Type} [_root_.Field F] (M : Nat → Nat → F) {r0 r1 r2 c0 c1 c2 : Nat} (hr : r0 ≤ r1) (hr' : r1 ≤ r2)
    (hc : c0 ≤ c1) (hc' : c1 ≤ c2) (hz : ∀ i j, r1 ≤ i → i < r2 → c0 ≤ j → j < c1 → M i j = 0) :
    (subBlock M r0 r1 c0 c1).rank + (subBlock M r1 r2 c1 c2).rank ≤ (subBlock M r0 r2 c0 c2).rank := by
  let em : Fin (r1 - r0) ⊕ Fin (r2 - r1) ≃ Fin (r2 - r0) := finSumFinEquiv.trans (finCongr (by omega))
  let en : Fin (c1 - c0) ⊕ Fin (c2 - c1) ≃ Fin (c2 - c0) := finSumFinEquiv.trans (finCongr (by omega))
  rw [← Matrix.rank_submatrix (subBlock M r0 r2 c0 c2) em en]
  have e : (subBlock M r0 r2 c0 c2).submatrix em en = Matrix.fromBlocks (subBlock M r0 r1 c0 c1) (subBlock M r0 r1 c1 c2) 0
      (subBlock M r1 r2 c1 c2) := by
    ext i j
    rcases i with i | i <;> rcases j with j | j
    · simp [em, en, subBlock]
    · simp only [em, en, subBlock, Matrix.submatrix_apply, Matrix.fromBlocks_apply₁₂, Matrix.of_apply, Equiv.trans_apply,
        finSumFinEquiv_apply_left, finSumFinEquiv_apply_right, finCongr_apply, Fin.val_cast, Fin.val_castAdd, Fin.val_natAdd]
      congr 1
      omega
    · simp only [em, en, subBlock, Matrix.submatrix_apply, Matrix.fromBlocks_apply₂₁, Matrix.of_apply, Equiv.trans_apply,
        finSumFinEquiv_apply_left, finSumFinEquiv_apply_right, finCongr_apply, Fin.val_cast, Fin.val_castAdd, Fin.val_natAdd,
        Matrix.zero_apply]
      exact hz _ _ (by omega) (by omega) (by omega) (by omega)
    · simp only [em, en, subBlock, Matrix.submatrix_apply, Matrix.fromBlocks_apply₂₂, Matrix.of_apply, Equiv.trans_apply,
        finSumFinEquiv_apply_right, finCongr_apply, Fin.val_cast, Fin.val_natAdd]
      congr 1 <;> omega
  rw [e]
  exact rank_fromBlocks_ge _ _ _

/-- Several blocks. -/
theorem rank_blocks {F : Type} [_root_.Field F] (M : Nat → Nat → F) {c : Nat} {r : Nat → Nat} (K : Nat)
    (hlt : ∀ b, b < K → r b < r (b + 1))
    (hz : ∀ b, b < K → ∀ i j, r b ≤ i → i < r K → c + r 0 ≤ j → j < c + r b → M i j = 0) :
    ∑ b ∈ range K, (subBlock M (r b) (r (b + 1)) (c + r b) (c + r (b + 1))).rank
      ≤ (subBlock M (r 0) (r K) (c + r 0) (c + r K)).rank := by
  have mono : ∀ b, b ≤ K → r 0 ≤ r b := by
    intro b
    induction b with
    | zero => intro _; exact le_rfl
    | succ b ih =>
      intro hb
      have := hlt b (by omega)
      have := ih (by omega)
      omega
  induction K with
  | zero => simp
  | succ K ih =>
    rw [sum_range_succ]
    have h1 := hlt K (by omega)
    have h2 := mono K (by omega)
    have h3 := ih (fun b hb => hlt b (by omega)) (fun b hb i j a1 a2 a3 a4 => hz b (by omega) i j a1 (by omega) a3 a4)
      (fun b hb => mono b (by omega))
    exact le_trans (Nat.add_le_add_right h3 _) (rank_split M h2 (by omega) (by omega) (by omega)
      fun i j a1 a2 a3 a4 => hz K (by omega) i j a1 a2 a3 a4)

end Spasm
