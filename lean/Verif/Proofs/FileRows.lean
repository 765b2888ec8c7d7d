import Verif.Proofs.FileOut
import Verif.Props.Kernel
import Verif.Proofs.Rank
import Verif.Proofs.Partial

/-! Row spaces and kernels of files and of compressed matrices. -/

namespace Spasm

open Finset

/-- Vectors of size `m`. -/
def restr (q m : ℕ) : (Nat → ZMod q) →ₗ[ZMod q] (Fin m → ZMod q) := LinearMap.funLeft (ZMod q) (ZMod q) Fin.val

theorem map_rowSpace {q : ℕ} (A : Csr) (m : Nat) :
    (A.rowSpace q).map (restr q m) = Submodule.span (ZMod q) (Set.range (A.vecs q A.n m)) := by
  unfold Csr.rowSpace spanOf
  rw [Submodule.map_span, ← Set.image_comp]
  congr 1
  ext v
  constructor
  · rintro ⟨i, hi, rfl⟩
    exact ⟨⟨i, hi⟩, rfl⟩
  · rintro ⟨i, rfl⟩
    exact ⟨i, i.2, rfl⟩

/-- The entries of `B` are those of the list. -/
structure Same (q : ℕ) (n m : Nat) (l : List (Int × Int × Int)) (B : Csr) : Prop where
  n_eq : B.n = n
  m_eq : B.m = m
  entry : ∀ i j, i < n → B.entry q i j = fileEntry q l i j

theorem FileCsr.same {q : ℕ} {n m : Nat} {l : List (Int × Int × Int)} {A : Csr} (h : FileCsr q n m l A) :
    Same q n m l A := ⟨h.n_eq, h.m_eq, h.entry⟩

section
variable {q : ℕ} {n m : Nat} {l : List (Int × Int × Int)} {B : Csr} (h : Same q n m l B)
include h

theorem Same.vecs : B.vecs q n m = fileMat q n m l := by
  funext i j
  exact h.entry i j i.2

theorem Same.rows : fileRows q n m l = (B.rowSpace q).map (restr q m) := by
  rw [map_rowSpace, h.n_eq, h.vecs]
  rfl

theorem Same.rank : (fileMat q n m l).rank = (B.toMat q).rank := by
  obtain ⟨rfl, rfl, he⟩ := h
  have : B.toMat q = fileMat q B.n B.m l := by
    ext i j
    exact he i j i.isLt
  rw [this]

end

/-- What is written. -/
theorem save_same {q : ℕ} {B : Csr} (hB : B.WFV q) (hn : B.n < 2 ^ 31) (hm : B.m < 2 ^ 31) :
    Ok (csr_save B) (fun g => ∃ l, IsFile g B.n B.m l ∧ Same q B.n B.m l B) :=
  (save_file_wfv hB hn hm).mono fun _ h => ⟨_, h.1, rfl, rfl, fun i j hi => (h.2 q i j hi).symm⟩

/-- A larger row space has a smaller kernel. -/
theorem ker_anti {q : ℕ} {n n' m : Nat} {M : Matrix (Fin n) (Fin m) (ZMod q)} {N : Matrix (Fin n') (Fin m) (ZMod q)}
    (h : Submodule.span (ZMod q) (Set.range M) ≤ Submodule.span (ZMod q) (Set.range N)) :
    LinearMap.ker N.mulVecLin ≤ LinearMap.ker M.mulVecLin := by
  intro x hx
  rw [LinearMap.mem_ker, Matrix.mulVecLin_apply] at hx ⊢
  have key : ∀ v ∈ Submodule.span (ZMod q) (Set.range N), v ⬝ᵥ x = 0 := by
    intro v hv
    induction hv using Submodule.span_induction with
    | mem v hv =>
      obtain ⟨i, rfl⟩ := hv
      exact congrFun hx i
    | zero => exact zero_dotProduct _
    | add v w _ _ h1 h2 => rw [add_dotProduct, h1, h2, add_zero]
    | smul a v _ h1 => rw [smul_dotProduct, h1, smul_zero]
  funext i
  exact key _ (h (Submodule.subset_span ⟨i, rfl⟩))

theorem ker_congr {q : ℕ} {n n' m : Nat} {M : Matrix (Fin n) (Fin m) (ZMod q)} {N : Matrix (Fin n') (Fin m) (ZMod q)}
    (h : Submodule.span (ZMod q) (Set.range M) = Submodule.span (ZMod q) (Set.range N)) :
    LinearMap.ker N.mulVecLin = LinearMap.ker M.mulVecLin :=
  le_antisymm (ker_anti h.le) (ker_anti h.ge)

/-- As many independent rows as the rank. -/
theorem indep_of_rank {q : ℕ} [Fact q.Prime] {r m : Nat} {M : Matrix (Fin r) (Fin m) (ZMod q)} (h : M.rank = r) :
    LinearIndependent (ZMod q) (fun i => M i) := by
  rw [linearIndependent_iff_card_eq_finrank_span, Fintype.card_fin]
  rw [Matrix.rank_eq_finrank_span_row] at h
  exact h.symm

/-- The kernel written to a file. -/
theorem IsKernel.file {q n m : ℕ} {l l' : List (Int × Int × Int)} {U K : Csr} (h : IsKernel q U K)
    (hU : U.m = m) (hK : Same q K.n K.m l' K) :
    LinearIndependent (ZMod q) (fun i => fileMat q K.n m l' i) ∧
      ((U.rowSpace q).map (restr q m) ≤ fileRows q n m l →
        LinearMap.ker (fileMat q n m l).mulVecLin ≤ fileRows q K.n m l') ∧
      ((U.rowSpace q).map (restr q m) = fileRows q n m l →
        LinearMap.ker (fileMat q n m l).mulVecLin = fileRows q K.n m l') := by
  subst hU
  have hm := h.m_eq
  have hv : K.vecs q K.n U.m = fileMat q K.n U.m l' := by
    funext i j
    exact hK.entry i j i.2
  have e : fileRows q K.n U.m l' = LinearMap.ker (Matrix.mulVecLin (U.toMat q)) := by
    rw [← h.span, hv]; rfl
  have e2 : (U.rowSpace q).map (restr q U.m) = Submodule.span (ZMod q) (Set.range (U.toMat q)) := by
    rw [map_rowSpace]; rfl
  refine ⟨by have := h.indep; rwa [hv] at this, fun hr => ?_, fun hr => ?_⟩
  · rw [e]
    rw [e2] at hr
    exact ker_anti hr
  · rw [e]
    rw [e2] at hr
    exact ker_congr hr

end Spasm
