import Verif.Spec.Check2
import Verif.Spec.Lu

/-
More checks on concrete instances (bounded quantifiers, so that they can be decided).
-/

namespace Spasm

theorem Echelon.of_check {q : ℕ} {U : Csr} {qinv : Array Int} (hU : U.checkV q = true)
    (h1 : U.m ≤ qinv.size)
    (h2 : ∀ j, j < U.m → -1 ≤ qinv.g j ∧ qinv.g j < U.n ∧
        (0 ≤ qinv.g j → U.pivot (qinv.g j).toNat = j))
    (h3 : ∀ i, i < U.n → U.p.g i < U.p.g (i + 1) ∧ qinv.g (U.pivot i) = i ∧ U.val (U.p.g i) = 1)
    (h4 : ∀ i, i < U.n → ∀ k, k < U.p.g U.n → (U.p.g i < k ∧ k < U.p.g (i + 1)) →
        U.j.g k ≠ U.pivot i)
    (h5 : ∀ k, k < U.n → ∀ i, i < k → ∀ l, l < U.p.g U.n → (U.p.g k ≤ l ∧ l < U.p.g (k + 1)) →
        U.j.g l ≠ U.pivot i) : Echelon q U qinv where
  wfv := Csr.wfv_of_check hU
  size := h1
  ge := fun j hj => (h2 j hj).1
  lt := fun j hj => (h2 j hj).2.1
  ne := fun i hi => (h3 i hi).1
  piv := fun i hi => (h3 i hi).2.1
  loc := fun j hj => (h2 j hj).2.2
  one := fun i hi => (h3 i hi).2.2
  once := fun i hi k g1 g2 => h4 i hi k
    ((Csr.wfv_of_check hU).toWF.row_lt hi g2) ⟨g1, g2⟩
  tri := fun i k g1 g2 ⟨l, g3, g4, g5⟩ => h5 k g2 i g1 l
    ((Csr.wfv_of_check hU).toWF.row_lt g2 g4) ⟨g3, g4⟩ g5

end Spasm
