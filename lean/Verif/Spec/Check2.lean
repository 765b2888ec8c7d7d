import Verif.Spec.Check
import Verif.Spec.Triangular

/-
More checks on concrete instances (bounded quantifiers, so that they can be decided).
-/

namespace Spasm

theorem Csr.nodup_of_check {A : Csr} (hA : A.WF)
    (h : ∀ i, i < A.n → ∀ k, k < A.p.g A.n → ∀ l, l < A.p.g A.n → (A.p.g i ≤ k ∧
      k < A.p.g (i + 1) ∧ A.p.g i ≤ l ∧ l < A.p.g (i + 1) ∧ A.j.g k = A.j.g l) → k = l) :
    A.NoDup := by
  intro i hi k l h1 h2 h3 h4 h5
  exact h i hi k (hA.row_lt hi h2) l (hA.row_lt hi h4) ⟨h1, h2, h3, h4, h5⟩

/-- A pivot map has no cycle as soon as some rank increases strictly along its edges. -/
theorem PAcyclic.of_rank {A : Csr} {qinv : Array Int} (hA : A.WF) (hq : QinvOk A qinv)
    (r : Nat → Nat)
    (h : ∀ a b, a < A.m → PEdge A qinv a b → b ≠ a → r a < r b) : PAcyclic A qinv := by
  have hlt : ∀ a b, a < A.m → PEdge A qinv a b → b < A.m := by
    intro a b ha hE
    have := hq.lt a ha
    exact hA.inRow_lt (by have := hE.1; omega) hE.2
  have key : ∀ a b, Relation.TransGen (fun a b => PEdge A qinv a b ∧ b ≠ a) a b → a < A.m →
      b < A.m ∧ r a < r b := by
    intro a b hab ha
    induction hab with
    | single hE => exact ⟨hlt _ _ ha hE.1, h _ _ ha hE.1 hE.2⟩
    | tail _ hE ih => exact ⟨hlt _ _ ih.1 hE.1, ih.2.trans (h _ _ ih.1 hE.1 hE.2)⟩
  intro j hm hj
  exact absurd (key j j hj hm).2 (lt_irrefl _)

theorem PAcyclic.of_check {A : Csr} {qinv : Array Int} (hA : A.WF) (hq : QinvOk A qinv)
    (r : Nat → Nat)
    (h : ∀ a, a < A.m → ∀ k, k < A.p.g A.n → (0 ≤ qinv.g a ∧ A.p.g (qinv.g a).toNat ≤ k ∧
      k < A.p.g ((qinv.g a).toNat + 1) ∧ A.j.g k ≠ a) → r a < r (A.j.g k)) :
    PAcyclic A qinv := by
  refine PAcyclic.of_rank hA hq r ?_
  rintro a b ha ⟨h1, k, h2, h3, rfl⟩ hne
  have := hq.lt a ha
  exact h a ha k (hA.row_lt (by omega) h3) ⟨h1, h2, h3, hne⟩

theorem LowerTri.of_check {q : ℕ} {L : Csr} {p : Nat → Nat}
    (h1 : ∀ j, j < L.m → p j < L.n) (h2 : ∀ j, j < L.m → L.entry q (p j) j ≠ 0)
    (h3 : ∀ c, c < L.m → ∀ j, j < c → L.entry q (p j) c = 0) : LowerTri q L p :=
  ⟨h1, h2, fun j c a b => h3 c b j a⟩

theorem UpperUnit.of_check {q : ℕ} {U : Csr} {col : Nat → Nat}
    (h1 : ∀ i, i < U.n → col i < U.m) (h2 : ∀ i, i < U.n → U.entry q i (col i) = 1)
    (h3 : ∀ k, k < U.n → ∀ i, i < k → U.entry q k (col i) = 0) : UpperUnit q U col :=
  ⟨h1, h2, fun i k a b => h3 k b i a⟩

end Spasm
