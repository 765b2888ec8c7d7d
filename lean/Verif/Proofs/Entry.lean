import Verif.Proofs.Csr
import Verif.Proofs.Inverse

/-
Entries of matrices without duplicates.
-/

namespace Spasm

open Finset

theorem Csr.entry_of_nodup {A : Csr} {q : ℕ} (hnd : A.NoDup) {i k : Nat} (hi : i < A.n)
    (h1 : A.p.g i ≤ k) (h2 : k < A.p.g (i + 1)) : A.entry q i (A.j.g k) = (A.val k : ZMod q) := by
  unfold Csr.entry
  rw [Finset.sum_eq_single k]
  · rw [if_pos rfl]
  · intro t ht hne
    rw [Finset.mem_Ico] at ht
    rw [if_neg]
    intro he
    exact hne (hnd i hi t k ht.1 ht.2 h1 h2 he)
  · intro hn
    exfalso; apply hn
    rw [Finset.mem_Ico]; exact ⟨h1, h2⟩

/-- Without duplicates nor zeros, the entries stored are nonzero. -/
theorem Csr.WFV.entry_ne_zero {A : Csr} {q : ℕ} (hA : A.WFV q) (hnd : A.NoDup) (hz : A.NoZero)
    {i j : Nat} (hi : i < A.n) (hin : A.InRow i j) : A.entry q i j ≠ 0 := by
  obtain ⟨k, h1, h2, rfl⟩ := hin
  rw [Csr.entry_of_nodup hnd hi h1 h2]
  have hk := hA.toWF.row_lt hi h2
  intro h0
  exact hz k hk ((small_eq_zero_iff hA.good.two_le (hA.small k hk)).mp h0)

end Spasm
