import Verif.Model.Echelonize
import Verif.Proofs.Block
import Verif.Props.Schur
import Verif.Proofs.Steps

/-
A round of the driver: the remaining rows are replaced by their Schur complement.
-/

namespace Spasm

open Finset

section
variable {q : ℕ} {A U : Csr} {qinv : Array Int} {v v' : Nat → Nat → ZMod q} {nr : Nat}
  {o : Nat → Nat} {old : Nat} {complete : Bool}

/-- `L` gets the coefficients of the elimination. -/
theorem PartialL.reduce {Z Z' : Triplet} {P : Nat → Nat}
    (h : PartialL q A U Z P v nr o old complete) {ℓ : Nat → Nat → ZMod q}
    (hv : ∀ t, t < nr → ∀ c, v t c = v' t c + ∑ j ∈ range U.n, ℓ t j * U.entry q j c)
    (hold : ∀ t, t < nr → ∀ k, k < old → ℓ t k = 0) (hw : Z'.WFV q) (hn : Z'.n = Z.n) (hm : Z'.m = Z.m)
    (hhas : ∀ i c, Z'.Has i c → Z.Has i c ∨ ∃ k, k < nr ∧ o k = i ∧ c < U.n ∧ ℓ k c ≠ 0)
    (hsum : ∀ i c, Z'.sum q i c = Z.sum q i c + ∑ k ∈ range nr, if o k = i then ℓ k c else 0) :
    PartialL q A U Z' P v' nr o U.n complete := by
  have hs1 : ∀ i c, (∀ t, t < nr → o t ≠ i) → Z'.sum q i c = Z.sum q i c := by
    intro i c hi
    rw [hsum, Finset.sum_eq_zero, add_zero]
    intro k hk
    rw [if_neg (hi k (mem_range.mp hk))]
  have hs2 : ∀ t, t < nr → ∀ c, Z'.sum q (o t) c = Z.sum q (o t) c + ℓ t c := by
    intro t ht c
    rw [hsum, Finset.sum_eq_single t]
    · rw [if_pos rfl]
    · intro k hk hne
      rw [if_neg fun e => hne (h.rem_inj k t (mem_range.mp hk) ht e)]
    · intro hh; exact absurd (mem_range.mpr ht) hh
  have hhas' : ∀ i c, Z'.Has i c → c < U.n ∧ Z'.sum q i c ≠ 0 := by
    intro i c hh
    by_cases hi : ∃ t, t < nr ∧ o t = i
    · obtain ⟨t, ht, rfl⟩ := hi
      rw [hs2 t ht]
      by_cases hz : Z.Has (o t) c
      · have := h.has _ _ hz
        rw [hold t ht c (h.rem_old t ht c hz), add_zero]
        exact this
      · rcases hhas _ _ hh with h1 | ⟨k, h1, h2, h3, h4⟩
        · exact absurd h1 hz
        · have := h.rem_inj k t h1 ht h2
          subst this
          rw [Triplet.sum_eq_zero_of_not_has hz, zero_add]
          exact ⟨h3, h4⟩
    · have hi' : ∀ t, t < nr → o t ≠ i := fun t ht e => hi ⟨t, ht, e⟩
      rw [hs1 i c hi']
      rcases hhas _ _ hh with h1 | ⟨k, h1, h2, -⟩
      · exact h.has _ _ h1
      · exact absurd h2 (hi' k h1)
  have hP : ∀ k c, k < U.n → Z'.sum q (P k) c = Z.sum q (P k) c := fun k c hk =>
    hs1 _ _ fun t ht e => h.rem_new k t hk ht e.symm
  refine ⟨hw, by rw [hn]; exact h.n_eq, by rw [hm]; exact h.m_ge, hhas', h.P_lt, ?_, ?_, ?_, h.rem_lt,
    h.rem_inj, h.rem_new, fun t ht c hh => (hhas' _ _ hh).1, ?_⟩
  · intro k hk
    rw [hP k k hk]; exact h.diag k hk
  · intro k j hkj hj
    rw [hP k j (by omega)]; exact h.upper k j hkj hj
  · intro i hi hc c
    have hi' : ∀ t, t < nr → o t ≠ i := by
      rcases hc with ⟨k, hk, rfl⟩ | ⟨-, hc⟩
      · exact fun t ht e => h.rem_new k t hk ht e.symm
      · exact hc
    rw [h.prod i hi hc c]
    exact Finset.sum_congr rfl fun j _ => by rw [hs1 i j hi']
  · intro t ht c
    rw [h.rem t ht c, hv t ht c, add_assoc, ← Finset.sum_add_distrib]
    congr 1
    exact Finset.sum_congr rfl fun j _ => by rw [hs2 t ht]; ring

/-- The remaining vectors are reduced modulo `U`. -/
theorem Partial.reduce {L L' : Option Triplet} {Lp : Option (Array Nat)}
    (h : Partial q A U qinv L Lp v nr o old complete) {ℓ : Nat → Nat → ZMod q}
    (hv : ∀ t, t < nr → ∀ c, v t c = v' t c + ∑ j ∈ range U.n, ℓ t j * U.entry q j c)
    (hz : ∀ t, t < nr → ∀ i, i < U.n → v' t (U.pivot i) = 0)
    (hnone : L = none → L' = none)
    (hsome : ∀ Z, L = some Z → ∃ Z', L' = some Z' ∧ Z'.n = Z.n ∧ Z'.m = Z.m ∧ (Z.WFV q → Z'.WFV q) ∧
      (∀ i c, Z'.Has i c → Z.Has i c ∨ ∃ k, k < nr ∧ o k = i ∧ c < U.n ∧ ℓ k c ≠ 0) ∧
      ∀ i c, Z'.sum q i c = Z.sum q i c + ∑ k ∈ range nr, if o k = i then ℓ k c else 0) :
    Partial q A U qinv L' Lp v' nr o U.n complete := by
  have ho := h.old_le
  have hold : ∀ t, t < nr → ∀ k, k < old → ℓ t k = 0 := by
    intro t ht
    exact h.coeff_old ht (w := v' t) (hv t ht) fun i hi => hz t ht i (by omega)
  refine ⟨h.ech, h.m_eq, h.psize, h.room, h.x_some, h.x_size, le_refl _, hz, ?_, ?_, h.nodup, fun hL => h.nozero (by
    cases hLL : L with
    | none => rfl
    | some Z =>
      obtain ⟨Z', b1, -⟩ := hsome Z hLL
      rw [hL] at b1; cases b1), ?_⟩
  · rw [← h.span]
    refine le_antisymm (sup_le le_sup_left (spanOf_le fun t ht => ?_))
      (sup_le le_sup_left (spanOf_le fun t ht => ?_))
    · have : v' t = v t - fun c => ∑ j ∈ range U.n, ℓ t j * U.entry q j c := by
        ext c; rw [Pi.sub_apply, hv t ht c, add_sub_cancel_right]
      rw [this]
      exact Submodule.sub_mem _ (Submodule.mem_sup_right (mem_spanOf ht))
        (Submodule.mem_sup_left (sum_mem_spanOf _))
    · have : v t = v' t + fun c => ∑ j ∈ range U.n, ℓ t j * U.entry q j c := by
        ext c; rw [Pi.add_apply, hv t ht c]
      rw [this]
      exact Submodule.add_mem _ (Submodule.mem_sup_right (mem_spanOf ht))
        (Submodule.mem_sup_left (sum_mem_spanOf _))
  · intro hs
    cases L with
    | none => rw [hnone rfl] at hs; cases hs
    | some Z => exact h.p_size rfl
  · intro Z'' hZ''
    cases L with
    | none => rw [hnone rfl] at hZ''; cases hZ''
    | some Z =>
      obtain ⟨Z', e1, e2, e3, e4, e5, e6⟩ := hsome Z rfl
      rw [e1] at hZ''; cases hZ''
      have hL := h.L Z rfl
      exact hL.reduce hv hold (e4 hL.wfv) e2 e3 e5 e6

end

/-- What one call to `spasm_schur` does to a factorization in progress. -/
theorem Partial.schur (jk : Junk) {q : ℕ} {A0 A : Csr} {p : Array Nat} {n : Nat} {fact : Lu} {size : Nat}
    {p_in : Option (Array Nat)} {p_out : Array Nat} {old : Nat} {complete : Bool}
    (hpre : SchurPre q A p n fact.U fact.qinv fact.Ltmp p_in p_out)
    (h : Partial q A0 fact.U fact.qinv fact.Ltmp fact.p (fun t => A.entry q (p.g t)) n
      (fun t => permFun p_in (p.g t)) old complete)
    {S : Csr} {L' : Option Triplet} {p_out' : Array Nat}
    (hrun : SchurRun jk A p n fact.U fact.qinv size fact.Ltmp p_in p_out S L' p_out') :
    Partial q A0 fact.U fact.qinv L' fact.p (S.entry q) n (permFun (some p_out')) fact.U.n complete ∧
      S.WFV q ∧ S.n = n ∧ S.m = A.m ∧ S.NoDup ∧ S.NoZero ∧ p_out'.size = p_out.size ∧
      (∀ t, t < n → ∀ c, S.InRow t c → fact.qinv.g c < 0) ∧ L'.isSome = fact.Ltmp.isSome := by
  obtain ⟨σ, ℓ, hσ, hS, h1, h2, h3, h4⟩ := C21_result jk q A p n fact.U fact.qinv size fact.Ltmp p_in p_out
    hpre S L' p_out' hrun
  have ho : ∀ t, t < n → permFun (some p_out') t = permFun p_in (p.g (σ t)) := fun t ht => h2 t ht
  refine ⟨?_, hS.wfv, hS.n_eq, hS.m_eq, hS.nodup, hS.nozero, h1, hS.elim, ?_⟩
  · have hp := (h.perm hσ).rename (v' := fun t => A.entry q (p.g (σ t))) (o' := permFun (some p_out'))
      (fun t _ => rfl) ho
    refine hp.reduce (ℓ := ℓ) ?_ ?_ h3 ?_
    · intro t ht c
      by_cases hc : c < A.m
      · exact hS.eq t ht c hc
      · rw [hpre.A_wfv.toWF.entry_ge (hpre.p_lt _ (hσ.1 t ht)) (by omega),
          hS.wfv.toWF.entry_ge (by rw [hS.n_eq]; exact ht) (by rw [hS.m_eq]; omega), zero_add,
          Finset.sum_eq_zero]
        intro j hj
        rw [hpre.ech.wfv.toWF.entry_ge (mem_range.mp hj) (by rw [hpre.m_eq]; omega), mul_zero]
    · intro t ht i hi
      refine Csr.entry_eq_zero_of_not_inRow fun hin => ?_
      have := hS.elim t ht _ hin
      have := hpre.ech.piv i hi
      omega
    · intro Z hZ
      obtain ⟨Z', e1, -, -, e4, e5, -, e7, e8, e9⟩ := h4 Z hZ
      exact ⟨Z', e1, e4, e5, e7, e8, e9⟩
  · cases hL : fact.Ltmp with
    | none => rw [h3 hL]
    | some Z => obtain ⟨Z', e1, -⟩ := h4 Z hL; rw [e1]; rfl

end Spasm
