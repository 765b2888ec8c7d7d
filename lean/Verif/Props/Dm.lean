import Verif.Proofs.DmFine
import Verif.Spec.Check
import Verif.Spec.Matching
import Verif.Props.Matching

/-
C34: Dulmage-Mendelsohn decomposition.
-/

namespace Spasm

open Finset

/-- C34. For every sparse matrix, `spasm_dulmage_mendelsohn` terminates, does no invalid access and
violates no assertion.  `p`, `q`, `rr`, `cc` describe a coarse decomposition.  If the square part is not
empty, then `r`, `c` split it into its strongly connected components, in block upper triangular order;
if it is empty, then the number of blocks returned is zero. -/
theorem C34_dulmage_mendelsohn (jk : Junk) (A : Csr) (hA : A.WF) :
    Ok (dulmage_mendelsohn jk A) (fun D => IsCoarse A D ∧ (D.rr.g 1 < D.rr.g 2 → IsFine A D) ∧
      (D.rr.g 1 = D.rr.g 2 → D.nb = 0)) :=
  dulmage_mendelsohn_spec jk hA

/-- The matching shown by a coarse decomposition: `rr[3]` entries, no two of them on the same row or
column; no matching of `A` is larger. -/
theorem C34_structural_rank (A : Csr) (hA : A.WF) (D : Dm) (h : IsCoarse A D) :
    IsMatching A ((range (D.rr.g 3).toNat).image fun t => (D.p.g t, D.q.g ((D.cc.g 1).toNat + t))) ∧
    ((range (D.rr.g 3).toNat).image
      fun t => (D.p.g t, D.q.g ((D.cc.g 1).toNat + t))).card = (D.rr.g 3).toNat ∧
    ∀ S : Finset (Nat × Nat), IsMatching A S → S.card ≤ (D.rr.g 3).toNat := by
  have r0 := h.rr_zero
  have c0 := h.cc_zero
  have r1 := h.rr_mono 0 (by omega)
  have r2 := h.rr_mono 1 (by omega)
  have r3 := h.rr_mono 2 (by omega)
  have r4 := h.rr_mono 3 (by omega)
  have c1 := h.cc_mono 0 (by omega)
  have c2 := h.cc_mono 1 (by omega)
  have s1 := h.square 1 (by omega)
  have s3 := h.square 3 (by omega)
  have rl := h.rr_last
  have cl := h.cc_last
  simp only [Nat.reduceAdd] at r1 r2 r3 r4 c1 c2 s1 s3
  have hlt : ∀ t, t < (D.rr.g 3).toNat → t < A.n ∧ (D.cc.g 1).toNat + t < A.m := by
    intro t ht; constructor <;> omega
  refine ⟨⟨?_, ?_, ?_⟩, ?_, ?_⟩
  · intro e he
    obtain ⟨t, ht, rfl⟩ := mem_image.mp he
    rw [mem_range] at ht
    exact ⟨h.perm_p.1 t (hlt t ht).1, h.diag t (by omega)⟩
  · intro e f he hf hef
    obtain ⟨t, ht, rfl⟩ := mem_image.mp he
    obtain ⟨u, hu, rfl⟩ := mem_image.mp hf
    rw [mem_range] at ht hu
    rw [h.perm_p.2 t u (hlt t ht).1 (hlt u hu).1 hef]
  · intro e f he hf hef
    obtain ⟨t, ht, rfl⟩ := mem_image.mp he
    obtain ⟨u, hu, rfl⟩ := mem_image.mp hf
    rw [mem_range] at ht hu
    have := h.perm_q.2 _ _ (hlt t ht).2 (hlt u hu).2 hef
    rw [show t = u by omega]
  · rw [card_image_of_injOn, card_range]
    intro t ht u hu hef
    simp only [coe_range, Set.mem_Iio] at ht hu
    exact h.perm_p.2 t u (hlt t ht).1 (hlt u hu).1 (Prod.mk.inj hef).1
  · intro S hS
    have hpos : ∀ i, i < A.n → ∃ t, t < A.n ∧ D.p.g t = i := fun i hi => h.perm_p.surj hi
    have hpos' : ∀ j, j < A.m → ∃ t, t < A.m ∧ D.q.g t = j := fun j hj => h.perm_q.surj hj
    classical
    choose! pr hpr1 hpr2 using hpos
    choose! pc hpc1 hpc2 using hpos'
    have hSr : ∀ e, e ∈ S → e.1 < A.n ∧ e.2 < A.m := fun e he =>
      ⟨(hS.1 e he).1, hA.inRow_lt (hS.1 e he).1 (hS.1 e he).2⟩
    have hcov : ∀ e, e ∈ S → ¬ (pr e.1 : Int) < D.rr.g 1 → D.cc.g 2 ≤ pc e.2 := by
      intro e he hn
      have h1 := hSr e he
      refine h.mid (pr e.1) (pc e.2) (hpr1 _ h1.1) (hpc1 _ h1.2) ?_ (by omega)
      rw [hpr2 _ h1.1, hpc2 _ h1.2]
      exact (hS.1 e he).2
    have := card_le_card_of_injOn (s := S) (t := range (D.rr.g 3).toNat)
      (fun e => if (pr e.1 : Int) < D.rr.g 1 then pr e.1 else pc e.2 - (D.cc.g 1).toNat)
      (fun e he => by
        have h1 := hSr e he
        have h2 := hcov e he
        have h3 := hpc1 _ h1.2
        simp only [coe_range, Set.mem_Iio]
        split <;> omega)
      (fun e he f hf hef => by
        have he : e ∈ S := by simpa using he
        have hf : f ∈ S := by simpa using hf
        have h1 := hSr e he
        have h2 := hSr f hf
        have h3 := hcov e he
        have h4 := hcov f hf
        simp only at hef
        split at hef <;> split at hef
        · exact hS.2.1 e f he hf (by rw [← hpr2 _ h1.1, ← hpr2 _ h2.1, hef])
        · omega
        · omega
        · refine hS.2.2 e f he hf ?_
          rw [← hpc2 _ h1.2, ← hpc2 _ h2.2]
          congr 1
          omega)
    rwa [card_range] at this

/-- A matrix whose four parts are all nonempty: row 0 has entries in columns 0 and 1, column 5 is shared
by rows 4 and 5, and rows 1, 2, 3 form two components. -/
def exDm : Csr :=
  { n := 6, m := 6, p := #[0, 3, 5, 7, 9, 10, 11], j := #[0, 1, 4, 2, 3, 2, 3, 4, 5, 5, 5], x := none,
    F := Field.ofPrime 7 }

example : exDm.WF := Csr.wf_of_check (by decide +kernel)

/-- Its decomposition: one unmatched column, a square part with two blocks, one unmatched row. -/
example : (match dulmage_mendelsohn default exDm with
    | .ok D => decide (D.p = #[0, 3, 1, 2, 4, 5] ∧ D.q = #[1, 0, 4, 2, 3, 5] ∧ D.rr = #[0, 1, 4, 5, 6] ∧
        D.cc = #[0, 1, 2, 5, 6] ∧ D.nb = 4 ∧ D.r.toList.take 5 = [0, 1, 2, 4, 6] ∧
        D.c.toList.take 5 = [0, 2, 3, 5, 6])
    | .error _ => false) = true := by decide +kernel

/-- A matrix with an empty square part: two rows, one column. -/
def exTall : Csr := { n := 2, m := 1, p := #[0, 1, 2], j := #[0, 0], x := none, F := Field.ofPrime 7 }

example : exTall.WF := Csr.wf_of_check (by decide +kernel)

/-- When the square part is empty, `nb` is zero and `r`, `c` do not hold boundaries: they hold the marks
of the searches (here, `r[0]` is not zero and no `r[b]` is the number of rows). -/
theorem C34_no_boundaries : ∃ A : Csr, A.WF ∧ ∃ D, dulmage_mendelsohn default A = .ok D ∧ D.nb = 0 ∧
    D.r.g 0 ≠ 0 ∧ ∀ b, b < 2 → D.r.g b ≠ A.n := by
  refine ⟨exTall, Csr.wf_of_check (by decide +kernel), _, rfl, ?_⟩
  decide +kernel

end Spasm
