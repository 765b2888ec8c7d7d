import Verif.Props.DmDet
import Verif.Props.StructuralRank
import Verif.Props.Moves
import Verif.Proofs.BlockRank

/-!
C86: the rank of a matrix and those of the blocks found by `dm`.  `BlockForm` and `subBlock` are specified in
Spec/DmForm.lean.
-/

namespace Spasm

open Sha Finset

/-- Sizes of consecutive blocks. -/
theorem sum_range_tsub_of_lt {r : Nat → Nat} {K : Nat} (h : ∀ b, b < K → r b < r (b + 1)) :
    ∑ b ∈ range K, (r (b + 1) - r b) = r K - r 0 ∧ r 0 ≤ r K := by
  induction K with
  | zero => simp
  | succ K ih =>
    have h1 := h K (by omega)
    obtain ⟨h2, h3⟩ := ih fun b hb => h b (by omega)
    rw [sum_range_succ, h2]
    omega

/-- The rank of a matrix in block triangular form. -/
theorem BlockForm.rank_bounds {F : Type} [_root_.Field F] {M : Nat → Nat → F} {n m h k s c : Nat} {r : Nat → Nat} {K : Nat}
    (hB : BlockForm (fun i j => M i j ≠ 0) n m h k s c r K) :
    (subBlock M 0 h 0 (c + h)).rank + ∑ b ∈ range K, (subBlock M (r b) (r (b + 1)) (c + r b) (c + r (b + 1))).rank
      + (subBlock M k n (c + k) m).rank ≤ (Matrix.of fun (i : Fin n) (j : Fin m) => M i j).rank ∧
    (Matrix.of fun (i : Fin n) (j : Fin m) => M i j).rank ≤ s := by
  classical
  obtain ⟨b1, b2, b3, b4⟩ := hB.le
  constructor
  · have e : (Matrix.of fun (i : Fin n) (j : Fin m) => M i j).rank = (subBlock M 0 n 0 m).rank := by
      unfold subBlock
      simp only [Nat.zero_add, Nat.sub_zero]
    rw [e]
    have h1 := rank_blocks M (c := c) (r := r) K hB.lt (fun b hb i j a1 a2 a3 a4 => by
      by_contra hne
      rw [hB.last] at a2
      have := hB.tri i j (by omega) (by omega) hne b hb a1
      omega)
    rw [hB.first, hB.last] at h1
    have h2 := rank_split M (r0 := 0) (r1 := h) (r2 := k) (c0 := 0) (c1 := c + h) (c2 := c + k) (by omega) (by omega)
      (by omega) (by omega) (fun i j a1 a2 a3 a4 => by
        by_contra hne
        have := hB.horz i j (by omega) (by omega) hne a1
        omega)
    have h3 := rank_split M (r0 := 0) (r1 := k) (r2 := n) (c0 := 0) (c1 := c + k) (c2 := m) (by omega) (by omega)
      (by omega) (by omega) (fun i j a1 a2 a3 a4 => by
        by_contra hne
        have := hB.vert i j (by omega) (by omega) hne a1
        omega)
    omega
  · have hR : (univ.filter fun i : Fin n => (i : Nat) < k).card ≤ k :=
      le_trans (card_le_card_of_injOn (fun i : Fin n => (i : Nat))
        (fun i hi => mem_range.mpr (mem_filter.mp hi).2) fun _ _ _ _ => Fin.ext) (by simp)
    have hK : (univ.filter fun j : Fin m => c + k ≤ (j : Nat)).card ≤ m - (c + k) :=
      le_trans (card_le_card_of_injOn (t := Ico (c + k) m) (fun j : Fin m => (j : Nat))
        (fun j hj => mem_Ico.mpr ⟨(mem_filter.mp hj).2, j.isLt⟩) fun _ _ _ _ => Fin.ext) (by simp)
    refine le_trans (rank_le_cover _ (univ.filter fun i : Fin n => (i : Nat) < k)
      (univ.filter fun j : Fin m => c + k ≤ (j : Nat)) ?_) (le_trans (Nat.add_le_add hR hK) (by omega))
    intro i j hij
    by_cases hi : (i : Nat) < k
    · exact .inl (mem_filter.mpr ⟨mem_univ _, hi⟩)
    · exact .inr (mem_filter.mpr ⟨mem_univ _, hB.vert i j i.isLt j.isLt hij (by omega)⟩)

/-- C86 (rank). For every file, the rank of the matrix modulo 42013 is at least the sum of the ranks of the diagonal blocks
of the file written by `dm`, and at most the structural rank, which is printed with `--verbose`.  In particular if all
these blocks have full rank, then the rank is the structural rank. -/
theorem C86_blocks (jk jk' : Junk) (jw jw' : Nat → W) {f : List Char} {n m : Nat} {l : List (Int × Int × Int)}
    (hf : IsFile f n m l) (hc : NoCancel 42013 l) :
    Ok (tool_dm jk jw f) (fun g => ∃ (l' : List (Int × Int × Int)) (h k s c : Nat) (r : Nat → Nat) (K : Nat),
      IsFile g n m l' ∧ BlockForm (fun i j => fileEntry 42013 l' i j ≠ 0) n m h k s c r K ∧
      (n + m < 2 ^ 31 → ∃ sizes, tool_dm_verbose jk' jw' f =
        .ok (dmReport s h (c + h) (k - h) (n - k) (m - (c + k)) sizes)) ∧
      (subBlock (fileEntry 42013 l') 0 h 0 (c + h)).rank +
        ∑ b ∈ range K, (subBlock (fileEntry 42013 l') (r b) (r (b + 1)) (c + r b) (c + r (b + 1))).rank +
        (subBlock (fileEntry 42013 l') k n (c + k) m).rank ≤ (fileMat 42013 n m l).rank ∧
      (fileMat 42013 n m l).rank ≤ s ∧
      ((subBlock (fileEntry 42013 l') 0 h 0 (c + h)).rank = h →
        (∀ b, b < K → (subBlock (fileEntry 42013 l') (r b) (r (b + 1)) (c + r b) (c + r (b + 1))).rank = r (b + 1) - r b) →
        (subBlock (fileEntry 42013 l') k n (c + k) m).rank = m - (c + k) → (fileMat 42013 n m l).rank = s)) := by
  have := prime_42013
  refine (C85_written jk jk' jw jw' hf hc).mono ?_
  rintro g ⟨l', p, q, h, k, s, c, r, K, g1, hp, hq, he, hB, hv⟩
  have hr : (Matrix.of fun (i : Fin n) (j : Fin m) => fileEntry 42013 l' i j).rank = (fileMat 42013 n m l).rank :=
    rank_moved hp hq he
  obtain ⟨h1, h2⟩ := hB.rank_bounds
  rw [hr] at h1 h2
  refine ⟨l', h, k, s, c, r, K, g1, hB, fun hnm => ?_, h1, h2, fun e1 e2 e3 => ?_⟩
  · obtain ⟨z, -, hz⟩ := hv hnm
    exact ⟨z, hz⟩
  · rw [sum_congr rfl fun b hb => e2 b (mem_range.mp hb), e1, e3, (sum_range_tsub_of_lt hB.lt).1, hB.first, hB.last] at h1
    obtain ⟨b1, b2, b3, b4⟩ := hB.le
    omega

/-- The hypotheses are met, by a matrix with three rows and two blocks. -/
example : IsFile exSquareFile 3 3 [(1, 1, 5), (2, 2, -2), (3, 3, 7), (3, 1, 4), (2, 1, 6), (1, 2, 3)] ∧
    NoCancel 42013 [(1, 1, 5), (2, 2, -2), (3, 3, 7), (3, 1, 4), (2, 1, 6), (1, 2, 3)] ∧ 3 + 3 < 2 ^ 31 :=
  ⟨exSquareFile_file, Distinct.noCancel (by unfold Distinct; decide), by decide⟩

end Spasm
