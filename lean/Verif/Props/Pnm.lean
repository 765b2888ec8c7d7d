import Verif.Proofs.Pnm
import Verif.Proofs.Permutation
import Verif.Model.Tools
import Verif.Props.Dm
import Verif.Props.IoAny
import Verif.Props.Csr

/-!
C45: images of matrices.  The formats, the black pixels and the colours are specified in Spec/Pnm.lean.
-/

namespace Spasm

open Sha

/-- C45 (partial), black and white. For every matrix and every positive size, with less than `2^31` pixels (the image
is never larger than the matrix), `spasm_save_pnm` writes an image in which exactly the pixels on which an entry falls
are black; no access is out of bounds.  Missing: larger images, see `C45_overflow`. -/
theorem C45_bw_partial (jk : Junk) {A : Csr} (hA : A.WF) {x y : Nat} (hx : 1 ≤ x) (hy : 1 ≤ y) (hm : A.m < 2 ^ 31)
    (hz : A.p.g A.n < 2 ^ 31) (hxy : min x A.m * min y A.n < 2 ^ 31) :
    Ok (save_pbm jk A x y) (fun f => IsPbm f (min x A.m) (min y A.n) (Black A (min x A.m) (min y A.n))) :=
  save_pbm_spec jk hA hx hy hm hz hxy

/-- C45 (defect). With `2^31` pixels or more, the number of pixels overflows, whatever the matrix. -/
theorem C45_overflow (jk : Junk) (A : Csr) {x y : Nat} (h : 2 ^ 31 ≤ min x A.m * min y A.n) :
    save_pbm jk A x y = .error .ub := by
  unfold save_pbm pnm_cells
  simp only [← Nat.cast_min (α := Int)]
  rw [show ((min x A.m : Nat) : Int) * ((min y A.n : Nat) : Int) = ((min x A.m * min y A.n : Nat) : Int) by
    push_cast; rfl]
  unfold i32
  rw [if_neg (by omega)]
  rfl

theorem DmDims.of {A : Csr} {D : Dm} (hc : IsCoarse A D) (hf : D.rr.g 1 < D.rr.g 2 → IsFine A D) :
    DmDims D A.n A.m := by
  have r0 := hc.rr_zero
  have c0 := hc.cc_zero
  have r1 := hc.rr_mono 0 (by omega)
  have r2 := hc.rr_mono 1 (by omega)
  have r3 := hc.rr_mono 2 (by omega)
  have r4 := hc.rr_mono 3 (by omega)
  have c1 := hc.cc_mono 0 (by omega)
  have c2 := hc.cc_mono 1 (by omega)
  have c3 := hc.cc_mono 2 (by omega)
  have c4 := hc.cc_mono 3 (by omega)
  have rl := hc.rr_last
  have cl := hc.cc_last
  have sq := hc.square 2 (by omega)
  simp only [Nat.reduceAdd] at r1 r2 r3 r4 c1 c2 c3 c4 sq
  refine ⟨hc.rr_size, hc.cc_size, by omega, by omega, by omega, by omega, by omega, by omega, ?_⟩
  intro hlt
  have h := hf hlt
  have h3 := h.nb
  have hup : ∀ b, 1 ≤ b → b < D.nb → D.rr.g 1 ≤ D.r.g b := by
    intro b hb
    induction b, hb using Nat.le_induction with
    | base => intro _; rw [h.r_one]
    | succ b hb ih => intro hb2; have := ih (by omega); have := h.r_lt b hb hb2; omega
  have hdown : ∀ k, k + 1 < D.nb → D.r.g (D.nb - 1 - k) ≤ D.rr.g 2 := by
    intro k
    induction k with
    | zero => intro _; rw [Nat.sub_zero, h.r_pen]
    | succ k ih =>
      intro hk
      have h1 := ih (by omega)
      have h2 := h.r_lt (D.nb - 1 - (k + 1)) (by omega) (by omega)
      rw [show D.nb - 1 - (k + 1) + 1 = D.nb - 1 - k by omega] at h2
      omega
  refine ⟨h.r_size, h.c_size, h.r_zero, h.c_zero, h.r_last, ?_⟩
  intro b hb
  have z0 := h.r_zero
  have z1 := h.c_zero
  have z2 := h.r_last
  have z3 := h.c_last
  rcases Nat.eq_zero_or_pos b with rfl | hb0
  · omega
  · rcases Nat.lt_or_ge b D.nb with hb1 | hb1
    · have h1 := hup b hb0 hb1
      have h2 := hdown (D.nb - 1 - b) (by omega)
      rw [show D.nb - 1 - (D.nb - 1 - b) = b by omega] at h2
      have h4 := h.c_eq b hb0 hb1
      omega
    · rw [show b = D.nb by omega]; omega

/-- The matrix permuted by tools/dm.c: row `i` and column `j` of the result are row `p[i]` and column `q[j]` of the
matrix. -/
theorem dm_decompose_spec (jk : Junk) {A : Csr} (hA : A.WF) :
    Ok (dm_decompose jk A) (fun r => IsCoarse A r.1 ∧ (r.1.rr.g 1 < r.1.rr.g 2 → IsFine A r.1) ∧
      (r.1.rr.g 1 = r.1.rr.g 2 → r.1.nb = 0) ∧ r.2.WF ∧ r.2.n = A.n ∧ r.2.m = A.m ∧ r.2.p.g r.2.n = A.p.g A.n ∧
      (∀ i j, i < A.n → j < A.m → (r.2.InRow i j ↔ A.InRow (r.1.p.g i) (r.1.q.g j))) ∧
      (∀ q i j, i < A.n → j < A.m → r.2.entry q i j = A.entry q (r.1.p.g i) (r.1.q.g j)) ∧
      ∀ q, A.x.isSome = true → A.WFV q → r.2.WFV q) := by
  unfold dm_decompose
  rw [Ok_bind]
  refine (C34_dulmage_mendelsohn jk A hA).mono ?_
  rintro D ⟨h1, h2, h3⟩
  rw [Ok_bind]
  refine (C05_pinv jk (some D.q) A.m (by rintro a h; cases h; exact h1.q_size.ge) h1.perm_q).mono ?_
  rintro qinv ⟨a1, a2, a3, a4⟩
  rw [Ok_bind]
  refine (C06_permute jk A hA (some D.p) qinv true (by rintro a h; cases h; exact h1.p_size.ge) h1.perm_p a1 a2).mono ?_
  rintro B ⟨b1, b2, b3, b4, b5, b6, b7, b8⟩
  refine ⟨h1, h2, h3, b1, b2, b3, b5, ?_, ?_, fun q h h' => b8 q rfl h h'⟩
  · intro i j hi hj
    have hpi : D.p.g i < A.n := h1.perm_p.1 i hi
    rw [Csr.inRow_iff, Csr.inRow_iff, b4 i hi]
    simp only [List.mem_map, exists_exists_and_eq_and]
    constructor
    · rintro ⟨e, he, rfl⟩
      refine ⟨e, he, ?_⟩
      have : e.1 < A.m := by
        obtain ⟨k, k1, k2, rfl⟩ := Csr.mem_seg.mp he
        exact hA.j_lt k (by have := hA.row_le hpi; simp only [permFun] at k2; omega)
      exact (a4 e.1 this).symm
    · rintro ⟨e, he, he2⟩
      exact ⟨e, he, by rw [he2]; exact a3 j hj⟩
  · intro q i j hi hj
    have := b6 rfl q i (D.q.g j) hi (h1.perm_q.1 j hj)
    rw [show permFun qinv (D.q.g j) = j from a3 j hj] at this
    exact this

/-- C45 (colours). The matrix `A` is decomposed, permuted and drawn, as tools/dm.c does.  Exactly the pixels on which
an entry of the permuted matrix falls are black, the other pixels have the colour of their block; no access is out of
bounds. -/
theorem C45_color (jk jk' : Junk) {A : Csr} (hA : A.WF) {x y : Nat} (hx : 1 ≤ x) (hy : 1 ≤ y) (hn0 : 0 < A.n)
    (hm0 : 0 < A.m) (hn : A.n < 2 ^ 31) (hm : A.m < 2 ^ 31) (hz : A.p.g A.n < 2 ^ 31)
    (hxy : min x A.m * min y A.n < 2 ^ 31) :
    Ok (dm_decompose jk A) (fun r => IsCoarse A r.1 ∧
      (∀ i j, i < A.n → j < A.m → (r.2.InRow i j ↔ A.InRow (r.1.p.g i) (r.1.q.g j))) ∧
      Ok (save_ppm jk' r.2 x y r.1) (fun f => ∃ color : Nat → Nat → Nat × Nat × Nat,
        IsPpm f (min x A.m) (min y A.n) color ∧ ∀ u v, u < min y A.n → v < min x A.m →
          (color u v = (0, 0, 0) ↔ Black r.2 (min x A.m) (min y A.n) u v) ∧
          (¬ Black r.2 (min x A.m) (min y A.n) u v → ∃ p, Background r.1 A.n A.m (min x A.m) (min y A.n) u v p ∧
            color u v = rgb p))) := by
  refine (dm_decompose_spec jk hA).mono ?_
  rintro ⟨D, B⟩ ⟨h1, h2, -, hB, hBn, hBm, hBz, he, -⟩
  have hD := DmDims.of h1 h2
  refine ⟨h1, he, ?_⟩
  simp only at hBn hBm hBz hD ⊢
  rw [← hBn, ← hBm] at hD hxy ⊢
  exact save_ppm_spec jk' hB hD hx hy (by rwa [hBn]) (by rwa [hBm]) (by rwa [hBn]) (by rwa [hBm]) (by rwa [hBz]) hxy

/-- A small matrix. -/
def exPix : Csr := { n := 2, m := 4, p := #[0, 2, 3], j := #[0, 3, 1], x := none, F := Field.ofPrime 7 }

/-- The hypotheses are met; what is written, at full size and with half of the columns. -/
example : exPix.WF ∧
    (match save_pbm default exPix 4 2 with
      | .ok f => decide (f = "P1\n4 2\n1 \n0 0 1 0 1 0 0 ".toList)
      | .error _ => false) = true ∧
    (match save_pbm default exPix 2 2 with
      | .ok f => decide (f = "P1\n2 2\n1 \n1 1 0 ".toList)
      | .error _ => false) = true :=
  ⟨Csr.wf_of_check (by decide +kernel), by decide +kernel, by decide +kernel⟩

/-- The image in colours of `exDm`. -/
example : (match (do let (D, B) ← dm_decompose default exDm; save_ppm default B 6 2 D) with
      | .ok f => decide (f.take 11 = "P3\n6 2\n255\n".toList)
      | .error _ => false) = true := by decide +kernel

/-- C45 (defect). A width of zero is an access out of bounds. -/
theorem C45_zero : (match save_pbm default exPix 0 2 with
      | .ok _ => false
      | .error e => decide (e = .ub)) = true := by decide +kernel

/-- C45 (defect). tools/bitmap.c gives a width of zero when the height asked for is less than the number of rows: an
access out of bounds. -/
theorem C45_bitmap_height : (match tool_bitmap default exJw "2 2 M\n1 1 1\n2 2 1\n0 0 0\n".toList (-1) 1 with
      | .ok _ => false
      | .error e => decide (e = .ub)) = true := by decide +kernel

/-- C45 (defect). The image in colours of a matrix without columns is a division by zero. -/
theorem C45_color_empty : (match (do
      let A : Csr := { n := 1, m := 0, p := #[0, 0], j := #[], x := none, F := Field.ofPrime 7 }
      let D ← dulmage_mendelsohn default A
      save_ppm default A 1 1 D) with
      | .ok _ => false
      | .error e => decide (e = .ub)) = true := by decide +kernel

end Spasm
