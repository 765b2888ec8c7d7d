import Verif.Spec.Csr
import Verif.Proofs.Inverse

namespace Spasm

open Finset

theorem Csr.WF.mono_le {A : Csr} (h : A.WF) {i k : Nat} (hik : i ≤ k) (hk : k ≤ A.n) :
    A.p.g i ≤ A.p.g k := by
  induction k with
  | zero => have : i = 0 := by omega
            subst this; exact le_refl _
  | succ k ih =>
    by_cases he : i = k + 1
    · subst he; exact le_refl _
    · exact (ih (by omega) (by omega)).trans (h.p_mono k (by omega))

theorem Csr.WF.row_le {A : Csr} (h : A.WF) {i : Nat} (hi : i < A.n) :
    A.p.g i ≤ A.p.g (i + 1) ∧ A.p.g (i + 1) ≤ A.p.g A.n :=
  ⟨h.p_mono i hi, h.mono_le (by omega) (le_refl _)⟩

theorem Csr.WF.row_lt {A : Csr} (h : A.WF) {i k : Nat} (hi : i < A.n) (hk : k < A.p.g (i + 1)) :
    k < A.p.g A.n := lt_of_lt_of_le hk (h.row_le hi).2

theorem Csr.WF.inRow_lt {A : Csr} (h : A.WF) {i j : Nat} (hi : i < A.n) (hj : A.InRow i j) :
    j < A.m := by
  obtain ⟨k, h1, h2, rfl⟩ := hj
  exact h.j_lt k (h.row_lt hi h2)

theorem Csr.entry_eq_zero_of_not_inRow {A : Csr} {q i j : Nat} (h : ¬ A.InRow i j) :
    A.entry q i j = 0 := by
  unfold Csr.entry
  apply Finset.sum_eq_zero
  intro k hk
  rw [mem_Ico] at hk
  rw [if_neg]
  intro e
  exact h ⟨k, hk.1, hk.2, e⟩

theorem Csr.entry_ge {A : Csr} (h : A.WF) {q i j : Nat} (hi : i < A.n) (hj : A.m ≤ j) :
    A.entry q i j = 0 := by
  apply Csr.entry_eq_zero_of_not_inRow
  intro hr
  have := h.inRow_lt hi hr
  omega

theorem rdX_ok {A : Csr} {q : ℕ} (h : A.WFV q) {k : Nat} (hk : k < A.p.g A.n) {Q : Int → Prop}
    (hQ : Q (A.val k)) : Ok (rdX A k) Q := by
  obtain ⟨a, ha⟩ := Option.isSome_iff_exists.mp (h.has_x (by omega))
  have hs := h.x_size a ha
  unfold rdX
  rw [ha]
  simp only [Ok_bind, Ok_deref_some, Ok_rd]
  refine ⟨by omega, ?_⟩
  have : A.val k = a.g k := by unfold Csr.val; rw [ha]
  rwa [this] at hQ

/-- Partial sum of row entries at column `j` over positions `[lo, px)`. -/
def Csr.psum (A : Csr) (q lo px j : Nat) : ZMod q :=
  ∑ k ∈ Ico lo px, if A.j.g k = j then (A.val k : ZMod q) else 0

theorem Csr.psum_self (A : Csr) (q lo j : Nat) : A.psum q lo lo j = 0 := by
  simp [Csr.psum]

theorem Csr.psum_succ (A : Csr) (q : Nat) {lo px : Nat} (h : lo ≤ px) (j : Nat) :
    A.psum q lo (px + 1) j = A.psum q lo px j
      + if A.j.g px = j then (A.val px : ZMod q) else 0 := by
  unfold Csr.psum
  rw [Finset.sum_Ico_succ_top h]

/-- Full specification of the inner loop shared by `scatter` and `xApy`. -/
theorem scatter_loop {A : Csr} {q : ℕ} (hA : A.WFV q) {i : Nat} (hi : i < A.n) {β : Int}
    (hβ : Wide β) (x : Array Int) (hx : A.m ≤ x.size)
    (hs : ∀ j, A.InRow i j → Small q (x.g j))
    (body : Nat → Array Int → C (Array Int))
    (hbody : ∀ px y (Q : Array Int → Prop), px < A.p.g A.n → A.p.g i ≤ px → px < A.p.g (i + 1) →
      (A.j.g px < y.size) →
      Ok (ZZp_axpy A.F β (A.val px) (y.g (A.j.g px))) (fun r => Q (y.upd (A.j.g px) r)) →
      Ok (body px y) Q) :
    Ok (forRange (A.p.g i) (A.p.g (i + 1)) x body) (fun y =>
      y.size = x.size ∧
      (∀ j, (y.g j : ZMod q) = β * A.entry q i j + x.g j) ∧
      (∀ j, A.InRow i j → Bal q (y.g j)) ∧
      (∀ j, ¬ A.InRow i j → y.g j = x.g j)) := by
  have hrow := hA.toWF.row_le hi
  refine Ok_forRange_imp (I := fun px y => y.size = x.size ∧
      (∀ j, (y.g j : ZMod q) = β * A.psum q (A.p.g i) px j + x.g j) ∧
      (∀ j, (∃ k, A.p.g i ≤ k ∧ k < px ∧ A.j.g k = j) → Bal q (y.g j)) ∧
      (∀ j, (¬ ∃ k, A.p.g i ≤ k ∧ k < px ∧ A.j.g k = j) → y.g j = x.g j)) hrow.1 ?_ ?_ ?_
  · refine ⟨rfl, fun j => by simp [Csr.psum_self], ?_, fun j _ => rfl⟩
    rintro j ⟨k, h1, h2, -⟩; omega
  · rintro px y h1 h2 ⟨hsz, hval, hbal, hun⟩
    have hpx : px < A.p.g A.n := lt_of_lt_of_le h2 hrow.2
    have hj : A.j.g px < A.m := hA.j_lt px hpx
    have hjy : A.j.g px < y.size := by omega
    apply hbody px y _ hpx h1 h2 hjy
    have hsm : Small q (y.g (A.j.g px)) := by
      by_cases he : ∃ k, A.p.g i ≤ k ∧ k < px ∧ A.j.g k = A.j.g px
      · exact (hbal _ he).small
      · rw [hun _ he]
        exact hs _ ⟨px, h1, h2, rfl⟩
    apply axpy_zmod_wide hA.good hβ (hA.small px hpx) hsm
    intro r hr hrv
    refine ⟨by simpa using hsz, ?_, ?_, ?_⟩
    · intro j
      rw [Csr.psum_succ A q h1 j]
      by_cases he : j = A.j.g px
      · subst he
        rw [g_upd_eq _ _ _ hjy, if_pos rfl, hrv, hval]
        ring
      · rw [g_upd_ne _ _ _ _ he, if_neg (fun h => he h.symm), hval]
        ring
    · rintro j ⟨k, hk1, hk2, hk3⟩
      by_cases he : j = A.j.g px
      · subst he; rw [g_upd_eq _ _ _ hjy]; exact hr
      · rw [g_upd_ne _ _ _ _ he]
        apply hbal
        refine ⟨k, hk1, ?_, hk3⟩
        rcases Nat.lt_succ_iff_lt_or_eq.mp hk2 with h | h
        · exact h
        · subst h; exact absurd hk3.symm he
    · intro j hj'
      have he : j ≠ A.j.g px := by
        rintro rfl; exact hj' ⟨px, h1, by omega, rfl⟩
      rw [g_upd_ne _ _ _ _ he]
      apply hun
      rintro ⟨k, hk1, hk2, hk3⟩
      exact hj' ⟨k, hk1, by omega, hk3⟩
  · rintro y ⟨hsz, hval, hbal, hun⟩
    exact ⟨hsz, hval, hbal, hun⟩

/-- `spasm_scatter`: specification used by all callers (the vector may contain garbage outside
of the columns of the row). -/
theorem scatter_spec {A : Csr} {q : ℕ} (hA : A.WFV q) {i : Nat} (hi : i < A.n) {β : Int}
    (hβ : Small q β) (x : Array Int) (hx : A.m ≤ x.size)
    (hs : ∀ j, A.InRow i j → Small q (x.g j)) :
    Ok (scatter A i β x) (fun y =>
      y.size = x.size ∧
      (∀ j, (y.g j : ZMod q) = β * A.entry q i j + x.g j) ∧
      (∀ j, A.InRow i j → Bal q (y.g j)) ∧
      (∀ j, ¬ A.InRow i j → y.g j = x.g j)) := by
  unfold scatter
  simp only [Ok_bind, Ok_rd]
  have := hA.p_size
  refine ⟨by omega, by omega, ?_⟩
  apply scatter_loop hA hi (hβ.wide hA.good) x hx hs
  intro px y Q h1 h2 h3 h4 h5
  simp only [Ok_bind, Ok_rd, Ok_wr]
  have := hA.p_nnz
  refine ⟨by omega, rdX_ok hA h1 ⟨h4, h5.mono ?_⟩⟩
  intro r hr
  exact ⟨h4, hr⟩

theorem xApy_wide {A : Csr} {q : ℕ} (hA : A.WFV q) (x y : Array Int) (hx : A.n ≤ x.size)
    (hy : A.m ≤ y.size) (hxs : ∀ i, i < A.n → Wide (x.g i))
    (hys : ∀ j, j < A.m → Small q (y.g j)) :
    Ok (xApy x A y) (fun z =>
      z.size = y.size ∧
      (∀ j, (z.g j : ZMod q) = (∑ i ∈ range A.n, (x.g i : ZMod q) * A.entry q i j) + y.g j) ∧
      (∀ j, j < A.m → Small q (z.g j)) ∧
      (∀ j, j < A.m → Bal q (y.g j) → Bal q (z.g j)) ∧
      (∀ j, A.m ≤ j → z.g j = y.g j)) := by
  unfold xApy
  refine Ok_forRange_imp (I := fun i z => z.size = y.size ∧
      (∀ j, (z.g j : ZMod q) = (∑ k ∈ range i, (x.g k : ZMod q) * A.entry q k j) + y.g j) ∧
      (∀ j, j < A.m → Small q (z.g j)) ∧
      (∀ j, j < A.m → Bal q (y.g j) → Bal q (z.g j)) ∧
      (∀ j, A.m ≤ j → z.g j = y.g j)) (Nat.zero_le _) ?_ ?_ ?_
  · exact ⟨rfl, fun j => by simp, hys, fun j _ h => h, fun j _ => rfl⟩
  · rintro i z - hi ⟨h1, h2, h3, h4, h5⟩
    simp only [Ok_bind, Ok_rd]
    have hps := hA.p_size
    refine ⟨by omega, by omega, ?_⟩
    have hin : ∀ j, A.InRow i j → j < A.m := fun j h => hA.toWF.inRow_lt hi h
    refine (scatter_loop hA hi (hxs i hi) z (by omega) (fun j h => h3 j (hin j h)) _ ?_).mono ?_
    · intro px w Q k1 k2 k3 k4 k5
      simp only [Ok_bind, Ok_rd, Ok_wr]
      have := hA.p_nnz
      refine ⟨by omega, by omega, rdX_ok hA k1 ⟨k4, k5.mono ?_⟩⟩
      intro r hr
      exact ⟨k4, hr⟩
    · rintro w ⟨e1, e2, e3, e4⟩
      refine ⟨by omega, ?_, ?_, ?_, ?_⟩
      · intro j
        rw [e2, h2, Finset.sum_range_succ]; ring
      · intro j hj
        by_cases hr : A.InRow i j
        · exact (e3 j hr).small
        · rw [e4 j hr]; exact h3 j hj
      · intro j hj hb
        by_cases hr : A.InRow i j
        · exact e3 j hr
        · rw [e4 j hr]; exact h4 j hj hb
      · intro j hj
        rw [e4 j (fun hr => by have := hin j hr; omega)]
        exact h5 j hj
  · intro z hz; exact hz

theorem xApy_spec {A : Csr} {q : ℕ} (hA : A.WFV q) (x y : Array Int) (hx : A.n ≤ x.size)
    (hy : A.m ≤ y.size) (hxs : ∀ i, i < A.n → Small q (x.g i))
    (hys : ∀ j, j < A.m → Small q (y.g j)) :
    Ok (xApy x A y) (fun z =>
      z.size = y.size ∧
      (∀ j, (z.g j : ZMod q) = (∑ i ∈ range A.n, (x.g i : ZMod q) * A.entry q i j) + y.g j) ∧
      (∀ j, j < A.m → Small q (z.g j)) ∧
      (∀ j, j < A.m → Bal q (y.g j) → Bal q (z.g j)) ∧
      (∀ j, A.m ≤ j → z.g j = y.g j)) :=
  xApy_wide hA x y hx hy (fun i hi => (hxs i hi).wide hA.good) hys

theorem Axpy_spec {A : Csr} {q : ℕ} (hA : A.WFV q) (x y : Array Int) (hx : A.m ≤ x.size)
    (hy : A.n ≤ y.size) (hxs : ∀ j, j < A.m → Small q (x.g j))
    (hys : ∀ i, i < A.n → Small q (y.g i)) :
    Ok (Axpy A x y) (fun z =>
      z.size = y.size ∧
      (∀ i, i < A.n →
        (z.g i : ZMod q) = (∑ j ∈ range A.m, A.entry q i j * (x.g j : ZMod q)) + y.g i) ∧
      (∀ i, i < A.n → Small q (z.g i)) ∧
      (∀ i, i < A.n → Bal q (y.g i) → Bal q (z.g i)) ∧
      (∀ i, A.n ≤ i → z.g i = y.g i)) := by
  unfold Axpy
  have hswap : ∀ i, i < A.n → (∑ j ∈ range A.m, A.entry q i j * (x.g j : ZMod q))
      = ∑ k ∈ Ico (A.p.g i) (A.p.g (i + 1)), (x.g (A.j.g k) : ZMod q) * A.val k := by
    intro i hi
    unfold Csr.entry
    simp_rw [Finset.sum_mul]
    rw [Finset.sum_comm]
    apply Finset.sum_congr rfl
    intro k hk
    rw [mem_Ico] at hk
    have hjm := hA.j_lt k (hA.toWF.row_lt hi hk.2)
    rw [Finset.sum_eq_single (A.j.g k)]
    · simp [mul_comm]
    · intro b _ hb
      rw [if_neg (fun e => hb e.symm)]; simp
    · intro hn
      exact absurd (mem_range.mpr hjm) hn
  refine Ok_forRange_imp (I := fun i z => z.size = y.size ∧
      (∀ k, k < i →
        (z.g k : ZMod q) = (∑ j ∈ range A.m, A.entry q k j * (x.g j : ZMod q)) + y.g k) ∧
      (∀ k, k < A.n → Small q (z.g k)) ∧
      (∀ k, k < A.n → Bal q (y.g k) → Bal q (z.g k)) ∧
      (∀ k, i ≤ k → z.g k = y.g k)) (Nat.zero_le _) ?_ ?_ ?_
  · exact ⟨rfl, fun k hk => by omega, hys, fun k _ h => h, fun j _ => rfl⟩
  · rintro i z - hi ⟨h1, h2, h3, h5, h4⟩
    simp only [Ok_bind, Ok_rd]
    have hps := hA.p_size
    refine ⟨by omega, by omega, ?_⟩
    have hrow := hA.toWF.row_le hi
    refine Ok_forRange_imp (I := fun px w => w.size = y.size ∧
      (w.g i : ZMod q) = (∑ k ∈ Ico (A.p.g i) px, (x.g (A.j.g k) : ZMod q) * A.val k) + y.g i ∧
      Small q (w.g i) ∧ (Bal q (y.g i) → Bal q (w.g i)) ∧
      (∀ k, k ≠ i → w.g k = z.g k)) hrow.1 ?_ ?_ ?_
    · exact ⟨h1, by simp [h4 i (le_refl _)], h3 i hi, h5 i hi, fun k _ => rfl⟩
    · rintro px w k1 k2 ⟨e1, e2, e3, e5, e4⟩
      have hpx : px < A.p.g A.n := lt_of_lt_of_le k2 hrow.2
      have hj := hA.j_lt px hpx
      have := hA.p_nnz
      simp only [Ok_bind, Ok_rd, Ok_wr]
      refine ⟨by omega, by omega, rdX_ok hA hpx ⟨by omega, ?_⟩⟩
      apply axpy_zmod hA.good (hxs _ hj) (hA.small px hpx) e3
      intro r hr hrv
      have hiw : i < w.size := by omega
      refine ⟨hiw, by simpa using e1, ?_, ?_, ?_, ?_⟩
      · rw [g_upd_eq _ _ _ hiw, hrv, e2, Finset.sum_Ico_succ_top k1]; ring
      · rw [g_upd_eq _ _ _ hiw]; exact hr.small
      · rw [g_upd_eq _ _ _ hiw]; exact fun _ => hr
      · intro k hk; rw [g_upd_ne _ _ _ _ hk]; exact e4 k hk
    · rintro w ⟨e1, e2, e3, e5, e4⟩
      refine ⟨e1, ?_, ?_, ?_, ?_⟩
      · intro k hk
        by_cases he : k = i
        · subst he; rw [e2, hswap k hi]
        · rw [e4 k he]; exact h2 k (by omega)
      · intro k hk
        by_cases he : k = i
        · subst he; exact e3
        · rw [e4 k he]; exact h3 k hk
      · intro k hk hb
        by_cases he : k = i
        · subst he; exact e5 hb
        · rw [e4 k he]; exact h5 k hk hb
      · intro k hk
        rw [e4 k (by omega)]; exact h4 k (by omega)
  · rintro z h
    exact h

end Spasm
