import Verif.Proofs.Certificate
import Mathlib.LinearAlgebra.Matrix.Rank
import Mathlib.FieldTheory.Finiteness

namespace Spasm

open Finset

variable {q : ℕ} [Fact q.Prime]

theorem natCard_submodule {V : Type} [AddCommGroup V] [Module (ZMod q) V] [Module.Finite (ZMod q) V]
    (W : Submodule (ZMod q) V) : Nat.card W = q ^ Module.finrank (ZMod q) W := by
  rw [Module.natCard_eq_pow_finrank (K := ZMod q), Nat.card_zmod]

theorem reached_card (A : Csr) {j : Nat → Nat} {r : Nat} (hj : ∀ k, k < r → j k < A.m) :
    Nat.card (A.Reached q j r) ≤ q ^ (A.toMat q).rank := by
  let P : (Fin A.m → ZMod q) →ₗ[ZMod q] (Fin r → ZMod q) :=
    LinearMap.funLeft (ZMod q) (ZMod q) (fun k : Fin r => (⟨j k, hj k k.2⟩ : Fin A.m))
  let R := LinearMap.range (A.toMat q).vecMulLinear
  have hR : Module.finrank (ZMod q) R = (A.toMat q).rank := by
    rw [Matrix.rank_eq_finrank_span_row, ← range_vecMulLinear]
  have hset : A.Reached q j r = (R.map P : Set (Fin r → ZMod q)) := by
    ext a
    constructor
    · rintro ⟨x, hx⟩
      refine ⟨Matrix.vecMul (fun i : Fin A.n => x i) (A.toMat q), ⟨fun i : Fin A.n => x i, rfl⟩, ?_⟩
      funext k
      rw [← hx k, Finset.sum_range]
      rfl
    · rintro ⟨_, ⟨x, rfl⟩, rfl⟩
      refine ⟨fun i => if h : i < A.n then x ⟨i, h⟩ else 0, fun k => ?_⟩
      rw [Finset.sum_range]
      simp only [Fin.is_lt, dite_true, Fin.eta]
      rfl
  rw [hset]
  have : Nat.card (R.map P : Set (Fin r → ZMod q)) = q ^ Module.finrank (ZMod q) (R.map P) := natCard_submodule _
  rw [this, ← hR]
  exact Nat.pow_le_pow_right (Nat.Prime.pos Fact.out) (Submodule.finrank_map_le P R)

theorem cancelled_card (A : Csr) (S : Finset Nat) :
    Nat.card (A.Cancelled q S) ≤ q ^ (A.n - (A.toMat q).rank) := by
  let N := LinearMap.ker (A.toMat q).vecMulLinear
  have hN : Module.finrank (ZMod q) N = A.n - (A.toMat q).rank := by
    have h1 := LinearMap.finrank_range_add_finrank_ker (A.toMat q).vecMulLinear
    rw [Module.finrank_fin_fun] at h1
    have hR : Module.finrank (ZMod q) (LinearMap.range (A.toMat q).vecMulLinear) = (A.toMat q).rank := by
      rw [Matrix.rank_eq_finrank_span_row, ← range_vecMulLinear]
    rw [hR] at h1
    change _ + Module.finrank (ZMod q) N = _ at h1
    omega
  have hlt : ∀ i : ↥(range A.n \ S), (i : Nat) < A.n := fun i => by
    have := i.2
    rw [mem_sdiff, mem_range] at this
    exact this.1
  let P : (Fin A.n → ZMod q) →ₗ[ZMod q] (↥(range A.n \ S) → ZMod q) :=
    LinearMap.funLeft (ZMod q) (ZMod q) (fun i : ↥(range A.n \ S) => (⟨i, hlt i⟩ : Fin A.n))
  have hset : A.Cancelled q S ⊆ (N.map P : Set (↥(range A.n \ S) → ZMod q)) := by
    rintro b ⟨y, hy⟩
    refine ⟨fun i => if h : (i : Nat) ∈ range A.n \ S then b ⟨i, h⟩ else y i, ?_, ?_⟩
    · show _ ∈ LinearMap.ker _
      rw [LinearMap.mem_ker]
      funext c
      show ∑ i : Fin A.n, (if h : (i : Nat) ∈ range A.n \ S then b ⟨i, h⟩ else y i) * A.entry q i c = 0
      rw [← hy c c.2]
      rw [← Finset.sum_range (fun i => (if h : i ∈ range A.n \ S then b ⟨i, h⟩ else y i) * A.entry q i c)]
      rw [← Finset.sum_sdiff (Finset.sdiff_subset (s := range A.n) (t := S)), add_comm]
      congr 1
      · rw [← Finset.sum_attach]
        refine sum_congr rfl (fun i hi => ?_)
        rw [dif_pos i.2]
      · rw [Finset.sdiff_sdiff_self_left]
        refine sum_congr rfl (fun i hi => ?_)
        rw [dif_neg]
        intro h
        exact (mem_sdiff.1 h).2 (mem_inter.1 hi).2
    · funext i
      show (if h : (i : Nat) ∈ range A.n \ S then b ⟨i, h⟩ else y i) = b i
      rw [dif_pos i.2]
  have h1 : Nat.card (N.map P : Set (↥(range A.n \ S) → ZMod q)) = q ^ Module.finrank (ZMod q) (N.map P) :=
    natCard_submodule _
  have h2 : Nat.card (A.Cancelled q S) ≤ Nat.card (N.map P : Set (↥(range A.n \ S) → ZMod q)) :=
    Nat.card_mono (Set.toFinite _) hset
  rw [h1] at h2
  refine h2.trans ?_
  rw [← hN]
  exact Nat.pow_le_pow_right (Nat.Prime.pos Fact.out) (Submodule.finrank_map_le P N)

/-- The rows to which the certificate gives a coefficient. -/
theorem listed_card (c : Cert) (n : Nat) : ((range n).filter (fun i => ¬ c.Free i)).card ≤ c.r := by
  have : (range n).filter (fun i => ¬ c.Free i) ⊆ (range c.r).image (fun k => (c.i.g k).toNat) := by
    intro i hi
    rw [mem_filter] at hi
    have h2 := hi.2
    unfold Cert.Free at h2
    push Not at h2
    obtain ⟨w, hw⟩ := Option.ne_none_iff_exists'.1 h2.1
    obtain ⟨k, h1, h3, -⟩ := lastAt_mem hw
    rw [mem_image]
    exact ⟨k, mem_range.2 h1, by simp [h3]⟩
  calc _ ≤ _ := card_le_card this
    _ ≤ _ := card_image_le
    _ = c.r := card_range _

omit [Fact q.Prime] in
theorem certOk_reached {A : Csr} {seed : List Fips.Byte} {c : Cert} (h : CertOk q A seed c) :
    (fun k : Fin c.r => challenge seed q k) ∈ A.Reached q (fun k => (c.j.g k).toNat) c.r :=
  ⟨c.X q, fun k => h.lower k k.2⟩

omit [Fact q.Prime] in
theorem certOk_cancelled {A : Csr} {seed : List Fips.Byte} {c : Cert} (h : CertOk q A seed c) :
    (fun i : ↥(range A.n \ (range A.n).filter (fun i => ¬ c.Free i)) =>
      challenge seed q (c.r + Nat.count c.Free i)) ∈
      A.Cancelled q ((range A.n).filter (fun i => ¬ c.Free i)) := by
  refine ⟨c.Y seed q, fun j hj => ?_⟩
  rw [← h.upper j hj, ← Finset.sum_sdiff (Finset.filter_subset (fun i => ¬ c.Free i) (range A.n))]
  congr 1
  · rw [Finset.sum_attach (range A.n \ (range A.n).filter (fun i => ¬ c.Free i))
      (fun i => challenge seed q (c.r + Nat.count c.Free i) * A.entry q i j)]
    refine sum_congr rfl (fun i hi => ?_)
    rw [mem_sdiff, mem_filter] at hi
    unfold Cert.Y
    rw [if_pos]
    by_contra hn
    exact hi.2 ⟨hi.1, hn⟩
  · rw [Finset.inter_eq_right.2 (Finset.filter_subset _ _)]

end Spasm
