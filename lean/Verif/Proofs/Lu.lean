import Verif.Spec.Lu
import Verif.Spec.Check2
import Verif.Proofs.DenseSolve
import Verif.Proofs.Permutation

namespace Spasm

open Finset

theorem Echelon.pivot_lt {q : ℕ} {U : Csr} {qinv : Array Int} (h : Echelon q U qinv) {i : Nat}
    (hi : i < U.n) : U.pivot i < U.m :=
  h.wfv.j_lt _ (h.wfv.toWF.row_lt hi (h.ne i hi))

theorem Echelon.inRow_pivot {q : ℕ} {U : Csr} {qinv : Array Int} (h : Echelon q U qinv) {i : Nat}
    (hi : i < U.n) : U.InRow i (U.pivot i) := ⟨U.p.g i, le_refl _, h.ne i hi, rfl⟩

theorem Echelon.qinvOk {q : ℕ} {U : Csr} {qinv : Array Int} (h : Echelon q U qinv) :
    QinvOk U qinv := ⟨h.size, h.lt⟩

theorem Echelon.entry_pivot {q : ℕ} {U : Csr} {qinv : Array Int} (h : Echelon q U qinv) {i : Nat}
    (hi : i < U.n) : U.entry q i (U.pivot i) = 1 := by
  unfold Csr.entry
  rw [Finset.sum_eq_single (U.p.g i)]
  · rw [if_pos (show U.j.g (U.p.g i) = U.pivot i from rfl), h.one i hi]; norm_num
  · intro k hk hne
    rw [Finset.mem_Ico] at hk
    rw [if_neg (h.once i hi k (by omega) hk.2)]
  · intro hn
    exfalso; apply hn
    rw [Finset.mem_Ico]; exact ⟨le_refl _, h.ne i hi⟩

theorem Echelon.unit {q : ℕ} {U : Csr} {qinv : Array Int} (h : Echelon q U qinv) :
    ∀ j, j < U.m → 0 ≤ qinv.g j → U.entry q (qinv.g j).toNat j = 1 := by
  intro j hj h0
  have := h.lt j hj
  have := h.entry_pivot (i := (qinv.g j).toNat) (by omega)
  rwa [h.loc j hj h0] at this

/-- A combination of the rows of `U` that vanishes on the pivotal columns is trivial. -/
theorem Echelon.coeff_zero {q : ℕ} {U : Csr} {qinv : Array Int} (h : Echelon q U qinv)
    (y : Nat → ZMod q)
    (hy : ∀ i, i < U.n → ∑ k ∈ range U.n, y k * U.entry q k (U.pivot i) = 0) :
    ∀ i, i < U.n → y i = 0 := by
  intro i
  induction i using Nat.strong_induction_on with
  | _ i ih =>
    intro hi
    have := hy i hi
    rw [Finset.sum_eq_single i] at this
    · rwa [h.entry_pivot hi, mul_one] at this
    · intro k hk hne
      have hk := mem_range.mp hk
      rcases Nat.lt_or_ge k i with h1 | h1
      · rw [ih k h1 hk, zero_mul]
      · rw [Csr.entry_eq_zero_of_not_inRow (h.tri i k (by omega) hk), mul_zero]
    · intro h'; exact absurd (mem_range.mpr hi) h'

theorem Echelon.edge_rank {q : ℕ} {U : Csr} {qinv : Array Int} (h : Echelon q U qinv) {a b : Nat}
    (ha : a < U.m) (hE : PEdge U qinv a b) (hne : b ≠ a) (hb : 0 ≤ qinv.g b) :
    qinv.g a < qinv.g b := by
  obtain ⟨h1, h2⟩ := hE
  have l1 := h.lt a ha
  have hbm : b < U.m := h.wfv.toWF.inRow_lt (by omega) h2
  have l2 := h.lt b hbm
  by_contra hc
  rcases Nat.lt_or_ge (qinv.g b).toNat (qinv.g a).toNat with hl | hl
  · have := h.tri _ _ hl (by omega)
    rw [h.loc b hbm hb] at this
    exact this h2
  · have e : qinv.g b = qinv.g a := by omega
    have e1 := h.loc a ha h1
    have e2 := h.loc b hbm hb
    rw [e, e1] at e2
    exact hne e2.symm

theorem Echelon.acyclic {q : ℕ} {U : Csr} {qinv : Array Int} (h : Echelon q U qinv) :
    PAcyclic U qinv := by
  refine PAcyclic.of_rank h.wfv.toWF h.qinvOk
    (fun j => if 0 ≤ qinv.g j then (qinv.g j).toNat else U.n) ?_
  intro a b ha hE hne
  have l1 := h.lt a ha
  have h1 := hE.1
  rw [if_pos h1]
  by_cases hb : 0 ≤ qinv.g b
  · rw [if_pos hb]
    have := h.edge_rank ha hE hne hb
    omega
  · rw [if_neg hb]; omega

theorem Echelon.upperUnit {q : ℕ} {U : Csr} {qinv : Array Int} (h : Echelon q U qinv) :
    UpperUnit q U U.pivot :=
  ⟨fun _ hi => h.pivot_lt hi, fun _ hi => h.entry_pivot hi,
   fun i k hik hk => Csr.entry_eq_zero_of_not_inRow (h.tri i k hik hk)⟩

theorem UpperUnit.congr {q : ℕ} {U : Csr} {f g : Nat → Nat} (h : UpperUnit q U f)
    (e : ∀ i, i < U.n → f i = g i) : UpperUnit q U g :=
  ⟨fun i hi => by rw [← e i hi]; exact h.lt i hi, fun i hi => by rw [← e i hi]; exact h.unit i hi,
   fun i k hik hk => by rw [← e i (by omega)]; exact h.lower i k hik hk⟩

theorem LowerTri.inj {q : ℕ} {L : Csr} {p : Nat → Nat} (h : LowerTri q L p) {i k : Nat}
    (hi : i < L.m) (hk : k < L.m) (e : p i = p k) : i = k := by
  rcases Nat.lt_trichotomy i k with hl | hl | hl
  · have h1 := h.upper i k hl hk
    rw [e] at h1
    exact absurd h1 (h.diag k hk)
  · exact hl
  · have h1 := h.upper k i hl hi
    rw [← e] at h1
    exact absurd h1 (h.diag i hi)

theorem InSpan.congr {q : ℕ} {A : Csr} {v w : Nat → ZMod q} (h : InSpan q A v)
    (e : ∀ c, c < A.m → v c = w c) : InSpan q A w := by
  obtain ⟨y, hy⟩ := h
  exact ⟨y, fun c hc => by rw [hy c hc, e c hc]⟩

theorem InSpan.zero {q : ℕ} {A : Csr} : InSpan q A (fun _ => 0) := ⟨fun _ => 0, by simp⟩

theorem InSpan.add {q : ℕ} {A : Csr} {v w : Nat → ZMod q} (h : InSpan q A v) (h' : InSpan q A w) :
    InSpan q A (fun c => v c + w c) := by
  obtain ⟨y, hy⟩ := h
  obtain ⟨z, hz⟩ := h'
  refine ⟨fun i => y i + z i, fun c hc => ?_⟩
  beta_reduce
  rw [← hy c hc, ← hz c hc, ← Finset.sum_add_distrib]
  refine Finset.sum_congr rfl fun i _ => by ring

theorem InSpan.smul {q : ℕ} {A : Csr} {v : Nat → ZMod q} (a : ZMod q) (h : InSpan q A v) :
    InSpan q A (fun c => a * v c) := by
  obtain ⟨y, hy⟩ := h
  refine ⟨fun i => a * y i, fun c hc => ?_⟩
  beta_reduce
  rw [← hy c hc, Finset.mul_sum]
  refine Finset.sum_congr rfl fun i _ => by ring

theorem InSpan.neg {q : ℕ} {A : Csr} {v : Nat → ZMod q} (h : InSpan q A v) :
    InSpan q A (fun c => - v c) := by
  have := h.smul (-1)
  exact this.congr (fun c _ => by ring)

theorem InSpan.sub {q : ℕ} {A : Csr} {v w : Nat → ZMod q} (h : InSpan q A v) (h' : InSpan q A w) :
    InSpan q A (fun c => v c - w c) :=
  (h.add h'.neg).congr (fun c _ => by ring)

theorem InSpan.sum {q : ℕ} {A : Csr} {ι : Type} (s : Finset ι) (f : ι → Nat → ZMod q)
    (h : ∀ i ∈ s, InSpan q A (f i)) : InSpan q A (fun c => ∑ i ∈ s, f i c) := by
  classical
  induction s using Finset.induction_on with
  | empty => simpa using InSpan.zero
  | insert a s ha ih =>
    have h1 := h a (by simp)
    have h2 := ih (fun i hi => h i (by simp [hi]))
    exact (h1.add h2).congr (fun c _ => by rw [Finset.sum_insert ha])

theorem InSpan.row {q : ℕ} {A : Csr} {i : Nat} (hi : i < A.n) : InSpan q A (A.entry q i) := by
  refine ⟨fun k => if k = i then 1 else 0, fun c _ => ?_⟩
  rw [Finset.sum_eq_single i]
  · simp
  · intro k _ hk; simp [hk]
  · intro hn; exact absurd (mem_range.mpr hi) hn

/-- Spans are transitive. -/
theorem InSpan.trans {q : ℕ} {A B : Csr} (hm : A.m = B.m)
    (h : ∀ i, i < A.n → InSpan q B (A.entry q i)) {v : Nat → ZMod q} (hv : InSpan q A v) :
    InSpan q B v := by
  obtain ⟨y, hy⟩ := hv
  have := InSpan.sum (A := B) (range A.n) (fun i c => y i * A.entry q i c)
    (fun i hi => (h i (mem_range.mp hi)).smul (y i))
  exact this.congr (fun c hc => hy c (by omega))

/-- The rows of `U` are in the row space of `A` as soon as `A = L U` on the pivotal rows. -/
theorem IsFact.span_U {q : ℕ} [Fact q.Prime] {A L U : Csr} {qinv : Array Int}
    {p : Option (Array Nat)} {complete : Bool} (h : IsFact q A L U qinv p complete) :
    ∀ i, i < U.n → InSpan q A (U.entry q i) := by
  intro i
  induction i using Nat.strong_induction_on with
  | _ i ih =>
    intro hi
    have hLm := h.L_m
    have hlt := h.tri.lt i (by omega)
    have hd := h.tri.diag i (by omega)
    have hp := h.prod (permFun p i) (by have := h.L_n; omega) (Or.inr ⟨i, hi, rfl⟩)
    -- L_ii U_i = A_p(i) - sum_{k<i} L_ik U_k
    have h1 : InSpan q A (fun c => A.entry q (permFun p i) c -
        ∑ k ∈ range i, L.entry q (permFun p i) k * U.entry q k c) := by
      refine (InSpan.row (by have := h.L_n; omega)).sub ?_
      exact InSpan.sum _ (fun k c => L.entry q (permFun p i) k * U.entry q k c)
        (fun k hk => (ih k (mem_range.mp hk) (by have := mem_range.mp hk; omega)).smul _)
    refine (h1.smul (L.entry q (permFun p i) i)⁻¹).congr ?_
    intro c hc
    rw [hp c hc]
    have e : ∑ k ∈ range U.n, L.entry q (permFun p i) k * U.entry q k c =
        ∑ k ∈ range (i + 1), L.entry q (permFun p i) k * U.entry q k c := by
      symm
      apply Finset.sum_subset
      · intro k hk; rw [mem_range] at *; omega
      · intro k hk hk'
        rw [mem_range] at *
        rw [h.tri.upper i k (by omega) (by omega), zero_mul]
    rw [e, Finset.sum_range_succ]
    field_simp
    ring

end Spasm
