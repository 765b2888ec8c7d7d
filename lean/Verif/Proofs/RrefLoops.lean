import Verif.Model.RrefLoops
import Verif.Props.Kernel

/-
The final loops of spasm_rref in any order.
-/

namespace Spasm

open Finset Commit

theorem qinv_clear_range (lo k : Nat) (a : Array Int) :
    forN lo k a (fun j a => wr a j (-1)) = qinv_clear (List.range' lo k) a := by
  induction k generalizing lo a with
  | zero => rfl
  | succ k ih =>
    rw [List.range'_succ]
    unfold forN qinv_clear
    exact congrArg _ (funext fun a => ih (lo + 1) a)

theorem qinv_set_range (R : Csr) (lo k : Nat) (a : Array Int) :
    forN lo k a (fun i a => do
      let px ← rd R.p i
      let j ← rd R.j px
      wr a j (i : Int)) = qinv_set R (List.range' lo k) a := by
  induction k generalizing lo a with
  | zero => rfl
  | succ k ih =>
    rw [List.range'_succ]
    unfold forN qinv_set
    simp only [bind_assoc]
    refine congrArg _ (funext fun px => congrArg _ (funext fun j => congrArg _ (funext fun a => ih (lo + 1) a)))

/-- The sequential model. -/
theorem rref_qinv_eq (R : Csr) (rq : Array Int) :
    rref_qinv R rq = rref_qinv_any R rq (List.range R.m) (List.range R.n) := by
  unfold rref_qinv rref_qinv_any forRange
  rw [List.range_eq_range', List.range_eq_range']
  simp only [Nat.sub_zero, qinv_clear_range]
  exact congrArg _ (funext fun a => qinv_set_range R 0 R.n a)

theorem qinv_clear_spec (l : List Nat) (a : Array Int) (h : ∀ j ∈ l, j < a.size) :
    Ok (qinv_clear l a) (fun b => b.size = a.size ∧ (∀ j ∈ l, b.g j = -1) ∧ ∀ j, j ∉ l → b.g j = a.g j) := by
  induction l generalizing a with
  | nil => exact ⟨rfl, fun j hj => (nomatch hj), fun _ _ => rfl⟩
  | cons k l ih =>
    unfold qinv_clear
    rw [Ok_bind, Ok_wr]
    refine ⟨h k (by simp), (ih _ (fun j hj => by rw [size_upd]; exact h j (by simp [hj]))).mono ?_⟩
    rintro b ⟨h1, h2, h3⟩
    refine ⟨by rw [h1, size_upd], fun j hj => ?_, fun j hj => ?_⟩
    · by_cases hl : j ∈ l
      · exact h2 j hl
      · have : j = k := by simpa [hl] using hj
        rw [h3 j hl, this, g_upd_eq _ _ _ (h k (by simp))]
    · simp only [List.mem_cons, not_or] at hj
      rw [h3 j hj.2, g_upd_ne _ _ _ _ hj.1]

theorem qinv_set_spec {R : Csr} (hR : R.WF) (hne : ∀ i, i < R.n → R.p.g i < R.p.g (i + 1))
    (hinj : ∀ i k, i < R.n → k < R.n → R.pivot i = R.pivot k → i = k) (l : List Nat) (a : Array Int)
    (hl : ∀ i ∈ l, i < R.n) (hnd : l.Nodup) (ha : R.m ≤ a.size) :
    Ok (qinv_set R l a) (fun b => b.size = a.size ∧ (∀ i ∈ l, b.g (R.pivot i) = (i : Int)) ∧
      ∀ j, (∀ i ∈ l, R.pivot i ≠ j) → b.g j = a.g j) := by
  induction l generalizing a with
  | nil => exact ⟨rfl, fun j hj => (nomatch hj), fun _ _ => rfl⟩
  | cons k l ih =>
    have hk := hl k (by simp)
    have hps := hR.p_size
    have hlt := hR.row_lt hk (hne k hk)
    have hnz := hR.p_nnz
    have hpm : R.pivot k < R.m := hR.j_lt _ hlt
    unfold qinv_set
    simp only [Ok_bind, Ok_rd, Ok_wr]
    have epiv : R.j.g (R.p.g k) = R.pivot k := rfl
    rw [epiv]
    rw [List.nodup_cons] at hnd
    refine ⟨by omega, by omega, by omega,
      (ih _ (fun i hi => hl i (by simp [hi])) hnd.2 (by rw [size_upd]; exact ha)).mono ?_⟩
    rintro b ⟨h1, h2, h3⟩
    refine ⟨by rw [h1, size_upd], fun i hi => ?_, fun j hj => ?_⟩
    · rcases List.mem_cons.mp hi with rfl | hi
      · rw [h3 _ (fun i' hi' he => hnd.1 (by
          rw [← hinj i' i (hl i' (by simp [hi'])) hk he]; exact hi')), g_upd_eq _ _ _ (by omega)]
      · exact h2 i hi
    · rw [h3 j (fun i hi => hj i (by simp [hi])), g_upd_ne _ _ _ _ (fun e => hj k (by simp) e.symm)]

/-- The order of the iterations is irrelevant. -/
theorem rref_qinv_order {R : Csr} {rq : Array Int} (hR : R.WF) (hne : ∀ i, i < R.n → R.p.g i < R.p.g (i + 1))
    (hinj : ∀ i k, i < R.n → k < R.n → R.pivot i = R.pivot k → i = k) (hs : R.m ≤ rq.size) {l1 l2 : List Nat}
    (h1 : l1.Perm (List.range R.m)) (h2 : l2.Perm (List.range R.n)) :
    rref_qinv_any R rq l1 l2 = rref_qinv R rq := by
  have key : ∀ l1 l2 : List Nat, l1.Perm (List.range R.m) → l2.Perm (List.range R.n) →
      Ok (rref_qinv_any R rq l1 l2) (fun b => b.size = rq.size ∧ (∀ i, i < R.n → b.g (R.pivot i) = (i : Int)) ∧
        (∀ j, j < R.m → (∀ i, i < R.n → R.pivot i ≠ j) → b.g j = -1) ∧ ∀ j, R.m ≤ j → b.g j = rq.g j) := by
    intro l1 l2 h1 h2
    have m1 : ∀ j, j ∈ l1 ↔ j < R.m := fun j => by rw [h1.mem_iff, List.mem_range]
    have m2 : ∀ j, j ∈ l2 ↔ j < R.n := fun j => by rw [h2.mem_iff, List.mem_range]
    unfold rref_qinv_any
    rw [Ok_bind]
    refine (qinv_clear_spec l1 rq (fun j hj => by have := (m1 j).mp hj; omega)).mono ?_
    rintro a ⟨a1, a2, a3⟩
    refine (qinv_set_spec hR hne hinj l2 a (fun i hi => (m2 i).mp hi) (h2.nodup_iff.mpr List.nodup_range)
      (by omega)).mono ?_
    rintro b ⟨b1, b2, b3⟩
    refine ⟨by omega, fun i hi => b2 i ((m2 i).mpr hi), fun j hj hp => ?_, fun j hj => ?_⟩
    · rw [b3 j (fun i hi => hp i ((m2 i).mp hi)), a2 j ((m1 j).mpr hj)]
    · rw [b3 j ?_, a3 j (fun h => by have := (m1 j).mp h; omega)]
      intro i hi e
      have hi := (m2 i).mp hi
      have : R.pivot i < R.m := hR.j_lt _ (hR.row_lt hi (hne i hi))
      omega
  obtain ⟨b, hb, b1, b2, b3, b4⟩ := Ok_iff.mp (key l1 l2 h1 h2)
  obtain ⟨c, hc, c1, c2, c3, c4⟩ := Ok_iff.mp (key _ _ (List.Perm.refl _) (List.Perm.refl _))
  rw [rref_qinv_eq, hb, hc]
  congr 1
  refine array_ext_g (by omega) fun j _ => ?_
  by_cases hj : j < R.m
  · by_cases hp : ∃ i, i < R.n ∧ R.pivot i = j
    · obtain ⟨i, hi, rfl⟩ := hp
      rw [b2 i hi, c2 i hi]
    · have hp : ∀ i, i < R.n → R.pivot i ≠ j := fun i hi e => hp ⟨i, hi, e⟩
      rw [b3 j hj hp, c3 j hj hp]
  · rw [b4 j (by omega), c4 j (by omega)]

end Spasm
