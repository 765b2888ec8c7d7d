import Verif.Proofs.Rows
import Verif.Spec.Kernel
import Mathlib.LinearAlgebra.LinearIndependent.Basic

namespace Spasm

open Finset Commit

/-- Transpose of a matrix with values modulo `q`. -/
theorem transposeV (jk : Junk) {q : ℕ} {A : Csr} (hA : A.WFV q) :
    Ok (transpose jk A true) (fun T => T.WFV q ∧ T.n = A.m ∧ T.m = A.n ∧
      (∀ i j, i < A.n → j < A.m → T.entry q j i = A.entry q i j) ∧
      (∀ i j, j < A.m → T.InRow j i → i < A.n ∧ A.InRow i j)) := by
  refine (transpose_spec jk hA.toWF true).mono ?_
  rintro T ⟨h1, h2, h3, h4, h5, h6, h7, h8, h9⟩
  simp only [if_true] at h4
  refine ⟨?_, h2, h3, ?_, ?_⟩
  · apply h1.toWFV (h7 q hA.good)
    · intro h
      rw [h9] at h
      rw [h5, hA.has_x h]; rfl
    · intro j hj e he
      rw [h2] at hj
      rw [h4 j hj, List.mem_flatMap] at he
      obtain ⟨i, hi, he⟩ := he
      rw [List.mem_map] at he
      obtain ⟨e', he', rfl⟩ := he
      have := hA.mem_row_small (List.mem_range.mp hi) (List.mem_filter.mp he').1
      exact this
  · intro i j hi hj
    rw [Csr.entry_eq_lsum, Csr.entry_eq_lsum, h4 j hj, ← flat_eq_flatMap, lsum_flat]
    simp only [lsum_map_const]
    rw [Finset.sum_ite_eq' (range A.n) i, if_pos (mem_range.mpr hi)]
  · intro i j hj hin
    rw [Csr.inRow_iff, h4 j hj] at hin
    obtain ⟨e, he, rfl⟩ := hin
    rw [List.mem_flatMap] at he
    obtain ⟨i, hi, he⟩ := he
    rw [List.mem_map] at he
    obtain ⟨e', he', rfl⟩ := he
    rw [List.mem_filter] at he'
    refine ⟨List.mem_range.mp hi, ?_⟩
    rw [Csr.inRow_iff]
    exact ⟨e', he'.1, by simpa using he'.2⟩

theorem Echelon.pivot_inj {q : ℕ} {U : Csr} {qinv : Array Int} (h : Echelon q U qinv) {i k : Nat}
    (hi : i < U.n) (hk : k < U.n) (he : U.pivot i = U.pivot k) : i = k := by
  have a := h.piv i hi
  have b := h.piv k hk
  rw [he] at a
  omega

/-- The pivotal columns are the images of the rows. -/
theorem Echelon.image_pivot {q : ℕ} {U : Csr} {qinv : Array Int} (h : Echelon q U qinv) :
    (range U.n).image U.pivot = (range U.m).filter fun j => 0 ≤ qinv.g j := by
  ext j
  rw [Finset.mem_image, Finset.mem_filter]
  constructor
  · rintro ⟨i, hi, rfl⟩
    have hi := mem_range.mp hi
    exact ⟨mem_range.mpr (h.pivot_lt hi), by rw [h.piv i hi]; omega⟩
  · rintro ⟨h1, h2⟩
    have h1 := mem_range.mp h1
    have := h.lt j h1
    exact ⟨(qinv.g j).toNat, mem_range.mpr (by omega), h.loc j h1 h2⟩

theorem Echelon.card_piv {q : ℕ} {U : Csr} {qinv : Array Int} (h : Echelon q U qinv) :
    ((range U.m).filter fun j => 0 ≤ qinv.g j).card = U.n := by
  rw [← h.image_pivot, Finset.card_image_of_injOn, card_range]
  intro a ha b hb hab
  exact h.pivot_inj (mem_range.mp ha) (mem_range.mp hb) hab

theorem Echelon.card_nonpiv {q : ℕ} {U : Csr} {qinv : Array Int} (h : Echelon q U qinv) :
    ((range U.m).filter fun j => ¬ 0 ≤ qinv.g j).card + U.n = U.m := by
  have := Finset.card_filter_add_card_filter_not (s := range U.m) (fun j => 0 ≤ qinv.g j)
  rw [h.card_piv, card_range] at this
  omega

theorem Echelon.n_le {q : ℕ} {U : Csr} {qinv : Array Int} (h : Echelon q U qinv) : U.n ≤ U.m := by
  have := h.card_nonpiv; omega

theorem kernel_utqinv_spec (jk : Junk) {q : ℕ} {U : Csr} {qinv : Array Int} (h : Echelon q U qinv) :
    Ok (kernel_utqinv jk U.n U.m qinv) (fun a => a.size = U.n ∧
      ∀ i, i < U.n → a.g i = (U.pivot i : Int)) := by
  unfold kernel_utqinv
  have hs := h.size
  refine Ok_forRange_imp (I := fun j (a : Array Int) => a.size = U.n ∧
      ∀ i, i < U.n → U.pivot i < j → a.g i = (U.pivot i : Int)) (Nat.zero_le _)
    ⟨by simp, fun i _ h => by omega⟩ ?_ ?_
  · rintro j a - hj ⟨h1, h2⟩
    simp only [Ok_bind, Ok_rd]
    refine ⟨by omega, ?_⟩
    have hlt := h.lt j hj
    by_cases h0 : 0 ≤ qinv.g j
    · rw [if_pos h0]
      simp only [Ok_wr]
      refine ⟨by omega, by simpa using h1, ?_⟩
      intro i hi hij
      by_cases he : i = (qinv.g j).toNat
      · rw [he, g_upd_eq _ _ _ (by omega), h.loc j hj h0]
      · rw [g_upd_ne _ _ _ _ he]
        refine h2 i hi ?_
        by_contra hc
        have hp : U.pivot i = j := by omega
        have := h.piv i hi
        rw [hp] at this
        omega
    · rw [if_neg h0, Ok_ok]
      refine ⟨h1, fun i hi hij => h2 i hi ?_⟩
      by_contra hc
      have hp : U.pivot i = j := by omega
      have := h.piv i hi
      rw [hp] at this
      omega
  · rintro a ⟨h1, h2⟩
    exact ⟨h1, fun i hi => h2 i hi (h.pivot_lt hi)⟩

/-- A row of the kernel matrix. -/
structure KernelRow (q : ℕ) (U : Csr) (qinv : Array Int) (j : Nat) (es : List (Nat × Int)) :
    Prop where
  j_lt : j < U.m
  j_np : qinv.g j < 0
  ok : ∀ e ∈ es, e.1 < U.m ∧ (e.1 = j ∨ 0 ≤ qinv.g e.1) ∧ Small q e.2 ∧ e.2 ≠ 0
  nodup : (es.map Prod.fst).Nodup
  self : lsum q es j = -1
  ker : ∀ i, i < U.n → ∑ c ∈ range U.m, U.entry q i c * lsum q es c = 0

theorem kernel_row_spec {q : ℕ} {U Ut : Csr} {qinv utqinv : Array Int} (h : Echelon q U qinv)
    (hT : Ut.WFV q) (hTn : Ut.n = U.m) (hTm : Ut.m = U.n)
    (hTe : ∀ i j, i < U.n → j < U.m → Ut.entry q j i = U.entry q i j)
    (hTr : ∀ i j, j < U.m → Ut.InRow j i → i < U.n ∧ U.InRow i j)
    (hus : utqinv.size = U.n) (hu : ∀ i, i < U.n → utqinv.g i = (U.pivot i : Int))
    {j : Nat} (hj : j < U.m) (hjn : qinv.g j < 0) {w : Dfs} (hw : w.Ready U.n) {x : Array Int}
    (hx : U.n ≤ x.size) :
    Ok (kernel_row U.n Ut utqinv j w x) (fun o => o.1.Ready U.n ∧ U.n ≤ o.2.1.size ∧
      ∃ es, KernelRow q U qinv j es ∧ RowJob kernelCfg o.2.2 es) := by
  have h2 := h.wfv.good.two_le
  have hqi : QinvOk Ut utqinv := by
    refine ⟨by omega, ?_⟩
    intro i hi
    rw [hTm] at hi
    rw [hu i hi, hTn]
    have := h.pivot_lt hi
    omega
  have hac : PAcyclic Ut utqinv := by
    refine PAcyclic.of_rank hT.toWF hqi (fun i => U.n - i) ?_
    rintro a b ha ⟨-, hE⟩ hne
    rw [hTm] at ha
    rw [hu a ha] at hE
    obtain ⟨hb, hr⟩ := hTr b _ (h.pivot_lt ha) hE
    have : ¬ a < b := fun hab => h.tri a b hab hb hr
    omega
  have hunit : ∀ i, i < Ut.m → 0 ≤ utqinv.g i → Ut.entry q (utqinv.g i).toNat i = 1 := by
    intro i hi _
    rw [hTm] at hi
    rw [hu i hi]
    have e : ((U.pivot i : Int)).toNat = U.pivot i := by omega
    rw [e, hTe i _ hi (h.pivot_lt hi), h.entry_pivot hi]
  unfold kernel_row
  rw [Ok_bind]
  refine (sparse_triangular_solve_spec hT hT (le_refl _) hqi hac hunit (by omega)
    (by rw [hTm]; exact hw) (by omega)).mono ?_
  rintro ⟨w', x'⟩ ⟨a1, a2, a3, a4, a5, -, a7, -, v, a9, a10, a11⟩
  simp only at a1 a2 a3 a4 a5 a7 a9 a10 a11
  rw [hTm] at a1 a2 a4 a5 a7 a9 a10 a11
  have hxs := a1.xs
  simp only [Ok_bind]
  refine Ok_forRange_cols w' a2 (fun l s =>
      s = (l.filter fun i => decide (x'.g i ≠ 0)).length + 1) rfl ?_ ?_
  · rintro px l s h1 h2 rfl
    have := a4 px h1 h2
    simp only [Ok_bind, Ok_rd]
    refine ⟨by omega, by omega, ?_⟩
    rw [List.filter_append]
    by_cases h3 : x'.g (w'.xj.g px) = 0
    · simp [h3]
    · simp [h3]
  rintro s rfl
  refine Ok_forRange_cols w' a2 (fun l s =>
      s = (enc (fun _ => 0) (rowIts ((j, -1) :: (l.filter fun i => decide (x'.g i ≠ 0)).map
        fun i => (U.pivot i, x'.g i))), (l.filter fun i => decide (x'.g i ≠ 0)).length + 1)) rfl ?_ ?_
  · rintro px l s h1 h2 rfl
    have := a4 px h1 h2
    simp only [Ok_bind, Ok_rd]
    refine ⟨by omega, by omega, ?_⟩
    rw [List.filter_append, List.map_append, ← List.cons_append]
    by_cases h3 : x'.g (w'.xj.g px) = 0
    · simp [h3]
    · rw [if_pos h3]
      simp only [Ok_bind, Ok_rd, Ok_ok]
      refine ⟨by omega, ?_⟩
      have e1 : ([w'.xj.g px].filter fun i => decide (x'.g i ≠ 0)) = [w'.xj.g px] := by simp [h3]
      rw [e1, List.map_singleton, enc_rowIts_append, hu _ this]
      simp
  rintro s rfl
  rw [Ok_ok]
  refine ⟨a1, by show U.n ≤ x'.size; omega, ?_⟩
  set l := w'.list U.n with hl
  have hnd : l.Nodup := Dfs.list_nodup a5
  have hlm : ∀ i ∈ l, i < U.n := by
    intro i hi
    rw [hl, Dfs.mem_list] at hi
    obtain ⟨t, h1, h2, rfl⟩ := hi
    exact a4 t h1 h2
  have hjp : ∀ i, i < U.n → U.pivot i ≠ j := by
    intro i hi he
    have := h.piv i hi
    rw [he] at this
    omega
  set es' := (l.filter fun i => decide (x'.g i ≠ 0)).map fun i => (U.pivot i, x'.g i) with hes'
  have hes : ∀ e ∈ es', ∃ i, i < U.n ∧ e.1 = U.pivot i ∧ Bal q e.2 ∧ e.2 ≠ 0 := by
    intro e he
    rw [hes', List.mem_map] at he
    obtain ⟨i, hi, rfl⟩ := he
    rw [List.mem_filter] at hi
    refine ⟨i, hlm i hi.1, rfl, a7 i (by rw [hl, Dfs.mem_list] at hi; exact hi.1), ?_⟩
    simpa using hi.2
  have hself : lsum q es' j = 0 := by
    refine List.sum_eq_zero ?_
    intro z hz
    rw [List.mem_map] at hz
    obtain ⟨e, he, rfl⟩ := hz
    obtain ⟨i, hi, h1, -⟩ := hes e he
    rw [if_neg]
    rw [h1]; exact hjp i hi
  have hes'c : ∀ c, lsum q es' c = ∑ i ∈ range U.n, if U.pivot i = c then v i else 0 := by
    intro c
    rw [hes', lsum_map_nodup (m := U.n) _ _ _ _ (hnd.filter _)
      (fun i hi => hlm i (List.mem_filter.mp hi).1)]
    refine Finset.sum_congr rfl fun i hi => ?_
    by_cases h1 : U.pivot i = c
    · rw [if_pos h1]
      by_cases h3 : w'.Pat U.n i
      · rw [a9 i h3]
        by_cases h4 : x'.g i = 0
        · rw [h4]; simp
        · rw [if_pos]
          refine ⟨?_, h1⟩
          rw [List.mem_filter]
          exact ⟨Dfs.mem_list.mpr h3, by simp [h4]⟩
      · rw [a10 i h3, if_neg]
        rw [List.mem_filter]
        exact fun h => h3 (Dfs.mem_list.mp h.1.1)
    · rw [if_neg h1, if_neg (fun h => h1 h.2)]
  refine ⟨(j, -1) :: es', ⟨hj, hjn, ?_, ?_, ?_, ?_⟩, rfl, ?_, le_refl _, fun k => ?_⟩
  · intro e he
    rw [List.mem_cons] at he
    rcases he with rfl | he
    · exact ⟨hj, .inl rfl, (small_one h2).neg, by simp⟩
    · obtain ⟨i, hi, h3, h4, h5⟩ := hes e he
      rw [h3, h.piv i hi]
      exact ⟨h.pivot_lt hi, .inr (by omega), h4.small, h5⟩
  · rw [List.map_cons, List.nodup_cons]
    constructor
    · intro hm
      rw [List.mem_map] at hm
      obtain ⟨e, he, he'⟩ := hm
      obtain ⟨i, hi, h3, -⟩ := hes e he
      exact hjp i hi (by rw [← h3, he'])
    · rw [hes', List.map_map]
      rw [List.nodup_map_iff_inj_on (hnd.filter _)]
      intro a ha b hb hab
      exact h.pivot_inj (hlm a (List.mem_filter.mp ha).1) (hlm b (List.mem_filter.mp hb).1) hab
  · rw [lsum_cons, hself]; simp
  · intro i hi
    have e1 : ∀ c ∈ range U.m, U.entry q i c * lsum q ((j, -1) :: es') c =
        (if j = c then - U.entry q i c else 0) +
          ∑ k ∈ range U.n, if U.pivot k = c then U.entry q i c * v k else 0 := by
      intro c _
      rw [lsum_cons, hes'c, mul_add, Finset.mul_sum]
      congr 1
      · split <;> simp
      · refine Finset.sum_congr rfl fun k _ => ?_
        split <;> simp
    rw [Finset.sum_congr rfl e1, Finset.sum_add_distrib, Finset.sum_ite_eq,
      if_pos (mem_range.mpr hj), Finset.sum_comm]
    have e2 : ∀ k ∈ range U.n, (∑ c ∈ range U.m, if U.pivot k = c then U.entry q i c * v k else 0) =
        v k * U.entry q i (U.pivot k) := by
      intro k hk
      rw [Finset.sum_ite_eq, if_pos (mem_range.mpr (h.pivot_lt (mem_range.mp hk))), mul_comm]
    rw [Finset.sum_congr rfl e2]
    have e3 := a11 i hi
    rw [hTe i j hi hj, hu i hi, if_neg (by omega), zero_add] at e3
    rw [e3, neg_add_eq_zero]
    refine Finset.sum_congr rfl fun k hk => ?_
    have hk := mem_range.mp hk
    have e : ((U.pivot k : Int)).toNat = U.pivot k := by omega
    rw [hu k hk, if_pos (by omega), e, hTe i _ hi (h.pivot_lt hk)]
  · show _ = _
    rw [List.length_cons, hes', List.length_map]
  · show _ ≤ 2 * k + _
    omega

theorem kernel_rows_spec {q : ℕ} {U Ut : Csr} {qinv utqinv : Array Int} (h : Echelon q U qinv)
    (hT : Ut.WFV q) (hTn : Ut.n = U.m) (hTm : Ut.m = U.n)
    (hTe : ∀ i j, i < U.n → j < U.m → Ut.entry q j i = U.entry q i j)
    (hTr : ∀ i j, j < U.m → Ut.InRow j i → i < U.n ∧ U.InRow i j)
    (hus : utqinv.size = U.n) (hu : ∀ i, i < U.n → utqinv.g i = (U.pivot i : Int)) :
    ∀ js : List Nat, (∀ j ∈ js, j < U.m) → ∀ (w : Dfs) (x : Array Int), w.Ready U.n → U.n ≤ x.size →
    Ok (kernel_rows U.n Ut qinv utqinv js w x) (fun jobs => List.Forall₂ (fun j job =>
      ∃ es, KernelRow q U qinv j es ∧ RowJob kernelCfg job es)
      (js.filter fun j => decide (¬ 0 ≤ qinv.g j)) jobs) := by
  intro js
  induction js with
  | nil => intro _ w x _ _; simp [kernel_rows]
  | cons j js ih =>
    intro hjs w x hw hx
    have hj := hjs j (by simp)
    have hs := h.size
    have hjs' : ∀ j ∈ js, j < U.m := fun i hi => hjs i (by simp [hi])
    simp only [kernel_rows, Ok_bind, Ok_rd]
    refine ⟨by omega, ?_⟩
    by_cases h0 : 0 ≤ qinv.g j
    · rw [if_pos h0, List.filter_cons_of_neg (by simpa using h0)]
      exact ih hjs' w x hw hx
    · rw [if_neg h0, List.filter_cons_of_pos (by simpa using h0)]
      simp only [Ok_bind]
      refine (kernel_row_spec h hT hTn hTm hTe hTr hus hu hj (by omega) hw hx).mono ?_
      rintro ⟨w', x', job⟩ ⟨h1, h2, h3⟩
      refine (ih hjs' w' x' h1 h2).mono ?_
      intro jobs hjobs
      exact .cons h3 hjobs

theorem kernel_pre_spec (jk : Junk) {q : ℕ} {U : Csr} {qinv : Array Int} (h : Echelon q U qinv) :
    Ok (kernel_pre jk U qinv) (fun o => (∀ js : List Nat, (∀ j ∈ js, j < U.m) →
      Ok (kernel_thread jk U.n U.m o.1 qinv o.2.2 js) (fun jobs => List.Forall₂ (fun j job =>
        ∃ es, KernelRow q U qinv j es ∧ RowJob kernelCfg job es)
        (js.filter fun j => decide (¬ 0 ≤ qinv.g j)) jobs)) ∧
      Fresh o.2.1 (U.m - U.n) U.m (U.p.g U.n) U.F.p true ∧ o.2.1.F.Good q) := by
  unfold kernel_pre
  have hle := h.n_le
  simp only [Ok_bind, Ok_cassert, nnz, Ok_rd]
  refine ⟨by simpa using hle, (transposeV jk h.wfv).mono ?_⟩
  rintro Ut ⟨t1, t2, t3, t4, t5⟩
  refine ⟨h.wfv.p_size, (csr_alloc_spec jk _ _ _ _ h.wfv.field_ok).mono ?_⟩
  rintro K ⟨k1, k2⟩
  refine (kernel_utqinv_spec jk h).mono ?_
  rintro a ⟨a1, a2⟩
  rw [Ok_ok]
  refine ⟨?_, k1, k2 q h.wfv.good⟩
  intro js hjs
  refine kernel_rows_spec h t1 t2 t3 t4 t5 a1 a2 js hjs _ _ ?_ (by simpa using hle)
  exact ⟨by simp, by simp, by simp, fun j hj => by rw [g_mkArr _ _ _ hj]⟩

/-- Number of non-pivotal iterations. -/
theorem nonpiv_rows {q : ℕ} {U : Csr} {qinv : Array Int} (h : Echelon q U qinv) {T : Nat}
    {cols : Fin T → List Nat} (hc : ∑ t, (cols t : Multiset Nat) = Multiset.range U.m) :
    ∑ t, (((cols t).filter fun j => decide (¬ 0 ≤ qinv.g j) : List Nat) : Multiset Nat) =
      ((range U.m).filter fun j => ¬ 0 ≤ qinv.g j).val ∧
    Multiset.card (∑ t, (((cols t).filter fun j => decide (¬ 0 ≤ qinv.g j) : List Nat) :
      Multiset Nat)) = U.m - U.n := by
  have key : ∑ t, (((cols t).filter fun j => decide (¬ 0 ≤ qinv.g j) : List Nat) : Multiset Nat) =
      ((range U.m).filter fun j => ¬ 0 ≤ qinv.g j).val := by
    rw [Finset.filter_val, Finset.range_val, ← hc]
    have : ∀ S : Finset (Fin T), Multiset.filter (fun j => ¬ 0 ≤ qinv.g j)
        (∑ t ∈ S, (cols t : Multiset Nat)) = ∑ t ∈ S,
          (((cols t).filter fun j => decide (¬ 0 ≤ qinv.g j) : List Nat) : Multiset Nat) := by
      intro S
      induction S using Finset.induction_on with
      | empty => simp
      | insert a S ha ih =>
        rw [Finset.sum_insert ha, Finset.sum_insert ha, Multiset.filter_add, ih,
          Multiset.filter_coe]
    exact (this univ).symm
  refine ⟨key, ?_⟩
  rw [key]
  have := h.card_nonpiv
  have e : Multiset.card ((range U.m).filter fun j => ¬ 0 ≤ qinv.g j).val =
      ((range U.m).filter fun j => ¬ 0 ≤ qinv.g j).card := rfl
  omega

/-- The rows of `K` form a basis of the kernel. -/
theorem isKernel_of_rows {q : ℕ} {U K : Csr} {qinv : Array Int} (h : Echelon q U qinv)
    (hn : K.n + U.n = U.m) (hm : K.m = U.m) (f : Nat → Nat)
    (hf : ∀ k, k < K.n → f k < U.m ∧ qinv.g (f k) < 0)
    (hinj : ∀ k l, k < K.n → l < K.n → f k = f l → k = l)
    (hsurj : ∀ j, j < U.m → qinv.g j < 0 → ∃ k, k < K.n ∧ f k = j)
    (hself : ∀ k, k < K.n → K.entry q k (f k) = -1)
    (hoff : ∀ k c, k < K.n → c < U.m → qinv.g c < 0 → c ≠ f k → K.entry q k c = 0)
    (hker : ∀ k i, k < K.n → i < U.n → ∑ c ∈ range U.m, U.entry q i c * K.entry q k c = 0) :
    IsKernel q U K := by
  have hoff' : ∀ k l, k < K.n → l < K.n → k ≠ l → K.entry q k (f l) = 0 := by
    intro k l hk hl hne
    refine hoff k (f l) hk (hf l hl).1 (hf l hl).2 ?_
    intro he
    exact hne (hinj k l hk hl he.symm)
  refine ⟨hn, hm, ?_, ?_⟩
  · rw [Fintype.linearIndependent_iff]
    intro g hg k
    have := congrFun hg ⟨f k, (hf k k.2).1⟩
    rw [Finset.sum_apply, Finset.sum_eq_single k] at this
    · simp only [Pi.smul_apply, smul_eq_mul, Csr.vecs, Pi.zero_apply] at this
      rw [hself k k.2, mul_neg, mul_one, neg_eq_zero] at this
      exact this
    · intro l _ hne
      simp only [Pi.smul_apply, smul_eq_mul, Csr.vecs]
      rw [hoff' l k l.2 k.2 (fun e => hne (Fin.ext e)), mul_zero]
    · intro hk; exact absurd (mem_univ _) hk
  · apply le_antisymm
    · rw [Submodule.span_le]
      rintro z ⟨k, rfl⟩
      rw [SetLike.mem_coe, LinearMap.mem_ker]
      funext i
      simp only [Matrix.mulVecLin_apply, Matrix.mulVec, dotProduct, Csr.toMat, Csr.vecs,
        Pi.zero_apply]
      rw [← hker k i k.2 i.2, Finset.sum_range]
    · intro z hz
      rw [LinearMap.mem_ker] at hz
      -- z plus the combination of the rows with the coefficients on the non-pivotal columns
      set y : Fin U.m → ZMod q := z + ∑ k : Fin K.n, z ⟨f k, (hf k k.2).1⟩ • K.vecs q K.n U.m k
        with hy
      have hcomb : ∑ k : Fin K.n, z ⟨f k, (hf k k.2).1⟩ • K.vecs q K.n U.m k ∈
          Submodule.span (ZMod q) (Set.range (K.vecs q K.n U.m)) :=
        Submodule.sum_mem _ fun k _ => Submodule.smul_mem _ _ (Submodule.subset_span ⟨k, rfl⟩)
      have hynp : ∀ c : Fin U.m, qinv.g c < 0 → y c = 0 := by
        intro c hc
        obtain ⟨k, hk, hkc⟩ := hsurj c c.2 hc
        have hc' : c = ⟨f k, (hf k hk).1⟩ := Fin.ext hkc.symm
        rw [hy, hc', Pi.add_apply, Finset.sum_apply, Finset.sum_eq_single (⟨k, hk⟩ : Fin K.n)]
        · simp only [Pi.smul_apply, smul_eq_mul, Csr.vecs]
          rw [hself k hk]; ring
        · intro l _ hne
          simp only [Pi.smul_apply, smul_eq_mul, Csr.vecs]
          rw [hoff' l k l.2 hk (fun e => hne (Fin.ext e)), mul_zero]
        · intro hk; exact absurd (mem_univ _) hk
      have hyk : ∀ i, i < U.n → ∑ c : Fin U.m, U.entry q i c * y c = 0 := by
        intro i hi
        have hz' := congrFun hz ⟨i, hi⟩
        simp only [Matrix.mulVecLin_apply, Matrix.mulVec, dotProduct, Csr.toMat,
          Pi.zero_apply] at hz'
        simp only [hy, Pi.add_apply, mul_add, Finset.sum_add_distrib, Finset.sum_apply,
          Pi.smul_apply, smul_eq_mul, Csr.vecs]
        rw [hz', zero_add]
        simp only [Finset.mul_sum]
        rw [Finset.sum_comm]
        refine Finset.sum_eq_zero fun k _ => ?_
        have := hker k i k.2 hi
        rw [Finset.sum_range] at this
        have e : ∀ c : Fin U.m, U.entry q i c * (z ⟨f k, (hf k k.2).1⟩ * K.entry q k c) =
            z ⟨f k, (hf k k.2).1⟩ * (U.entry q i c * K.entry q k c) := fun c => by ring
        simp only [e]
        rw [← Finset.mul_sum, this, mul_zero]
      have hyp : ∀ d i, i < U.n → i + d + 1 = U.n → ∀ hi : U.pivot i < U.m,
          y ⟨U.pivot i, hi⟩ = 0 := by
        intro d
        induction d using Nat.strong_induction_on with
        | _ d ih =>
          intro i hi hd hpi
          have := hyk i hi
          rw [Finset.sum_eq_single (⟨U.pivot i, hpi⟩ : Fin U.m)] at this
          · rwa [h.entry_pivot hi, one_mul] at this
          · intro c _ hne
            by_cases hc : qinv.g c < 0
            · rw [hynp c hc, mul_zero]
            · have hlt := h.lt c c.2
              have hloc := h.loc c c.2 (by omega)
              set k := (qinv.g c).toNat with hk
              have hkn : k < U.n := by omega
              rcases Nat.lt_trichotomy k i with h1 | h1 | h1
              · have : U.entry q i c = 0 := by
                  rw [← hloc]
                  exact Csr.entry_eq_zero_of_not_inRow (h.tri k i h1 hi)
                rw [this, zero_mul]
              · exact absurd (Fin.ext (by simp only; rw [← hloc, h1])) hne
              · have := ih (U.n - k - 1) (by omega) k hkn (by omega) (by rw [hloc]; exact c.2)
                have hcc : c = ⟨U.pivot k, by rw [hloc]; exact c.2⟩ := Fin.ext hloc.symm
                rw [hcc, this, mul_zero]
          · intro hk; exact absurd (mem_univ _) hk
      have hy0 : y = 0 := by
        funext c
        by_cases hc : qinv.g c < 0
        · exact hynp c hc
        · have hlt := h.lt c c.2
          have hloc := h.loc c c.2 (by omega)
          have := hyp (U.n - (qinv.g c).toNat - 1) (qinv.g c).toNat (by omega) (by omega)
            (by rw [hloc]; exact c.2)
          have hcc : c = ⟨U.pivot (qinv.g c).toNat, by rw [hloc]; exact c.2⟩ := Fin.ext hloc.symm
          rw [hcc]; exact this
      rw [hy0] at hy
      have : z = - ∑ k : Fin K.n, z ⟨f k, (hf k k.2).1⟩ • K.vecs q K.n U.m k :=
        eq_neg_of_add_eq_zero_left hy.symm
      rw [this]
      exact Submodule.neg_mem _ hcomb

/-- The result of the parallel construction. -/
theorem kernel_final (jk : Junk) {q : ℕ} {U : Csr} {qinv : Array Int} (h : Echelon q U qinv)
    {T : Nat} {cols : Fin T → List Nat} (hc : ∑ t, (cols t : Multiset Nat) = Multiset.range U.m)
    {jobs : Fin T → List Job} (hjobs : ∀ t, List.Forall₂ (fun j job =>
      ∃ es, KernelRow q U qinv j es ∧ RowJob kernelCfg job es)
      ((cols t).filter fun j => decide (¬ 0 ≤ qinv.g j)) (jobs t))
    {K0 : Csr} {size : Nat} (hK0 : Fresh K0 (U.m - U.n) U.m size U.F.p true) (hF : K0.F.Good q)
    {s : St T} (hr : Reach kernelCfg jk.int (rows_init K0 U.m jobs) s) (hf : s.Finished) :
    (s.toCsr K0.n K0.m K0.F).WFV q ∧ (s.toCsr K0.n K0.m K0.F).NoDup ∧
      (s.toCsr K0.n K0.m K0.F).NoZero ∧ IsKernel q U (s.toCsr K0.n K0.m K0.F) := by
  obtain ⟨c1, c2⟩ := nonpiv_rows h hc
  obtain ⟨σ, R, hσ, hσl, hP, hwf, hrow⟩ := rows_final (cfg := kernelCfg) rfl rfl hjobs c2
    (Nat.sub_le _ _) hK0 h.wfv.field_ok (fun i es hk e he => (hk.ok e he).1) hr hf
  set K := s.toCsr K0.n K0.m K0.F with hK
  have hKn : K.n = U.m - U.n := hK0.n_eq
  have hKm : K.m = U.m := hK0.m_eq
  have hle := h.n_le
  have hnd : σ.Nodup := by
    have : (σ : Multiset Nat).Nodup := by rw [hσ, c1]; exact Finset.nodup _
    exact this
  have hent : ∀ k, k < K.n → ∀ c, K.entry q k c = lsum q (R k) c := by
    intro k hk c
    rw [K.entry_eq_lsum, hrow k (by omega)]
  refine ⟨?_, ?_, ?_, ?_⟩
  · refine hwf.toWFV hF (fun _ => rfl) ?_
    intro k hk e he
    rw [hrow k (by omega)] at he
    exact ((hP k (by omega)).ok e he).2.2.1
  · rw [nodup_row_iff]
    intro k hk
    rw [hrow k (by omega)]
    exact (hP k (by omega)).nodup
  · rw [noZero_iff hwf]
    intro k hk e he
    rw [hrow k (by omega)] at he
    exact ((hP k (by omega)).ok e he).2.2.2
  · refine isKernel_of_rows h (by omega) hKm (fun k => σ.getD k 0) ?_ ?_ ?_ ?_ ?_ ?_
    · intro k hk
      exact ⟨(hP k (by omega)).j_lt, (hP k (by omega)).j_np⟩
    · intro k l hk hl he
      rw [getD_lt _ _ (by omega), getD_lt _ _ (by omega)] at he
      exact (List.Nodup.getElem_inj_iff hnd).mp he
    · intro j hj hjn
      have : j ∈ (σ : Multiset Nat) := by
        rw [hσ, c1, Finset.mem_val, Finset.mem_filter]
        exact ⟨mem_range.mpr hj, by omega⟩
      obtain ⟨k, hk, rfl⟩ := List.getElem_of_mem (Multiset.mem_coe.mp this)
      exact ⟨k, by omega, getD_lt _ _ hk⟩
    · intro k hk
      rw [hent k hk]; exact (hP k (by omega)).self
    · intro k c hk hcm hcn hne
      rw [hent k hk]
      refine List.sum_eq_zero ?_
      intro z hz
      rw [List.mem_map] at hz
      obtain ⟨e, he, rfl⟩ := hz
      rw [if_neg]
      rintro rfl
      rcases ((hP k (by omega)).ok e he).2.1 with h1 | h1
      · exact hne h1
      · omega
    · intro k i hk hi
      rw [← (hP k (by omega)).ker i hi]
      refine Finset.sum_congr rfl fun c _ => ?_
      rw [hent k hk]

end Spasm
