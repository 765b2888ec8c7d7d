import Verif.Proofs.Pattern
import Verif.Spec.Schur

namespace Spasm

open Finset

/-- What is computed for row `r` of `A`: the entries of `S` and those of `L`. -/
structure SchurParts (q : ℕ) (A U : Csr) (qinv : Array Int) (r : Nat) (es ts : List (Nat × Int)) :
    Prop where
  es_ok : ∀ e ∈ es, e.1 < A.m ∧ qinv.g e.1 < 0 ∧ Bal q e.2 ∧ e.2 ≠ 0
  es_nodup : (es.map Prod.fst).Nodup
  ts_ok : ∀ e ∈ ts, e.1 < U.n ∧ Bal q e.2 ∧ e.2 ≠ 0
  es_len : es.length ≤ A.m
  ts_len : ts.length ≤ A.m
  ts_nodup : (ts.map Prod.fst).Nodup
  eq : ∀ c, c < A.m → A.entry q r c = lsum q es c + ∑ i ∈ range U.n, lsum q ts i * U.entry q i c

/-- The part of row `j` on the non-pivotal columns. -/
def solveE (qinv x : Array Int) (l : List Nat) : List (Nat × Int) :=
  (l.filter fun j => decide (x.g j ≠ 0 ∧ qinv.g j < 0)).map fun j => (j, x.g j)

/-- The coefficients on the rows of `U`. -/
def solveT (qinv x : Array Int) (l : List Nat) : List (Nat × Int) :=
  (l.filter fun j => decide (x.g j ≠ 0 ∧ 0 ≤ qinv.g j)).map fun j => ((qinv.g j).toNat, x.g j)

/-- The result of the sparse triangular solve, as two lists. -/
theorem sparse_solve_parts {q : ℕ} {A U : Csr} {qinv : Array Int} (hA : A.WFV q)
    (hE : Echelon q U qinv) (hm : U.m = A.m) {r : Nat} (hr : r < A.n) {w : Dfs} (hw : w.Ready A.m)
    {x : Array Int} (hx : A.m ≤ x.size) :
    Ok (sparse_triangular_solve U A r w x qinv) (fun o => o.1.Ready A.m ∧ o.1.top ≤ A.m ∧
      o.2.size = x.size ∧ (∀ t, o.1.top ≤ t → t < A.m → o.1.xj.g t < A.m) ∧
      (o.1.list A.m).Nodup ∧
      SchurParts q A U qinv r (solveE qinv o.2 (o.1.list A.m)) (solveT qinv o.2 (o.1.list A.m))) := by
  refine (sparse_triangular_solve_spec hE.wfv hA (by omega) hE.qinvOk hE.acyclic hE.unit hr
    (by rw [hm]; exact hw) (by omega)).mono ?_
  rintro ⟨w', x'⟩ ⟨a1, a2, a3, a4, a5, -, a7, -, v, a9, a10, a11⟩
  simp only at a1 a2 a3 a4 a5 a7 a9 a10 a11
  rw [hm] at a1 a2 a4 a5 a7 a9 a10 a11
  simp only
  set l := w'.list A.m with hl
  have hnd : l.Nodup := Dfs.list_nodup a5
  have hlen : l.length ≤ A.m := by rw [hl, Dfs.length_list]; omega
  have hlm : ∀ j ∈ l, j < A.m := by
    intro j hj
    rw [hl, Dfs.mem_list] at hj
    obtain ⟨t, h1, h2, rfl⟩ := hj
    exact a4 t h1 h2
  refine ⟨a1, a2, a3, a4, hnd, ?_⟩
  unfold solveE solveT
  refine ⟨?_, ?_, ?_, ?_, ?_, ?_, ?_⟩
  · intro e he
    rw [List.mem_map] at he
    obtain ⟨j, hj, rfl⟩ := he
    rw [List.mem_filter] at hj
    have h2 := of_decide_eq_true hj.2
    exact ⟨hlm j hj.1, h2.2, a7 j (by rw [hl, Dfs.mem_list] at hj; exact hj.1), h2.1⟩
  · rw [List.map_map]
    have : (Prod.fst ∘ fun j => (j, x'.g j)) = id := rfl
    rw [this, List.map_id]
    exact hnd.filter _
  · intro e he
    rw [List.mem_map] at he
    obtain ⟨j, hj, rfl⟩ := he
    rw [List.mem_filter] at hj
    have h2 := of_decide_eq_true hj.2
    have := hE.lt j (by rw [hm]; exact hlm j hj.1)
    exact ⟨by simp only; omega, a7 j (by rw [hl, Dfs.mem_list] at hj; exact hj.1), h2.1⟩
  · rw [List.length_map]; exact (List.length_filter_le _ _).trans hlen
  · rw [List.length_map]; exact (List.length_filter_le _ _).trans hlen
  · rw [List.map_map]
    refine List.Nodup.map_on ?_ (hnd.filter _)
    intro a ha b hb hab
    rw [List.mem_filter] at ha hb
    have ha2 := (of_decide_eq_true ha.2).2
    have hb2 := (of_decide_eq_true hb.2).2
    simp only [Function.comp] at hab
    rw [← hE.loc a (by rw [hm]; exact hlm a ha.1) ha2,
      ← hE.loc b (by rw [hm]; exact hlm b hb.1) hb2, hab]
  · intro c hc
    rw [a11 c hc, lsum_map_self _ _ _ (hnd.filter _)]
    congr 1
    · by_cases h1 : qinv.g c < 0
      · rw [if_pos h1]
        by_cases h2 : w'.Pat A.m c
        · by_cases h3 : x'.g c = 0
          · rw [a9 c h2, h3]; simp
          · rw [a9 c h2, if_pos]
            rw [List.mem_filter]
            exact ⟨Dfs.mem_list.mpr h2, by simp [h1, h3]⟩
        · rw [a10 c h2, if_neg]
          rw [List.mem_filter]
          exact fun h => h2 (Dfs.mem_list.mp h.1)
      · rw [if_neg h1, if_neg]
        rw [List.mem_filter]
        intro h
        exact h1 (of_decide_eq_true h.2).2
    · have : ∀ i ∈ range U.n, lsum q ((l.filter fun j => decide (x'.g j ≠ 0 ∧ 0 ≤ qinv.g j)).map
          fun j => ((qinv.g j).toNat, x'.g j)) i * U.entry q i c =
          ∑ j ∈ range A.m, if i = (qinv.g j).toNat then
            (if 0 ≤ qinv.g j then v j * U.entry q (qinv.g j).toNat c else 0) else 0 := by
        intro i hi
        rw [lsum_map_nodup (m := A.m) _ _ _ _ (hnd.filter _)
          (fun j hj => hlm j (List.mem_filter.mp hj).1), Finset.sum_mul]
        refine Finset.sum_congr rfl ?_
        intro j hj
        by_cases h1 : i = (qinv.g j).toNat
        · rw [if_pos h1, h1]
          by_cases h2 : 0 ≤ qinv.g j
          · rw [if_pos h2]
            by_cases h3 : w'.Pat A.m j
            · rw [a9 j h3]
              by_cases h4 : x'.g j = 0
              · simp [h4]
              · rw [if_pos]
                refine ⟨?_, rfl⟩
                rw [List.mem_filter]
                exact ⟨Dfs.mem_list.mpr h3, by simp [h2, h4]⟩
            · have h4 : ¬ (j ∈ (l.filter fun j => decide (x'.g j ≠ 0 ∧ 0 ≤ qinv.g j)) ∧
                  (qinv.g j).toNat = (qinv.g j).toNat) := by
                rw [List.mem_filter]
                exact fun h => h3 (Dfs.mem_list.mp h.1.1)
              rw [a10 j h3, if_neg h4]
          · rw [if_neg h2, if_neg, zero_mul]
            rw [List.mem_filter]
            intro h
            exact h2 (of_decide_eq_true h.1.2).2
        · rw [if_neg h1, if_neg (fun h => h1 h.2.symm), zero_mul]
      rw [Finset.sum_congr rfl this, Finset.sum_comm]
      refine Finset.sum_congr rfl ?_
      intro j hj
      rw [Finset.sum_ite_eq']
      by_cases h1 : (qinv.g j).toNat ∈ range U.n
      · rw [if_pos h1]
      · rw [if_neg h1, if_neg]
        intro h2
        have := hE.lt j (by rw [hm]; exact mem_range.mp hj)
        exact h1 (mem_range.mpr (by omega))

end Spasm
