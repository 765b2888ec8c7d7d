import Verif.Props.Triplet
import Verif.Proofs.Stale

/-!
C10, without a condition on cancellations: what `spasm_compress` returns for every triplet matrix.

`firsts`, `nonzeroes` and `stale` are specified in Spec/Stale.lean.
-/

namespace Spasm

/-- `r` is row `i` of the matrix represented by the triplets: its columns in the order of their first occurrences, each of
them with the sum of the values given for it, as a residue (which can be zero). -/
structure Summed (q : ℕ) (T : Triplet) (i : Nat) (r : List (Nat × Int)) : Prop where
  cols : r.map Prod.fst = firsts (((List.range T.nz).filter fun k => decide (T.i.g k = i)).map T.j.g)
  sum : ∀ e ∈ r, Small q e.2 ∧ (e.2 : ZMod q) = T.sum q i e.1

/-- The sum of the values of a list at column `j`. -/
def total (q : ℕ) (l : List (Nat × Int)) (j : Nat) : ZMod q := (l.map fun e => if e.1 = j then (e.2 : ZMod q) else 0).sum

theorem lsum_of_nodup {q : ℕ} {e : Nat × Int} : ∀ {l : List (Nat × Int)}, (l.map Prod.fst).Nodup → e ∈ l →
    lsum q l e.1 = (e.2 : ZMod q) := by
  intro l
  induction l with
  | nil => intro _ h; simp at h
  | cons b l ih =>
    intro hnd hm
    rw [List.map_cons, List.nodup_cons] at hnd
    rw [lsum_cons]
    rcases List.mem_cons.mp hm with rfl | hm
    · rw [if_pos rfl, lsum_map_fst_not_mem hnd.1, add_zero]
    · rw [if_neg, zero_add, ih hnd.2 hm]
      intro hbe
      exact hnd.1 (by rw [hbe]; exact List.mem_map.mpr ⟨e, hm, rfl⟩)

theorem stale_nil {R : Nat → List (Nat × Int)} {k : Nat} (h : ∀ i, i < k → ∀ e ∈ R i, e.2 ≠ 0) :
    ∀ i, i ≤ k → stale R i = [] := by
  intro i
  induction i with
  | zero => intro _; rfl
  | succ i ih =>
    intro hi
    unfold stale
    rw [ih (by omega), List.nil_append]
    have : nonzeroes (R i) = R i := by
      unfold nonzeroes
      rw [List.filter_eq_self]
      intro e he
      simpa using h i (by omega) e he
    rw [this, List.drop_length]

/-- The rows of the result, and their sums. -/
theorem compress_rows (jk : Junk) (q : ℕ) (T : Triplet) (hT : T.WFV q) :
    Ok (compress jk T) (fun A => ∃ R : Nat → List (Nat × Int),
      (∀ i, i < T.n → Summed q T i (R i) ∧ ((R i).map Prod.fst).Nodup ∧ (∀ j, lsum q (R i) j = T.sum q i j) ∧
        ∀ e ∈ R i, T.Has i e.1) ∧
      ∀ i, i < T.n → A.row i = nonzeroes (stale R i ++ R i)) := by
  unfold compress
  rw [Ok_bind]
  refine (compress_sort_spec jk hT.toWF).mono ?_
  rintro A ⟨h1, h2, h3, h4, h5, h6, h7⟩
  have hrow : ∀ i, i < T.n → ∀ e, e ∈ A.row i ↔ (i, e) ∈ T.items T.nz := by
    intro i hi e
    rw [h4 i hi]
    unfold sel
    simp only [List.mem_map, List.mem_filter, decide_eq_true_eq]
    constructor
    · rintro ⟨a, ⟨ha, rfl⟩, rfl⟩
      exact ha
    · intro h; exact ⟨(i, e), ⟨h, rfl⟩, rfl⟩
  have hAV : A.WFV q := by
    apply h1.toWFV (h7 q hT.good) (fun _ => by rw [h5]; exact hT.has_x)
    intro i hi e he
    obtain ⟨k, hk, hek⟩ := Triplet.mem_items.mp ((hrow i (by omega) e).mp he)
    have : e.2 = T.val k := congrArg (fun x => x.2.2) hek
    rw [this]
    exact (hT.bal k hk).1.small
  have hAx : A.x.isSome = true := by rw [h5]; exact hT.has_x
  rw [Ok_bind]
  refine (deduplicate_spec jk h1 q (fun _ => hAV)).mono ?_
  rintro B ⟨g1, g2, g3, g4, g5, g6, g7⟩
  have hsum : ∀ i, i < T.n → ∀ j, lsum q (B.row i) j = T.sum q i j := by
    intro i hi j
    rw [(g5 i (by omega)).sum hAx j, h4 i hi, lsum_sel_items]
    rfl
  have key : ∀ i, i < T.n → Summed q T i (B.row i) ∧ ((B.row i).map Prod.fst).Nodup ∧
      (∀ j, lsum q (B.row i) j = T.sum q i j) ∧ ∀ e ∈ B.row i, T.Has i e.1 := by
    intro i hi
    have hb := g5 i (by omega)
    refine ⟨⟨?_, ?_⟩, hb.nodup, hsum i hi, ?_⟩
    · rw [hb.order, h4 i hi]
      congr 1
      unfold sel Triplet.items
      rw [List.filter_map, List.map_map, List.map_map]
      rfl
    · intro e he
      exact ⟨hb.small hAx e he, by rw [← lsum_of_nodup hb.nodup he, hsum i hi]⟩
    · intro e he
      have hin := (hb.cols e.1).mp (List.mem_map.mpr ⟨e, he, rfl⟩)
      rw [List.mem_map] at hin
      obtain ⟨a, ha, hae⟩ := hin
      obtain ⟨k, hk, hek⟩ := Triplet.mem_items.mp ((hrow i hi a).mp ha)
      exact ⟨k, hk, (congrArg (fun x => x.1) hek).symm, by
        rw [← hae]; exact (congrArg (fun x => x.2.1) hek).symm⟩
  by_cases hx : B.x.isSome = true
  · refine (remove_explicit_zeroes_exact jk g1 hx).mono ?_
    intro D hD
    exact ⟨B.row, key, fun i hi => hD i (by omega)⟩
  · have hn : B.x = none := by simpa using hx
    have h0 : B.p.g B.n = 0 := by
      by_contra hc
      exact hx ((g6 (by omega)).trans hAx)
    have hempty : ∀ i, i < T.n → B.row i = [] := by
      intro i hi
      have hi' : i < B.n := by omega
      have e1 := g1.row_le hi'
      unfold Csr.row
      rw [show B.p.g i = B.p.g (i + 1) by omega, Csr.seg_self]
    unfold remove_explicit_zeroes
    rw [if_pos (by rw [hn]; rfl), Ok_ok]
    refine ⟨B.row, key, fun i hi => ?_⟩
    rw [stale_nil (k := T.n) (fun k hk e he => by rw [hempty k hk] at he; cases he) i hi.le, hempty i hi]
    rfl

/-- C10 (exact result). For every triplet matrix: each row of the result consists of the entries that are not zero among those
the previous rows left in front of it, followed by its own entries. -/
theorem C10_exact (jk : Junk) (q : ℕ) (T : Triplet) (hT : T.WFV q) :
    Ok (compress jk T) (fun A => ∃ R : Nat → List (Nat × Int), (∀ i, i < T.n → Summed q T i (R i)) ∧
      ∀ i, i < T.n → A.row i = nonzeroes (stale R i ++ R i)) := by
  refine (compress_rows jk q T hT).mono ?_
  rintro A ⟨R, h1, h2⟩
  exact ⟨R, fun i hi => (h1 i hi).1, h2⟩

/-- C10 (the rows are determined). For odd moduli, the rows of `C10_exact` are determined by the triplets, hence so is the
result. -/
theorem C10_rows_unique {q : ℕ} (hq : q % 2 = 1) {T : Triplet} {i : Nat} {r r' : List (Nat × Int)} (h : Summed q T i r)
    (h' : Summed q T i r') : r = r' := by
  have hm : r.map Prod.fst = r'.map Prod.fst := h.cols.trans h'.cols.symm
  have hl : r.length = r'.length := by simpa using congrArg List.length hm
  refine List.ext_getElem hl fun k hk hk' => ?_
  have e1 : (r[k]).1 = (r'[k]).1 := by
    have := List.getElem_of_eq hm (by simpa using hk)
    simpa using this
  obtain ⟨a1, a2⟩ := h.sum _ (List.getElem_mem hk)
  obtain ⟨b1, b2⟩ := h'.sum _ (List.getElem_mem hk')
  rw [e1, ← b2, ZMod.intCast_eq_intCast_iff_dvd_sub] at a2
  obtain ⟨c, hc⟩ := a2
  unfold Small at a1 b1
  have hc0 : c = 0 := by
    have hq0 : (0 : Int) < q := by omega
    have h1 : (q : Int) * c < q := by omega
    have h2 : -(q : Int) < q * c := by omega
    have : c < 1 := by nlinarith
    have : -1 < c := by nlinarith
    omega
  rw [hc0, mul_zero] at hc
  exact Prod.ext e1 (by omega)

/-- C10 (excess). For every triplet matrix: the entries of the result are the right ones plus the sums of the entries that are
left by the previous rows; the result is right if and only if these sums are zero. -/
theorem C10_excess (jk : Junk) (q : ℕ) (T : Triplet) (hT : T.WFV q) :
    Ok (compress jk T) (fun A => ∃ R : Nat → List (Nat × Int), (∀ i, i < T.n → Summed q T i (R i)) ∧
      (∀ i j, i < T.n → A.entry q i j = T.sum q i j + total q (stale R i) j) ∧
      ((∀ i j, i < T.n → A.entry q i j = T.sum q i j) ↔ ∀ i j, i < T.n → total q (stale R i) j = 0)) := by
  refine (compress_rows jk q T hT).mono ?_
  rintro A ⟨R, h1, h2⟩
  have h : ∀ i j, i < T.n → A.entry q i j = T.sum q i j + total q (stale R i) j := by
    intro i j hi
    rw [Csr.entry_eq_lsum, h2 i hi, nonzeroes, lsum_filter_ne_zero, lsum_append, (h1 i hi).2.2.1 j, add_comm]
    rfl
  refine ⟨R, fun i hi => (h1 i hi).1, h, ?_⟩
  constructor
  · intro h' i j hi
    have := h i j hi
    rw [h' i j hi] at this
    exact left_eq_add.mp this
  · intro h' i j hi
    rw [h i j hi, h' i j hi, add_zero]

/-- C10 (rows before the first cancellation). Whatever the other rows, the rows up to the first one with a cancellation, this
one included, are right, without repeated columns. -/
theorem C10_before (jk : Junk) (q : ℕ) (T : Triplet) (hT : T.WFV q) (k : Nat)
    (hc : ∀ i j, i < k → T.Has i j → T.sum q i j ≠ 0) :
    Ok (compress jk T) (fun A => ∀ i, i < T.n → i ≤ k → ((A.row i).map Prod.fst).Nodup ∧
      ∀ j, A.entry q i j = T.sum q i j) := by
  refine (compress_rows jk q T hT).mono ?_
  rintro A ⟨R, h1, h2⟩ i hi hik
  have hs : stale R i = [] := by
    refine stale_nil (k := i) ?_ i (le_refl _)
    intro l hl e he h0
    obtain ⟨g1, g2, g3, g4⟩ := h1 l (by omega)
    apply hc l e.1 (by omega) (g4 e he)
    rw [← (g1.sum e he).2, h0, Int.cast_zero]
  obtain ⟨g1, g2, g3, g4⟩ := h1 i hi
  refine ⟨?_, fun j => ?_⟩
  · rw [h2 i hi, hs]
    exact List.Nodup.sublist (List.Sublist.map _ (List.filter_sublist)) g2
  · rw [Csr.entry_eq_lsum, h2 i hi, hs, nonzeroes, lsum_filter_ne_zero]
    exact g3 j

/-- The matrix `exCancel` (`C10_cancellation_wrong`): its first row has the entries 1, 0, -2 and the last of them is left in
front of the second row. -/
example : Summed 7 exCancel 0 [(0, 1), (1, 0), (2, -2)] ∧
    stale (fun i => if i = 0 then [(0, 1), (1, 0), (2, -2)] else []) 1 = [(2, -2)] := by
  refine ⟨⟨by decide, ?_⟩, by decide⟩
  intro e he
  unfold Small
  fin_cases he <;> decide

/-- Its first row is right. -/
example : Ok (compress default exCancel) (fun A => ∀ j, A.entry 7 0 j = exCancel.sum 7 0 j) := by
  have hn : 0 < exCancel.n := by decide
  have hw := C10_cancellation_wrong.1
  generalize exCancel = T at hn hw ⊢
  exact (C10_before default 7 T hw 0 (fun i j h => absurd h (Nat.not_lt_zero i))).mono
    fun A h j => (h 0 hn (le_refl 0)).2 j

end Spasm
