import Verif.Proofs.Save
import Verif.Proofs.Inverse
import Verif.Props.Triplet
import Verif.Props.Gplu
import Verif.Props.Dm

/-!
C41: files of matrices.

`Loaded`, `IsSms` and `IsMm` are specified in Spec/Loaded.lean and Spec/Text.lean.
-/

namespace Spasm

open Sha

/-- A buffer for the hash, if any. -/
def HashBuf (hash : Option (Array B)) : Prop := ∀ md, hash = some md → md.size = 32

def exHash0 : Array B := mkArr 32 fun _ => 0

/-! ### Any file -/

/-- C41 (SMS format). Every file in SMS format gives the matrix it describes: the entries are in the order of the
file, reduced modulo the prime, without those equal to zero.  White space is free, comments after the entries and
lines after the end are ignored.  `prime = -1` gives the positions only. -/
theorem C41_sms (jk : Junk) (jw : Nat → W) {vals : Bool} {q : ℕ} {prime : Int} (hp : LoadField vals q prime)
    {f : List Char} {n m : Int} {l : List (Int × Int × Int)} (hf : IsSms f n m l)
    (hn : 0 ≤ n ∧ n < 2 ^ 31) (hm : 0 ≤ m ∧ m < 2 ^ 31) (hl : ∀ e ∈ l, FitsEntry e) {hash : Option (Array B)}
    (hh : HashBuf hash) :
    Ok (triplet_load jk jw f prime hash) (fun r => Loaded vals q n m l r.1 ∧ r.1.F.p = prime ∧
      (vals = true → r.1.F.Good q) ∧ (0 < r.1.nz → r.1.x.isSome = vals)) :=
  triplet_load_sms jk jw hp hf hn hm hl hh

/-- C41 (MatrixMarket format). The same for every file in MatrixMarket format with at least one entry. -/
theorem C41_mm (jk : Junk) (jw : Nat → W) {vals : Bool} {q : ℕ} {prime : Int} (hp : LoadField vals q prime)
    {f : List Char} {n m : Int} {l : List (Int × Int × Int)} (hf : IsMm f n m l)
    (hn : 0 ≤ n ∧ n < 2 ^ 31) (hm : 0 ≤ m ∧ m < 2 ^ 31) (hl : ∀ e ∈ l, FitsEntry e) (hne : l ≠ [])
    (hlen : l.length < 2 ^ 63) {hash : Option (Array B)} (hh : HashBuf hash) :
    Ok (triplet_load jk jw f prime hash) (fun r => Loaded vals q n m l r.1 ∧ r.1.F.p = prime ∧
      (vals = true → r.1.F.Good q) ∧ (0 < r.1.nz → r.1.x.isSome = vals)) :=
  triplet_load_mm jk jw hp hf hn hm hl hne hlen hh

/-- A file in SMS format. -/
def exSms : List Char := "2 3 M\n1  2 -9\n2 3 14 hello\n\t2 1 1\n0 0 0\nthe end\n".toList

theorem exSms_is : IsSms exSms 2 3 [(1, 2, -9), (2, 3, 14), (2, 1, 1)] := by
  refine ⟨"2 3 M".toList, ["1  2 -9".toList, "2 3 14 hello".toList, "\t2 1 1".toList], "0 0 0".toList,
    ["the end".toList], ⟨⟨by decide, by decide, by decide⟩, [], [' '], [' '], [], by simp [Blank], by simp [Blank],
      by simp [Blank], by simp, by decide +kernel⟩, ?_, ?_, ?_, by decide +kernel⟩
  · refine .cons ⟨⟨by decide, by decide, by decide⟩, [], [' ', ' '], [' '], [], by simp [Blank], by simp [Blank],
      by simp [Blank], by simp, by simp, by simp, by decide +kernel⟩ (.cons ⟨⟨by decide, by decide, by decide⟩, [],
        [' '], [' '], " hello".toList, by simp [Blank], by simp [Blank], by simp [Blank], by simp, by simp, ?_,
        by decide +kernel⟩ (.cons ⟨⟨by decide, by decide, by decide⟩, ['\t'], [' '], [' '], [], by simp [Blank],
          by simp [Blank], by simp [Blank], by simp, by simp, by simp, by decide +kernel⟩ .nil))
    intro c hc
    rw [show " hello".toList.head? = some ' ' by decide, Option.some.injEq] at hc
    subst hc; decide
  · exact ⟨⟨by decide, by decide, by decide⟩, [], [' '], [' '], [], by simp [Blank], by simp [Blank],
      by simp [Blank], by simp, by simp, by simp, by decide +kernel⟩
  · intro b hb
    rw [List.mem_singleton.mp hb]
    exact ⟨by decide, by decide, by decide⟩

/-- The hypotheses are met, and modulo 7 the entry 14 is dropped. -/
example : LoadField true 7 7 ∧ IsSms exSms 2 3 [(1, 2, -9), (2, 3, 14), (2, 1, 1)] ∧
    (∀ e ∈ [((1 : Int), (2 : Int), (-9 : Int)), (2, 3, 14), (2, 1, 1)], FitsEntry e) ∧
    [((1 : Int), (2 : Int), (-9 : Int)), (2, 3, 14), (2, 1, 1)].filter (kept true 7) = [(1, 2, -9), (2, 1, 1)] := by
  refine ⟨.inl ⟨rfl, rfl, by decide, by decide⟩, exSms_is, ?_, by decide⟩
  intro e he
  simp only [List.mem_cons, List.not_mem_nil, or_false] at he
  rcases he with rfl | rfl | rfl <;> exact ⟨by decide, by decide, by decide, by decide, by decide, by decide⟩

/-- A file in MatrixMarket format. -/
def exMm : List Char :=
  "%%MatrixMarket matrix Coordinate INTEGER general\n% a comment\n%\n2 3 2\n1 2 -9\n2 3 5\n".toList

theorem exMm_is : IsMm exMm 2 3 [(1, 2, -9), (2, 3, 5)] := by
  refine ⟨"%%MatrixMarket matrix Coordinate INTEGER general".toList, ["% a comment".toList, "%".toList],
    "2 3 2".toList, ["1 2 -9".toList, "2 3 5".toList], [], ⟨⟨by decide, by decide, by decide⟩, [' '], [' '], [' '],
      [' '], "matrix".toList, "Coordinate".toList, "INTEGER".toList, "general".toList, [], by simp [Blank],
      by simp [Blank], by simp [Blank], by simp [Blank], by simp, by simp, by simp, by decide, by decide, by decide,
      by decide, by simp, by decide⟩, ?_, ?_, ?_, by simp, by decide +kernel⟩
  · intro b hb
    simp only [List.mem_cons, List.not_mem_nil, or_false] at hb
    rcases hb with rfl | rfl <;> exact ⟨⟨by decide, by decide, by decide⟩, by decide⟩
  · exact ⟨⟨by decide, by decide, by decide⟩, [], [' '], [' '], [], by simp [Blank], by simp [Blank],
      by simp [Blank], by simp, by simp, by simp, by decide +kernel⟩
  · exact .cons ⟨⟨by decide, by decide, by decide⟩, [], [' '], [' '], [], by simp [Blank], by simp [Blank],
      by simp [Blank], by simp, by simp, by simp, by decide +kernel⟩ (.cons ⟨⟨by decide, by decide, by decide⟩, [],
        [' '], [' '], [], by simp [Blank], by simp [Blank], by simp [Blank], by simp, by simp, by simp,
        by decide +kernel⟩ .nil)

/-- A MatrixMarket file without entries, as the format allows. -/
def exMmEmpty : List Char := "%%MatrixMarket matrix coordinate integer general\n2 3 0\n".toList

/-- C41 (defect): a correct MatrixMarket file without entries is refused. -/
theorem C41_mm_empty : IsMm exMmEmpty 2 3 [] ∧
    ∀ (jk : Junk) (jw : Nat → W), triplet_load jk jw exMmEmpty 7 none = .error .exitErr := by
  refine ⟨⟨"%%MatrixMarket matrix coordinate integer general".toList, [], "2 3 0".toList, [], [],
    ⟨⟨by decide, by decide, by decide⟩, [' '], [' '], [' '], [' '], "matrix".toList, "coordinate".toList,
      "integer".toList, "general".toList, [], by simp [Blank], by simp [Blank], by simp [Blank], by simp [Blank],
      by simp, by simp, by simp, by decide, by decide, by decide, by decide, by simp, by decide⟩, by simp, ?_, .nil,
    by simp, by decide +kernel⟩, ?_⟩
  · exact ⟨⟨by decide, by decide, by decide⟩, [], [' '], [' '], [], by simp [Blank], by simp [Blank],
      by simp [Blank], by simp, by simp, by simp, by decide +kernel⟩
  · intro jk jw
    unfold triplet_load
    rw [show load_header jw exMmEmpty 7 (Option.map (fun _ => SHA256_init) none) =
      .ok (⟨true, 2, 3, 0⟩, [], none) from rfl]
    rfl

/-! ### Round trip -/

theorem stored_bal {q : ℕ} (hq : 2 ≤ q) : ∀ {l t : List (Nat × Nat × Int)}, (∀ e ∈ l, Bal q e.2.2) →
    List.Forall₂ (Stored true q) ((fromOne l).filter (kept true q)) t →
    t = l.filter fun e => decide (e.2.2 ≠ 0) := by
  intro l
  induction l with
  | nil => intro t _ h; cases h; rfl
  | cons e l ih =>
    intro t hb h
    have he := hb e (by simp)
    by_cases hk : ((e.2.2 : Int) : ZMod q) = 0
    · have h1 : (fromOne (e :: l)).filter (kept true q) = (fromOne l).filter (kept true q) := by
        unfold fromOne
        rw [List.map_cons, List.filter_cons_of_neg]
        simp [kept, hk]
      have h2 := (small_eq_zero_iff hq he.small).mp hk
      rw [h1] at h
      rw [List.filter_cons_of_neg (by simp [h2])]
      exact ih (fun e he => hb e (by simp [he])) h
    · have h1 : (fromOne (e :: l)).filter (kept true q) =
          ((e.1 : Int) + 1, (e.2.1 : Int) + 1, e.2.2) :: (fromOne l).filter (kept true q) := by
        unfold fromOne
        rw [List.map_cons, List.filter_cons_of_pos]
        simp [kept, hk]
      have h2 : e.2.2 ≠ 0 := fun h => hk (by rw [h]; simp)
      rw [h1] at h
      rw [List.filter_cons_of_pos (by simp [h2])]
      cases h with
      | @cons _ b _ t' h1 h3 =>
        obtain ⟨a1, a2, a3⟩ := h1
        rw [if_pos rfl] at a3
        simp only at a1 a2 a3
        rw [ih (fun e he => hb e (by simp [he])) h3]
        congr 1
        obtain ⟨b1, b2, b3⟩ := b
        obtain ⟨e1, e2, e3⟩ := e
        simp only at a1 a2 a3 he ⊢
        rw [show b1 = e1 by omega, show b2 = e2 by omega, bal_unique a3.1 he a3.2]

theorem stored_pattern : ∀ {q : ℕ} {l t : List (Nat × Nat × Int)},
    List.Forall₂ (Stored false q) ((fromOne l).filter (kept false q)) t →
    t = l.map fun e => (e.1, e.2.1, 1) := by
  intro q l
  induction l with
  | nil => intro t h; cases h; rfl
  | cons e l ih =>
    intro t h
    have h1 : (fromOne (e :: l)).filter (kept false q) =
        ((e.1 : Int) + 1, (e.2.1 : Int) + 1, e.2.2) :: (fromOne l).filter (kept false q) := by
      unfold fromOne
      rw [List.map_cons, List.filter_cons_of_pos]
      simp [kept]
    rw [h1] at h
    cases h with
    | @cons _ b _ t' h1 h3 =>
      obtain ⟨a1, a2, a3⟩ := h1
      rw [if_neg (by simp)] at a3
      simp only at a1 a2 a3
      rw [ih h3, List.map_cons]
      congr 1
      obtain ⟨b1, b2, b3⟩ := b
      simp only at a1 a2 a3 ⊢
      rw [show b1 = e.1 by omega, show b2 = e.2.1 by omega, a3]

theorem csr_fits {A : Csr} (hA : A.WF) (hn : A.n < 2 ^ 31) (hm : A.m < 2 ^ 31)
    (hx : ∀ k, k < A.p.g A.n → |A.val k| < 2 ^ 63) : Fits A.n A.m A.lst := by
  refine ⟨hn, hm, fun e he => (mem_csr_lst he).1, ?_, ?_⟩
  · intro e he
    obtain ⟨h1, k, h2, h3, h4, -⟩ := mem_csr_lst he
    rw [← h4]; exact hA.j_lt k (by have := hA.row_le h1; omega)
  · intro e he
    obtain ⟨h1, k, h2, h3, -, h4⟩ := mem_csr_lst he
    rw [← h4]; exact hx k (by have := hA.row_le h1; omega)

theorem triplet_fits {T : Triplet} (hT : T.WF) (hn : T.n < 2 ^ 31) (hm : T.m < 2 ^ 31)
    (hx : ∀ k, k < T.nz → |T.val k| < 2 ^ 63) : Fits T.n T.m T.lst := by
  refine ⟨hn, hm, ?_, ?_, ?_⟩ <;>
  · intro e he
    obtain ⟨k, hk, rfl⟩ := List.mem_map.mp he
    rw [List.mem_range] at hk
    first | exact hT.i_lt k hk | exact hT.j_lt k hk | exact hx k hk

theorem small_lt {F : Field} {q : ℕ} (hF : F.Good q) {v : Int} (h : Small q v) : |v| < 2 ^ 63 := by
  have := hF.le_max
  unfold Small at h
  rw [abs_lt]; omega

/-- C41. What `spasm_csr_save` writes is loaded by `spasm_triplet_load` with the same prime as the same matrix:
same dimensions, and at each position the same value.  If the values are balanced, the entries are the same, in
the same order, except those equal to zero. -/
theorem C41_csr (jk : Junk) (jw : Nat → W) {q : ℕ} {A : Csr} (hA : A.WFV q) (hn : A.n < 2 ^ 31)
    (hm : A.m < 2 ^ 31) {hash : Option (Array B)} (hh : HashBuf hash) :
    Ok (csr_save A) (fun text => Ok (triplet_load jk jw text q hash) (fun r =>
      r.1.WF ∧ r.1.n = A.n ∧ r.1.m = A.m ∧ r.1.F.p = q ∧
      (∀ i j, i < A.n → r.1.sum q i j = A.entry q i j) ∧
      ((∀ k, k < A.p.g A.n → Bal q (A.val k)) → r.1.lst = A.lst.filter fun e => decide (e.2.2 ≠ 0)))) := by
  refine (csr_save_spec hA.toWF).mono ?_
  rintro text rfl
  have hfit := csr_fits hA.toWF hn hm (fun k hk => small_lt hA.good (hA.small k hk))
  have hp := hA.good.two_le
  refine (C41_sms jk jw (.inl ⟨rfl, rfl, hp, hA.good.le_max⟩) (saveText_sms hfit) ⟨by omega, by omega⟩
    ⟨by omega, by omega⟩ (fits_one hfit) hh).mono ?_
  rintro r ⟨h1, h2, -, -⟩
  obtain ⟨h3, h4⟩ := h1.dims hfit
  refine ⟨h1.wf, h3, h4, h2, ?_, ?_⟩
  · intro i j hi
    rw [Triplet.sum_eq, tsum_stored h1.lst, Csr.entry_eq_tsum q hi]
  · intro hb
    refine stored_bal hp ?_ h1.lst
    intro e he
    obtain ⟨a1, k, a2, a3, -, a4⟩ := mem_csr_lst he
    rw [← a4]; exact hb k (by have := hA.row_le a1; omega)

/-- C41. What `spasm_triplet_save` writes is loaded as the same list of entries. -/
theorem C41_triplet (jk : Junk) (jw : Nat → W) {q : ℕ} {T : Triplet} (hT : T.WFV q) (hn : T.n < 2 ^ 31)
    (hm : T.m < 2 ^ 31) {hash : Option (Array B)} (hh : HashBuf hash) :
    Ok (triplet_save T) (fun text => Ok (triplet_load jk jw text q hash) (fun r =>
      r.1.WF ∧ r.1.n = T.n ∧ r.1.m = T.m ∧ r.1.F.p = q ∧ r.1.lst = T.lst)) := by
  refine (triplet_save_spec hT.toWF).mono ?_
  rintro text rfl
  have hfit := triplet_fits hT.toWF hn hm (fun k hk => small_lt hT.good (hT.bal k hk).1.small)
  have hp := hT.good.two_le
  refine (C41_sms jk jw (.inl ⟨rfl, rfl, hp, hT.good.le_max⟩) (saveText_sms hfit) ⟨by omega, by omega⟩
    ⟨by omega, by omega⟩ (fits_one hfit) hh).mono ?_
  rintro r ⟨h1, h2, -, -⟩
  obtain ⟨h3, h4⟩ := h1.dims hfit
  refine ⟨h1.wf, h3, h4, h2, ?_⟩
  have hmem : ∀ e ∈ T.lst, Bal q e.2.2 ∧ e.2.2 ≠ 0 := by
    intro e he
    obtain ⟨k, hk, rfl⟩ := List.mem_map.mp he
    exact hT.bal k (List.mem_range.mp hk)
  rw [stored_bal hp (fun e he => (hmem e he).1) h1.lst]
  refine List.filter_eq_self.mpr fun e he => by simpa using (hmem e he).2

theorem forall₂_right {α β : Type} {R : α → β → Prop} {l : List α} {t : List β} (h : List.Forall₂ R l t) {b : β}
    (hb : b ∈ t) : ∃ a ∈ l, R a b := by
  induction h with
  | nil => simp at hb
  | cons h _ ih =>
    rcases List.mem_cons.mp hb with rfl | hb
    · exact ⟨_, by simp, h⟩
    · obtain ⟨a, h1, h2⟩ := ih hb
      exact ⟨a, by simp [h1], h2⟩

/-- C41 and C10: saving, loading and compressing a matrix gives the same matrix, if it has entries, no repeated
entries and no explicit zeroes. -/
theorem C41_compress (jk : Junk) (jw : Nat → W) {q : ℕ} {A : Csr} (hA : A.WFV q) (hd : A.NoDup) (hz : A.NoZero)
    (hpos : 0 < A.p.g A.n) (hn : A.n < 2 ^ 31) (hm : A.m < 2 ^ 31) {hash : Option (Array B)} (hh : HashBuf hash) :
    Ok (csr_save A) (fun text => Ok (triplet_load jk jw text q hash) (fun r => Ok (compress jk r.1) (fun D =>
      D.WFV q ∧ D.n = A.n ∧ D.m = A.m ∧ D.NoDup ∧ D.NoZero ∧ ∀ i j, i < A.n → D.entry q i j = A.entry q i j))) := by
  refine (csr_save_spec hA.toWF).mono ?_
  rintro text rfl
  have hfit := csr_fits hA.toWF hn hm (fun k hk => small_lt hA.good (hA.small k hk))
  have hp := hA.good.two_le
  refine (C41_sms jk jw (.inl ⟨rfl, rfl, hp, hA.good.le_max⟩) (saveText_sms hfit) ⟨by omega, by omega⟩
    ⟨by omega, by omega⟩ (fits_one hfit) hh).mono ?_
  rintro ⟨T, md⟩ ⟨h1, h2, h5, h6⟩
  obtain ⟨h3, h4⟩ := h1.dims hfit
  simp only at h1 h2 h3 h4 h5 h6 ⊢
  have hval : ∀ k, k < A.p.g A.n → (A.val k : ZMod q) ≠ 0 := fun k hk h =>
    hz k hk ((small_eq_zero_iff hp (hA.small k hk)).mp h)
  have hsum : ∀ i j, i < A.n → T.sum q i j = A.entry q i j := fun i j hi => by
    rw [Triplet.sum_eq, tsum_stored h1.lst, Csr.entry_eq_tsum q hi]
  have hTmem : ∀ k, k < T.nz → (T.i.g k, T.j.g k, T.val k) ∈ T.lst := fun k hk =>
    List.mem_map.mpr ⟨k, List.mem_range.mpr hk, rfl⟩
  have hnz : 0 < T.nz := by
    by_contra h0
    have h0 : T.nz = 0 := by omega
    have hl := h1.lst.length_eq
    have : (fromOne A.lst).filter (kept true q) = fromOne A.lst := by
      refine List.filter_eq_self.mpr fun e he => ?_
      obtain ⟨t, ht, rfl⟩ := List.mem_map.mp he
      obtain ⟨a1, k, a2, a3, -, a4⟩ := mem_csr_lst ht
      have := hval k (by have := hA.row_le a1; omega)
      rw [a4] at this
      simp [kept, this]
    rw [this] at hl
    unfold Triplet.lst fromOne at hl
    rw [h0] at hl
    obtain ⟨i, e1, e2, e3⟩ := hA.toWF.row_of_pos hpos
    have hm : (i, A.ent 0) ∈ A.lst := by
      unfold Csr.lst
      exact List.mem_flatMap.mpr ⟨i, List.mem_range.mpr e1, List.mem_map.mpr ⟨A.ent 0, Csr.mem_seg.mpr ⟨0, e2, e3, rfl⟩,
        rfl⟩⟩
    simp only [List.length_map, List.range_zero, List.length_nil, List.length_eq_zero_iff] at hl
    rw [hl] at hm
    simp at hm
  have hTV : T.WFV q := by
    refine ⟨h1.wf, h5 trivial, h6 hnz, ?_⟩
    intro k hk
    obtain ⟨e, he, hs⟩ := forall₂_right h1.lst (hTmem k hk)
    obtain ⟨-, -, hs⟩ := hs
    rw [if_pos rfl] at hs
    refine ⟨hs.1, ?_⟩
    have hk2 := (List.mem_filter.mp he).2
    rw [kept_iff] at hk2
    intro h0
    simp only at hs
    rw [h0] at hs
    exact hk2 ⟨rfl, by rw [← hs.2]; simp⟩
  refine (C10_compress_partial jk q T hTV ?_).mono ?_
  · rintro i j hi ⟨k, hk, rfl, rfl⟩
    have hi' := h1.wf.i_lt k hk
    rw [hsum _ _ (by omega)]
    obtain ⟨e, he, hs⟩ := forall₂_right h1.lst (hTmem k hk)
    obtain ⟨t, ht, rfl⟩ := List.mem_map.mp (List.mem_of_mem_filter he)
    obtain ⟨a1, k', a2, a3, a4, a5⟩ := mem_csr_lst ht
    obtain ⟨b1, b2, -⟩ := hs
    simp only at b1 b2
    have hlt := hA.row_le a1
    rw [show T.i.g k = t.1 by omega, show T.j.g k = t.2.1 by omega, ← a4, Csr.entry_of_nodup hd a1 a2 a3]
    exact hval k' (by omega)
  · rintro D ⟨c1, c2, c3, c4, c5, c6⟩
    exact ⟨c1, by omega, by omega, c4, c5, fun i j hi => by rw [c6 i j (by omega), hsum i j hi]⟩

/-- The hypotheses of `C41_csr`, `C41_triplet` and `C41_compress` are met. -/
example : exTwo.WFV 7 ∧ exTwo.NoDup ∧ exTwo.NoZero ∧ 0 < exTwo.p.g exTwo.n ∧ exT.WFV 7 ∧ HashBuf (some exHash0) :=
  ⟨Csr.wfv_of_check (by decide +kernel), Csr.nodup_of_check (Csr.wf_of_check (by decide +kernel)) (by decide +kernel), by unfold Csr.NoZero; decide,
    by decide, exT_wfv, by rintro md h; cases h; rfl⟩

/-- What is written. -/
example : csr_save exTwo = .ok "2 2 M\n1 1 1\n1 2 1\n2 1 1\n2 2 2\n0 0 0\n".toList := by decide +kernel

/-- C41 (positions only). Both functions save a matrix without values with ones; loading with `prime = -1` gives
all the positions back, in order. -/
theorem C41_pattern (jk : Junk) (jw : Nat → W) {A : Csr} (hA : A.WF) (hx : A.x = none) (hn : A.n < 2 ^ 31)
    (hm : A.m < 2 ^ 31) {T : Triplet} (hT : T.WF) (hTx : T.x = none) (hTn : T.n < 2 ^ 31) (hTm : T.m < 2 ^ 31)
    {hash : Option (Array B)} (hh : HashBuf hash) :
    Ok (csr_save A) (fun text => Ok (triplet_load jk jw text (-1) hash) (fun r =>
      r.1.WF ∧ r.1.n = A.n ∧ r.1.m = A.m ∧ r.1.F.p = -1 ∧ (0 < r.1.nz → r.1.x = none) ∧ r.1.lst = A.lst)) ∧
    Ok (triplet_save T) (fun text => Ok (triplet_load jk jw text (-1) hash) (fun r =>
      r.1.WF ∧ r.1.n = T.n ∧ r.1.m = T.m ∧ r.1.F.p = -1 ∧ (0 < r.1.nz → r.1.x = none) ∧ r.1.lst = T.lst)) := by
  have hv : ∀ k, A.val k = 1 := fun k => by unfold Csr.val; rw [hx]
  have hvT : ∀ k, T.val k = 1 := fun k => by unfold Triplet.val; rw [hTx]
  constructor
  · refine (csr_save_spec hA).mono ?_
    rintro text rfl
    have hfit := csr_fits hA hn hm (fun k _ => by rw [hv]; decide)
    refine (C41_sms jk jw (q := 2) (vals := false) (.inr ⟨rfl, rfl⟩) (saveText_sms hfit) ⟨by omega, by omega⟩
      ⟨by omega, by omega⟩ (fits_one hfit) hh).mono ?_
    rintro r ⟨h1, h2, -, h5⟩
    obtain ⟨h3, h4⟩ := h1.dims hfit
    refine ⟨h1.wf, h3, h4, h2, fun h => by simpa using h5 h, ?_⟩
    rw [stored_pattern h1.lst]
    conv_rhs => rw [← List.map_id A.lst]
    refine List.map_congr_left fun e he => ?_
    obtain ⟨-, k, -, -, -, a4⟩ := mem_csr_lst he
    rw [hv] at a4
    simp [a4]
  · refine (triplet_save_spec hT).mono ?_
    rintro text rfl
    have hfit := triplet_fits hT hTn hTm (fun k _ => by rw [hvT]; decide)
    refine (C41_sms jk jw (q := 2) (vals := false) (.inr ⟨rfl, rfl⟩) (saveText_sms hfit) ⟨by omega, by omega⟩
      ⟨by omega, by omega⟩ (fits_one hfit) hh).mono ?_
    rintro r ⟨h1, h2, -, h5⟩
    obtain ⟨h3, h4⟩ := h1.dims hfit
    refine ⟨h1.wf, h3, h4, h2, fun h => by simpa using h5 h, ?_⟩
    rw [stored_pattern h1.lst]
    conv_rhs => rw [← List.map_id T.lst]
    refine List.map_congr_left fun e he => ?_
    obtain ⟨k, -, rfl⟩ := List.mem_map.mp he
    simp [hvT]

/-- A matrix without values. -/
def exPat : Triplet :=
  { n := 2, m := 3, nz := 2, i := #[1, 0, 0], j := #[2, 2, 0], x := none, F := Field.ofPrime 7 }

example : exDm.WF ∧ exDm.x = none ∧ exPat.WF ∧ exPat.x = none :=
  ⟨Csr.wf_of_check (by decide +kernel), rfl, ⟨by decide, by decide, by rintro a ⟨⟩, by decide, by decide,
    .inr (by decide)⟩, rfl⟩

end Spasm
