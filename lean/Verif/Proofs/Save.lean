import Verif.Proofs.LoadHeader
import Verif.Proofs.Dense

/-! What `spasm_csr_save` and `spasm_triplet_save` write. -/

namespace Spasm

open Sha

/-- The text of a matrix. -/
def saveText (n m : Nat) (l : List (Nat × Nat × Int)) : List Char :=
  save_header n m ++ l.flatMap (fun e => save_line e.1 e.2.1 e.2.2) ++ "0 0 0\n".toList

theorem rd_val {α : Type} [Inhabited α] {a : Array α} {i : Nat} (h : i < a.size) : rd a i = .ok (a.g i) := by
  obtain ⟨x, h1, h2⟩ := Ok_iff.1 ((Ok_rd a i (fun x => x = a.g i)).2 ⟨h, rfl⟩)
  rw [h1, h2]

theorem save_val_csr {A : Csr} (hA : A.WF) {k : Nat} (hk : k < A.p.g A.n) : save_val A.x k = .ok (A.val k) := by
  unfold save_val Csr.val
  cases h : A.x with
  | none => rfl
  | some a =>
    have := hA.x_size a h
    simp only
    exact rd_val (by omega)

theorem csr_save_spec {A : Csr} (hA : A.WF) : Ok (csr_save A) (fun t => t = saveText A.n A.m A.lst) := by
  unfold csr_save
  rw [Ok_bind]
  refine (Ok_forRange (I := fun i out => out = save_header A.n A.m ++
    ((List.range i).flatMap fun i => (A.row i).map fun e => (i, e.1, e.2)).flatMap
      (fun e => save_line e.1 e.2.1 e.2.2)) (Nat.zero_le _) (by simp) ?_).mono ?_
  · intro i out _ hi ho
    have hp := hA.p_size
    have hrow := hA.row_le hi
    simp only [Ok_bind, Ok_rd]
    refine ⟨by omega, by omega, ?_⟩
    refine (Ok_forRange (I := fun px out' => out' = out ++
      ((A.seg (A.p.g i) px).map fun e => (i, e.1, e.2)).flatMap (fun e => save_line e.1 e.2.1 e.2.2))
      (hA.p_mono i hi) (by simp [Csr.seg_self, ho]) ?_).mono ?_
    · intro px out' h1 h2 h3
      have hn := hA.p_nnz
      rw [save_val_csr hA (by omega), Ok_bind, Ok_ok, Ok_bind, Ok_rd]
      refine ⟨by omega, ?_⟩
      rw [Ok_ok, h3, A.seg_succ h1]
      simp [Csr.ent]
    · rintro out' rfl
      rw [ho, List.range_succ, List.flatMap_append, List.flatMap_append, List.append_assoc]
      simp [Csr.row]
  · rintro out rfl
    rw [Ok_ok]
    rfl

theorem triplet_save_spec {T : Triplet} (hT : T.WF) : Ok (triplet_save T) (fun t => t = saveText T.n T.m T.lst) := by
  unfold triplet_save
  rw [Ok_bind]
  refine (Ok_forRange (I := fun k out => out = save_header T.n T.m ++
    ((List.range k).map fun k => (T.i.g k, T.j.g k, T.val k)).flatMap
      (fun e => save_line e.1 e.2.1 e.2.2)) (Nat.zero_le _) (by simp) ?_).mono ?_
  · intro k out _ hk ho
    have h1 := hT.i_size
    have h2 := hT.j_size
    simp only [Ok_bind, Ok_rd]
    refine ⟨by omega, by omega, ?_⟩
    have : save_val T.x k = .ok (T.val k) := by
      unfold save_val Triplet.val
      cases h : T.x with
      | none => rfl
      | some a =>
        have := hT.x_size a h
        simp only
        exact rd_val (by omega)
    rw [this, Ok_ok, Ok_ok, ho, List.range_succ]
    simp
  · rintro out rfl
    rw [Ok_ok]
    rfl

theorem blank_one : Blank [' '] := by simp [Blank]
theorem blank_nil : Blank [] := by simp [Blank]

theorem short_of {b : List Char} (hl : b.length ≤ 1022) (h : ∀ c ∈ b, 32 ≤ c.toNat) : Short b :=
  ⟨hl, fun hn => absurd (h _ hn) (by decide), fun c hc => by have := h c hc; omega⟩

theorem short_mem {x : Int} {c : Char} (h : c ∈ fmtD x) : 32 ≤ c.toNat := by have := fmtD_toNat h; omega

/-- What can be written and read back. -/
structure Fits (n m : Nat) (l : List (Nat × Nat × Int)) : Prop where
  n_lt : n < 2 ^ 31
  m_lt : m < 2 ^ 31
  i_lt : ∀ e ∈ l, e.1 < n
  j_lt : ∀ e ∈ l, e.2.1 < m
  x_lt : ∀ e ∈ l, |e.2.2| < 2 ^ 63

theorem saveText_sms {n m : Nat} {l : List (Nat × Nat × Int)} (h : Fits n m l) :
    IsSms (saveText n m l) n m (fromOne l) := by
  have hn := h.n_lt
  have hm := h.m_lt
  refine ⟨fmtD n ++ [' '] ++ fmtD m ++ [' ', 'M'],
    l.map fun e => fmtD ((e.1 + 1 : Nat) : Int) ++ [' '] ++ fmtD ((e.2.1 + 1 : Nat) : Int) ++ [' '] ++ fmtD e.2.2,
    "0 0 0".toList, [], ⟨?_, [], [' '], [' '], [], blank_nil, blank_one, blank_one, by simp, ?_⟩, ?_, ?_,
    by simp, ?_⟩
  · refine short_of ?_ ?_
    · have h1 := fmtD_length (x := n) (k := 10) (by decide) (by simp; omega)
      have h2 := fmtD_length (x := m) (k := 10) (by decide) (by simp; omega)
      simp only [List.length_append, List.length_cons, List.length_nil]
      omega
    · intro c hc
      simp only [List.mem_append, List.mem_cons, List.not_mem_nil, or_false] at hc
      rcases hc with ((hc | hc) | hc) | hc | hc
      · exact short_mem hc
      · subst hc; decide
      · exact short_mem hc
      · subst hc; decide
      · subst hc; decide
  · simp [dec_eq]
  · unfold fromOne
    rw [List.forall₂_map_left_iff, List.forall₂_map_right_iff, List.forall₂_same]
    intro e he
    have h1 := h.i_lt e he
    have h2 := h.j_lt e he
    have h3 := abs_lt.mp (h.x_lt e he)
    refine ⟨short_of ?_ ?_, [], [' '], [' '], [], blank_nil, blank_one, blank_one, by simp, by simp, by simp, ?_⟩
    · have h1 := fmtD_length (x := ((e.1 + 1 : Nat) : Int)) (k := 10) (by decide) (by omega)
      have h2 := fmtD_length (x := ((e.2.1 + 1 : Nat) : Int)) (k := 10) (by decide) (by omega)
      have h2 := fmtD_length (x := e.2.2) (k := 20) (by decide) (by omega)
      simp only [List.length_append, List.length_cons, List.length_nil]
      omega
    · intro c hc
      simp only [List.mem_append, List.mem_singleton] at hc
      rcases hc with (((hc | hc) | hc) | hc) | hc
      · exact short_mem hc
      · subst hc; decide
      · exact short_mem hc
      · subst hc; decide
      · exact short_mem hc
    · simp [dec_eq]
  · refine ⟨short_of (by decide) (by decide), [], [' '], [' '], [], blank_nil, blank_one, blank_one, by simp,
      by simp, by simp, by decide⟩
  · unfold saveText save_header
    rw [List.cons_append, unlines_cons, unlines_append, unlines_cons]
    have : l.flatMap (fun e => save_line e.1 e.2.1 e.2.2) =
        unlines (l.map fun e => fmtD ((e.1 + 1 : Nat) : Int) ++ [' '] ++ fmtD ((e.2.1 + 1 : Nat) : Int) ++ [' '] ++
          fmtD e.2.2) := by
      unfold unlines
      rw [List.flatMap_map]
      rfl
    rw [this]
    simp [unlines]

theorem fits_one {n m : Nat} {l : List (Nat × Nat × Int)} (h : Fits n m l) : ∀ e ∈ fromOne l, FitsEntry e := by
  intro e he
  obtain ⟨t, ht, rfl⟩ := List.mem_map.mp he
  have h1 := h.i_lt t ht
  have h2 := h.j_lt t ht
  have h3 := abs_lt.mp (h.x_lt t ht)
  have hn := h.n_lt
  have hm := h.m_lt
  exact ⟨by simp only; omega, by simp only; omega, by simp only; omega, by simp only; omega, by simp only; omega,
    by simp only; omega⟩

/-! ### From the list of a file to the matrix -/

theorem foldl_max_eq {l : List (Int × Int × Int)} (g : Int × Int × Int → Int) {n : Int} (h : ∀ e ∈ l, g e ≤ n) :
    l.foldl (fun a e => max a (g e)) n = n := by
  induction l with
  | nil => rfl
  | cons e l ih =>
    rw [List.foldl_cons, max_eq_left (h e (by simp))]
    exact ih fun e he => h e (by simp [he])

theorem Loaded.dims {vals : Bool} {q : ℕ} {n m : Nat} {l : List (Nat × Nat × Int)} {T : Triplet}
    (h : Loaded vals q n m (fromOne l) T) (hf : Fits n m l) : T.n = n ∧ T.m = m := by
  have h1 := h.n_eq
  have h2 := h.m_eq
  rw [foldl_max_eq] at h1
  · rw [foldl_max_eq (fun e => e.2.1)] at h2
    · omega
    · intro e he
      obtain ⟨t, ht, rfl⟩ := List.mem_map.mp (List.mem_of_mem_filter he)
      have := hf.j_lt t ht
      simp only; omega
  · intro e he
    obtain ⟨t, ht, rfl⟩ := List.mem_map.mp (List.mem_of_mem_filter he)
    have := hf.i_lt t ht
    simp only; omega

theorem tsum_stored {q : ℕ} : ∀ {l : List (Nat × Nat × Int)} {t : List (Nat × Nat × Int)},
    List.Forall₂ (Stored true q) ((fromOne l).filter (kept true q)) t → ∀ i j, tsum q t i j = tsum q l i j := by
  intro l
  induction l with
  | nil => intro t h i j; cases h; rfl
  | cons e l ih =>
    intro t h i j
    by_cases hk : ((e.2.2 : Int) : ZMod q) = 0
    · have : (fromOne (e :: l)).filter (kept true q) = (fromOne l).filter (kept true q) := by
        unfold fromOne
        rw [List.map_cons, List.filter_cons_of_neg]
        simp [kept, hk]
      rw [this] at h
      rw [ih h, tsum_cons, hk]
      simp
    · have : (fromOne (e :: l)).filter (kept true q) =
          ((e.1 : Int) + 1, (e.2.1 : Int) + 1, e.2.2) :: (fromOne l).filter (kept true q) := by
        unfold fromOne
        rw [List.map_cons, List.filter_cons_of_pos]
        simp [kept, hk]
      rw [this] at h
      cases h with
      | @cons _ b _ t' h1 h2 =>
        rw [tsum_cons, tsum_cons, ih h2]
        obtain ⟨a1, a2, a3⟩ := h1
        rw [if_pos rfl] at a3
        simp only at a1 a2 a3
        rw [show b.1 = e.1 by omega, show b.2.1 = e.2.1 by omega, a3.2]

theorem Csr.entry_eq_tsum {A : Csr} (q : ℕ) {i : Nat} (hi : i < A.n) (j : Nat) :
    A.entry q i j = tsum q A.lst i j := by
  unfold Csr.lst
  rw [A.entry_eq_lsum]
  have : ∀ n, tsum q ((List.range n).flatMap fun i => (A.row i).map fun e => (i, e.1, e.2)) i j =
      if i < n then lsum q (A.row i) j else 0 := by
    intro n
    induction n with
    | zero => rfl
    | succ n ih =>
      rw [List.range_succ, List.flatMap_append, tsum_append, ih]
      simp only [List.flatMap_cons, List.flatMap_nil, List.append_nil]
      rw [tsum_row]
      by_cases h1 : i < n
      · rw [if_pos h1, if_neg (by omega), if_pos (by omega), add_zero]
      · rw [if_neg h1, zero_add]
        by_cases h2 : n = i
        · subst h2; rw [if_pos rfl, if_pos (by omega)]
        · rw [if_neg h2, if_neg (by omega)]
  rw [this, if_pos hi]

theorem mem_csr_lst {A : Csr} {e : Nat × Nat × Int} (h : e ∈ A.lst) :
    e.1 < A.n ∧ ∃ k, A.p.g e.1 ≤ k ∧ k < A.p.g (e.1 + 1) ∧ A.j.g k = e.2.1 ∧ A.val k = e.2.2 := by
  unfold Csr.lst at h
  obtain ⟨i, hi, h⟩ := List.mem_flatMap.mp h
  obtain ⟨t, ht, rfl⟩ := List.mem_map.mp h
  obtain ⟨k, hk, rfl⟩ := List.mem_map.mp ht
  rw [List.mem_range'_1] at hk
  exact ⟨List.mem_range.mp hi, k, hk.1, by simp only; omega, rfl, rfl⟩

end Spasm
