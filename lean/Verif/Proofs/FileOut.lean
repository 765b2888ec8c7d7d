import Verif.Proofs.File
import Verif.Proofs.Save

/-! What the tools write, as a file that describes a matrix. -/

namespace Spasm

open Sha Finset

theorem fileEntry_fromOne (q : ℕ) (l : List (Nat × Nat × Int)) (i j : Nat) :
    fileEntry q (fromOne l) i j = tsum q l i j := by
  unfold fileEntry tsum fromOne
  rw [List.map_map]
  congr 1
  refine List.map_congr_left fun e _ => ?_
  have : ((e.1 : Int) + 1 = i + 1 ∧ (e.2.1 : Int) + 1 = j + 1) ↔ (e.1 = i ∧ e.2.1 = j) := by omega
  simp only [Function.comp_apply, this]

theorem isFile_fromOne {n m : Nat} {l : List (Nat × Nat × Int)} (h : Fits n m l) :
    IsFile (saveText n m l) n m (fromOne l) := by
  refine ⟨.inl (saveText_sms h), h.n_lt, h.m_lt, ?_, ?_, ?_⟩
  all_goals
    intro e he
    obtain ⟨t, ht, rfl⟩ := List.mem_map.mp he
    have := h.i_lt t ht
    have := h.j_lt t ht
    have := h.x_lt t ht
    simp only
    first | exact this | omega

/-- What `spasm_csr_save` writes describes the matrix saved. -/
theorem save_file {B : Csr} (hB : B.WF) (hn : B.n < 2 ^ 31) (hm : B.m < 2 ^ 31)
    (hx : ∀ k, k < B.p.g B.n → |B.val k| < 2 ^ 63) :
    Ok (csr_save B) (fun g => IsFile g B.n B.m (fromOne B.lst) ∧
      ∀ q i j, i < B.n → fileEntry q (fromOne B.lst) i j = B.entry q i j) := by
  refine (csr_save_spec hB).mono ?_
  rintro g rfl
  refine ⟨isFile_fromOne (csr_fits hB hn hm hx), fun q i j hi => ?_⟩
  rw [fileEntry_fromOne, Csr.entry_eq_tsum q hi]

theorem save_file_wfv {q : ℕ} {B : Csr} (hB : B.WFV q) (hn : B.n < 2 ^ 31) (hm : B.m < 2 ^ 31) :
    Ok (csr_save B) (fun g => IsFile g B.n B.m (fromOne B.lst) ∧
      ∀ q i j, i < B.n → fileEntry q (fromOne B.lst) i j = B.entry q i j) :=
  save_file hB.toWF hn hm fun k hk => small_lt hB.good (hB.small k hk)

/-- Positions without repeated entries. -/
theorem distinct_lst {B : Csr} (hB : B.WF) (hd : B.NoDup) : Distinct (fromOne B.lst) := by
  unfold Distinct fromOne
  rw [List.pairwise_map]
  unfold Csr.lst
  rw [List.pairwise_flatMap]
  constructor
  · intro i hi
    rw [List.pairwise_map]
    have := nodup_row_iff.mp hd i (List.mem_range.mp hi)
    rw [List.Nodup, List.pairwise_map] at this
    refine this.imp ?_
    intro a b hab h
    apply hab
    simp only at h
    omega
  · have := List.pairwise_lt_range (n := B.n)
    refine this.imp ?_
    intro a b hab e he e' he' hh
    obtain ⟨t, -, rfl⟩ := List.mem_map.mp he
    obtain ⟨t', -, rfl⟩ := List.mem_map.mp he'
    simp only at hh
    omega

/-- The positions of the nonzero entries. -/
theorem FileCsr.inRow {q : ℕ} {n m : Nat} {l : List (Int × Int × Int)} {A : Csr} (h : FileCsr q n m l A) {i j : Nat}
    (hi : i < n) : A.InRow i j ↔ fileEntry q l i j ≠ 0 := by
  rw [← h.entry i j hi]
  have hi' : i < A.n := by rw [h.n_eq]; exact hi
  constructor
  · rintro ⟨k, h1, h2, rfl⟩
    rw [Csr.entry_of_nodup h.nodup hi' h1 h2]
    have hk : k < A.p.g A.n := by have := h.wfv.row_le hi'; omega
    exact fun h0 => h.nozero k hk ((small_eq_zero_iff h.wfv.good.two_le (h.wfv.small k hk)).mp h0)
  · intro hne
    by_contra hno
    apply hne
    unfold Csr.entry
    refine Finset.sum_eq_zero fun k hk => ?_
    rw [Finset.mem_Ico] at hk
    rw [if_neg]
    exact fun e => hno ⟨k, hk.1, hk.2, e⟩

end Spasm
