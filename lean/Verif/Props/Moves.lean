import Verif.Spec.Integers
import Verif.Props.Compose
import Verif.Props.Accept
import Verif.Props.Tools
import Verif.Props.ToolDm

/-!
C80: the programs `transpose`, `stack`, `vertical_swap` and `dm` only move the entries.  They have no option for the
modulus, so that this is expected whatever the modulus of the programs that read their output.

`entryZ` is specified in Spec/Integers.lean, `fileMat` and `fileEntry` in Spec/File.lean.
-/

namespace Spasm

open Sha

theorem fileEntry_entryZ (q : ℕ) (l : List (Int × Int × Int)) (i j : Nat) :
    fileEntry q l i j = (entryZ l i j : ZMod q) := by
  unfold fileEntry entryZ
  induction l with
  | nil => simp
  | cons e l ih =>
    simp only [List.map_cons, List.sum_cons, Int.cast_add, ih]
    split_ifs <;> simp

theorem entryZ_zero {l : List (Int × Int × Int)} {i j : Nat}
    (h : ∀ e ∈ l, ¬ (e.1 = (i : Int) + 1 ∧ e.2.1 = (j : Int) + 1)) : entryZ l i j = 0 := by
  unfold entryZ
  refine List.sum_eq_zero ?_
  intro x hx
  obtain ⟨e, he, rfl⟩ := List.mem_map.mp hx
  exact if_neg (h e he)

/-- Without repeated positions, the entries of the matrix are no larger than the values. -/
theorem entryZ_small {b : Int} (hb : 0 ≤ b) {l : List (Int × Int × Int)} (hd : Distinct l) (h : ∀ e ∈ l, |e.2.2| ≤ b)
    (i j : Nat) : |entryZ l i j| ≤ b := by
  induction l with
  | nil => simpa [entryZ] using hb
  | cons e l ih =>
    have hd' := List.pairwise_cons.mp hd
    have e1 : entryZ (e :: l) i j = (if e.1 = (i : Int) + 1 ∧ e.2.1 = (j : Int) + 1 then e.2.2 else 0) + entryZ l i j := by
      simp [entryZ]
    rw [e1]
    by_cases hc : e.1 = (i : Int) + 1 ∧ e.2.1 = (j : Int) + 1
    · rw [if_pos hc, entryZ_zero, add_zero]
      · exact h e (by simp)
      · intro e' he' hc'
        exact hd'.1 e' he' ⟨by rw [hc.1, hc'.1], by rw [hc.2, hc'.2]⟩
    · rw [if_neg hc, zero_add]
      exact ih hd'.2 fun e he => h e (by simp [he])

theorem eq_of_small {x y : Int} (hx : |x| ≤ 21006) (hy : |y| ≤ 21006) (h : (x : ZMod 42013) = y) : x = y := by
  have h := (ZMod.intCast_eq_intCast_iff_dvd_sub x y 42013).mp h
  obtain ⟨k, hk⟩ := h
  rw [abs_le] at hx hy
  push_cast at hk
  omega

theorem bal_small {x : Int} : Bal 42013 x ↔ |x| ≤ 21006 := by
  unfold Bal
  rw [abs_le]
  norm_num

/-- C80 (transpose). The file that is written describes the transposed matrix reduced modulo 42013: its entries are the
balanced residues of the entries. -/
theorem C80_transpose_residues (jk : Junk) (jw : Nat → W) {f : List Char} {n m : Nat} {l : List (Int × Int × Int)}
    (hf : IsFile f n m l) (hc : NoCancel 42013 l) :
    Ok (tool_transpose jk jw f) (fun g => ∃ l', IsFile g m n l' ∧
      ∀ i j, i < n → j < m → |entryZ l' j i| ≤ 21006 ∧ (entryZ l' j i : ZMod 42013) = entryZ l i j) := by
  unfold tool_transpose
  rw [Ok_bind]
  refine (load_file jk jw (q := 42013) (by decide) hf (hash := none) (by rintro _ h; cases h)).mono ?_
  rintro ⟨T, hash⟩ hT
  rw [Ok_bind]
  refine (compress_file jk hT hc).mono fun A hA => ?_
  rw [Ok_bind]
  refine ((C04_transpose jk A hA.wfv.toWF true).and (transpose_clean jk hA.wfv hA.nodup hA.nozero)).mono ?_
  rintro B ⟨⟨-, -, -, -, -, b4, -⟩, h1, h2, h3, h4, h5⟩
  rw [hA.m_eq] at h2
  rw [hA.n_eq] at h3
  have hml := hf.m_lt
  have hnl := hf.n_lt
  refine (save_file_wfv h1 (by omega) (by omega)).mono ?_
  rintro g ⟨g1, g2⟩
  have hsm : ∀ e ∈ fromOne B.lst, |e.2.2| ≤ 21006 := by
    intro e he
    unfold fromOne Csr.lst at he
    simp only [List.map_flatMap, List.mem_flatMap, List.map_map, List.mem_map, List.mem_range,
      Function.comp_apply] at he
    obtain ⟨i, hi, a, ha, rfl⟩ := he
    obtain ⟨k, k1, k2, rfl⟩ := Csr.mem_seg.mp ha
    have := h1.small k (h1.toWF.row_lt hi k2)
    unfold Small at this
    rw [abs_le]
    norm_num at this ⊢
    exact this
  rw [h2, h3] at g1
  refine ⟨_, g1, fun i j hi hj => ⟨entryZ_small (by norm_num) (distinct_lst h1.toWF h4) hsm j i, ?_⟩⟩
  rw [← fileEntry_entryZ, ← fileEntry_entryZ, g2 42013 j i (by omega), ← hA.entry i j hi]
  exact b4 rfl 42013 i j (by rw [hA.n_eq]; exact hi) (by rw [hA.m_eq]; exact hj)

/-- C80 (transpose). If the entries of the matrix are at most 21006 in absolute value, the file that is written
describes the transposed matrix, whatever the modulus.  `_partial`: the condition is needed (`C80_modulus`). -/
theorem C80_transpose_partial (jk : Junk) (jw : Nat → W) {f : List Char} {n m : Nat} {l : List (Int × Int × Int)}
    (hf : IsFile f n m l) (hc : NoCancel 42013 l) (hs : ∀ i j, |entryZ l i j| ≤ 21006) :
    Ok (tool_transpose jk jw f) (fun g => ∃ l', IsFile g m n l' ∧
      ∀ q, fileMat q m n l' = (fileMat q n m l).transpose) := by
  refine (C80_transpose_residues jk jw hf hc).mono ?_
  rintro g ⟨l', g1, g2⟩
  refine ⟨l', g1, fun q => ?_⟩
  ext j i
  obtain ⟨a1, a2⟩ := g2 i j i.isLt j.isLt
  simp only [fileMat, Matrix.transpose_apply]
  rw [fileEntry_entryZ, fileEntry_entryZ, eq_of_small a1 (hs i j) a2]

/-! ### vertical_swap and stack -/

theorem tsum_nonzero (q : ℕ) (t : List (Nat × Nat × Int)) (i j : Nat) :
    tsum q (t.filter fun e => decide (e.2.2 ≠ 0)) i j = tsum q t i j := by
  induction t with
  | nil => rfl
  | cons e t ih =>
    unfold tsum at ih ⊢
    by_cases h : e.2.2 = 0
    · rw [List.filter_cons_of_neg (by simp [h]), ih]
      simp [h]
    · rw [List.filter_cons_of_pos (by simp [h])]
      simp only [List.map_cons, List.sum_cons, ih]

/-- What is loaded from a file with small values: the nonzero entries themselves. -/
theorem load_small (jk : Junk) (jw : Nat → W) {f : List Char} {n m : Nat} {l : List (Int × Int × Int)}
    (hf : IsFile f n m l) (hs : ∀ e ∈ l, |e.2.2| ≤ 21006) :
    ∃ T md, triplet_load jk jw f 42013 none = .ok (T, md) ∧ T.n = n ∧ T.m = m ∧
      T.lst = (zeroed l).filter fun e => decide (e.2.2 ≠ 0) := by
  have hfit := hf.fits
  have hone := fits_one hfit
  rw [hf.fromOne] at hone
  have hnl := hf.n_lt
  have hml := hf.m_lt
  have key : Ok (triplet_load jk jw f 42013 none) (fun r => Loaded true 42013 n m l r.1) := by
    have hh : HashBuf none := by rintro _ h; cases h
    rcases hf.format with hs | ⟨hs, h1, h2⟩
    · exact (C41_sms jk jw field_42013 hs (by omega) (by omega) hone hh).mono fun _ h => h.1
    · exact (C41_mm jk jw field_42013 hs (by omega) (by omega) hone h1 h2 hh).mono fun _ h => h.1
  obtain ⟨⟨T, md⟩, e, h1⟩ := Ok_iff.mp key
  simp only at h1
  rw [← hf.fromOne] at h1
  obtain ⟨d1, d2⟩ := h1.dims hfit
  refine ⟨T, md, e, d1, d2, stored_bal (by decide) ?_ h1.lst⟩
  intro e he
  obtain ⟨e', he', rfl⟩ := List.mem_map.mp he
  exact bal_small.mpr (hs e' he')

/-- C80 (vertical_swap). If the values of the file are at most 21006 in absolute value, the file that is written
describes the matrix with its columns in reverse order, whatever the modulus. -/
theorem C80_swap_partial (jk : Junk) (jw : Nat → W) {f : List Char} {n m : Nat} {l : List (Int × Int × Int)}
    (hf : IsFile f n m l) (hs : ∀ e ∈ l, |e.2.2| ≤ 21006) :
    Ok (tool_vertical_swap jk jw f) (fun g => ∃ l', IsFile g n m l' ∧
      ∀ q i j, j < m → fileEntry q l' i j = fileEntry q l i (m - 1 - j)) := by
  obtain ⟨T, md, e, h1, h2, h3⟩ := load_small jk jw hf hs
  have hnl := hf.n_lt
  have hml := hf.m_lt
  refine (C43_swap e (by omega) (by omega)).mono ?_
  rintro g ⟨-, hg⟩
  rw [h1, h2, h3] at hg
  have hlt : ∀ e ∈ zeroed l, e.1 < n ∧ e.2.1 < m ∧ |e.2.2| < 2 ^ 63 := fun e he =>
    ⟨hf.fits.i_lt e he, hf.fits.j_lt e he, hf.fits.x_lt e he⟩
  refine ⟨_, ⟨.inl hg, hnl, hml, ?_, ?_, ?_⟩, ?_⟩
  · intro e he
    obtain ⟨a, ha, rfl⟩ := List.mem_map.mp he
    obtain ⟨b, hb, rfl⟩ := List.mem_map.mp ha
    have := hlt b (List.mem_filter.mp hb).1
    simp only; omega
  · intro e he
    obtain ⟨a, ha, rfl⟩ := List.mem_map.mp he
    obtain ⟨b, hb, rfl⟩ := List.mem_map.mp ha
    have := hlt b (List.mem_filter.mp hb).1
    simp only; omega
  · intro e he
    obtain ⟨a, ha, rfl⟩ := List.mem_map.mp he
    obtain ⟨b, hb, rfl⟩ := List.mem_map.mp ha
    exact (hlt b (List.mem_filter.mp hb).1).2.2
  · intro q i j hj
    rw [fileEntry_fromOne, hf.entry, ← tsum_nonzero q (zeroed l)]
    unfold tsum mirrored
    rw [List.map_map]
    congr 1
    refine List.map_congr_left fun e he => ?_
    have := hlt e (List.mem_filter.mp he).1
    simp only [Function.comp_apply]
    have hiff : (e.1 = i ∧ m - 1 - e.2.1 = j) ↔ (e.1 = i ∧ e.2.1 = m - 1 - j) := by omega
    simp only [hiff]

theorem tsum_unused_row {q : ℕ} {t : List (Nat × Nat × Int)} {i : Nat} (h : ¬ RowUsed t i) (j : Nat) : tsum q t i j = 0 := by
  refine List.sum_eq_zero ?_
  intro x hx
  obtain ⟨e, he, rfl⟩ := List.mem_map.mp hx
  exact if_neg fun hc => h ⟨e, he, hc.1⟩

theorem tsum_unused_col {q : ℕ} {t : List (Nat × Nat × Int)} {j : Nat} (h : ¬ ColUsed t j) (i : Nat) : tsum q t i j = 0 := by
  refine List.sum_eq_zero ?_
  intro x hx
  obtain ⟨e, he, rfl⟩ := List.mem_map.mp hx
  exact if_neg fun hc => h ⟨e, he, hc.2⟩

/-- C80 (stack). If the values of the file are at most 21006 in absolute value (and there are less than `2^31` of them),
the file that is written describes the matrix without some of its rows and columns, which are zero, whatever the
modulus. -/
theorem C80_stack_partial (jk : Junk) (jw : Nat → W) {f : List Char} {n m : Nat} {l : List (Int × Int × Int)}
    (hf : IsFile f n m l) (hs : ∀ e ∈ l, |e.2.2| ≤ 21006) (hl : l.length < 2 ^ 31) :
    Ok (tool_stack jk jw f) (fun g => ∃ (n' m' : Nat) (l' : List (Int × Int × Int)) (r c : Nat → Nat),
      IsFile g n' m' l' ∧
      (∀ a, a < n' → r a < n) ∧ (∀ a b, a < b → b < n' → r a < r b) ∧
      (∀ a, a < m' → c a < m) ∧ (∀ a b, a < b → b < m' → c a < c b) ∧
      (∀ q a b, a < n' → b < m' → fileEntry q l' a b = fileEntry q l (r a) (c b)) ∧
      (∀ q i j, (∀ a, a < n' → r a ≠ i) → fileEntry q l i j = 0) ∧
      (∀ q i j, (∀ b, b < m' → c b ≠ j) → fileEntry q l i j = 0)) := by
  obtain ⟨T, md, e, h1, h2, h3⟩ := load_small jk jw hf hs
  have hnl := hf.n_lt
  have hml := hf.m_lt
  have hnz : T.nz < 2 ^ 31 := by
    have : T.nz = T.lst.length := by simp [Triplet.lst]
    rw [this, h3]
    refine lt_of_le_of_lt (List.length_filter_le _ _) ?_
    simpa [zeroed] using hl
  refine (C43_stack e (by omega) (by omega) hnz).mono ?_
  intro g hg
  have hlt : ∀ e ∈ T.lst, e.1 < n ∧ e.2.1 < m ∧ |e.2.2| < 2 ^ 63 := fun e he => by
    rw [h3] at he
    have he := (List.mem_filter.mp he).1
    exact ⟨hf.fits.i_lt e he, hf.fits.j_lt e he, hf.fits.x_lt e he⟩
  rw [h1, h2] at hg
  obtain ⟨k1, k2, k3, k4, k5⟩ := C43_stack_entries (n := n) (m := m) (l := T.lst) (fun e he => (hlt e he).1)
    (fun e he => (hlt e he).2.1)
  have hr : ∀ a, ∃ i, a < Nat.count (RowUsed T.lst) n → RowUsed T.lst i ∧ Nat.count (RowUsed T.lst) i = a := by
    intro a
    by_cases h : a < Nat.count (RowUsed T.lst) n
    · obtain ⟨i, hi⟩ := (k2 a).mp h
      exact ⟨i, fun _ => hi⟩
    · exact ⟨0, fun h' => absurd h' h⟩
  have hc : ∀ a, ∃ i, a < Nat.count (ColUsed T.lst) m → ColUsed T.lst i ∧ Nat.count (ColUsed T.lst) i = a := by
    intro a
    by_cases h : a < Nat.count (ColUsed T.lst) m
    · obtain ⟨i, hi⟩ := (k4 a).mp h
      exact ⟨i, fun _ => hi⟩
    · exact ⟨0, fun h' => absurd h' h⟩
  choose r hr using hr
  choose c hc using hc
  have hcn : Nat.count (RowUsed T.lst) n ≤ n := Nat.count_le _
  have hcm : Nat.count (ColUsed T.lst) m ≤ m := Nat.count_le _
  have hent : ∀ q i j, fileEntry q l i j = tsum q T.lst i j := by
    intro q i j
    rw [hf.entry, h3, tsum_nonzero]
  refine ⟨_, _, _, r, c, ⟨.inl hg, by omega, by omega, ?_, ?_, ?_⟩, ?_, ?_, ?_, ?_, ?_, ?_, ?_⟩
  · intro e he
    obtain ⟨a, ha, rfl⟩ := List.mem_map.mp he
    obtain ⟨b, hb, rfl⟩ := List.mem_map.mp ha
    have := (k2 (Nat.count (RowUsed T.lst) b.1)).mpr ⟨b.1, ⟨b, hb, rfl⟩, rfl⟩
    simp only; omega
  · intro e he
    obtain ⟨a, ha, rfl⟩ := List.mem_map.mp he
    obtain ⟨b, hb, rfl⟩ := List.mem_map.mp ha
    have := (k4 (Nat.count (ColUsed T.lst) b.2.1)).mpr ⟨b.2.1, ⟨b, hb, rfl⟩, rfl⟩
    simp only; omega
  · intro e he
    obtain ⟨a, ha, rfl⟩ := List.mem_map.mp he
    obtain ⟨b, hb, rfl⟩ := List.mem_map.mp ha
    exact (hlt b hb).2.2
  · intro a ha
    obtain ⟨⟨e, he, h⟩, -⟩ := hr a ha
    rw [← h]; exact (hlt e he).1
  · intro a b hab hb
    obtain ⟨u1, u2⟩ := hr a (by omega)
    obtain ⟨v1, v2⟩ := hr b hb
    exact (k1 _ _ u1 v1).mp (by omega)
  · intro a ha
    obtain ⟨⟨e, he, h⟩, -⟩ := hc a ha
    rw [← h]; exact (hlt e he).2.1
  · intro a b hab hb
    obtain ⟨u1, u2⟩ := hc a (by omega)
    obtain ⟨v1, v2⟩ := hc b hb
    exact (k3 _ _ u1 v1).mp (by omega)
  · intro q a b ha hb
    obtain ⟨u1, u2⟩ := hr a ha
    obtain ⟨v1, v2⟩ := hc b hb
    have := k5 q _ _ u1 v1
    rw [u2, v2] at this
    rw [fileEntry_fromOne, this, hent]
  · intro q i j h
    rw [hent]
    refine tsum_unused_row (fun hu => ?_) j
    have ha := (k2 (Nat.count (RowUsed T.lst) i)).mpr ⟨i, hu, rfl⟩
    obtain ⟨u1, u2⟩ := hr _ ha
    refine h _ ha ?_
    have a1 := k1 _ _ u1 hu
    have a2 := k1 _ _ hu u1
    omega
  · intro q i j h
    rw [hent]
    refine tsum_unused_col (fun hu => ?_) i
    have ha := (k4 (Nat.count (ColUsed T.lst) j)).mpr ⟨j, hu, rfl⟩
    obtain ⟨u1, u2⟩ := hc _ ha
    refine h _ ha ?_
    have a1 := k3 _ _ u1 hu
    have a2 := k3 _ _ hu u1
    omega

/-! ### dm -/

theorem dm_decompose_nodup (jk : Junk) {A : Csr} (hA : A.WF) (hd : A.NoDup) :
    Ok (dm_decompose jk A) (fun r => r.2.NoDup) := by
  unfold dm_decompose
  rw [Ok_bind]
  refine (C34_dulmage_mendelsohn jk A hA).mono ?_
  rintro D ⟨h1, -, -⟩
  rw [Ok_bind]
  refine (C05_pinv jk (some D.q) A.m (by rintro a h; cases h; exact h1.q_size.ge) h1.perm_q).mono ?_
  rintro qinv ⟨a1, a2, a3, a4⟩
  rw [Ok_bind]
  refine (C06_permute jk A hA (some D.p) qinv true (by rintro a h; cases h; exact h1.p_size.ge) h1.perm_p a1 a2).mono ?_
  rintro B ⟨b1, b2, b3, b4, -⟩
  rw [nodup_row_iff] at hd
  rw [Ok_ok, nodup_row_iff]
  intro i hi
  rw [b2] at hi
  have hpi : D.p.g i < A.n := h1.perm_p.1 i hi
  have h := hd _ hpi
  rw [b4 i hi, List.map_map]
  rw [List.Nodup, List.pairwise_map] at h ⊢
  refine h.imp_of_mem ?_
  intro a b ha hb hab he
  refine hab (a2.2 _ _ ?_ ?_ he)
  · obtain ⟨k, k1, k2, rfl⟩ := Csr.mem_seg.mp ha
    exact hA.j_lt k (by have := hA.row_le hpi; exact lt_of_lt_of_le k2 this.2)
  · obtain ⟨k, k1, k2, rfl⟩ := Csr.mem_seg.mp hb
    exact hA.j_lt k (by have := hA.row_le hpi; exact lt_of_lt_of_le k2 this.2)

/-- C80 (dm). The file that is written describes the permuted matrix reduced modulo 42013. -/
theorem C80_dm_residues (jk : Junk) (jw : Nat → W) {f : List Char} {n m : Nat} {l : List (Int × Int × Int)}
    (hf : IsFile f n m l) (hc : NoCancel 42013 l) :
    Ok (tool_dm jk jw f) (fun g => ∃ (l' : List (Int × Int × Int)) (p q : Nat → Nat), IsFile g n m l' ∧
      IsPerm p n ∧ IsPerm q m ∧ ∀ i j, i < n → j < m →
        |entryZ l' i j| ≤ 21006 ∧ (entryZ l' i j : ZMod 42013) = entryZ l (p i) (q j)) := by
  unfold tool_dm
  refine tool_load jk jw (q := 42013) (by omega) hf hc ?_
  intro A hA
  rw [Ok_bind]
  refine ((dm_decompose_spec jk hA.wfv.toWF).and (dm_decompose_nodup jk hA.wfv.toWF hA.nodup)).mono ?_
  rintro ⟨D, B⟩ ⟨⟨h1, -, -, hB, hBn, hBm, hBz, -, hBe, hBv⟩, hnd⟩
  simp only at *
  have hAn := hA.n_eq
  have hAm := hA.m_eq
  have hsB : ∀ k, k < B.p.g B.n → Small 42013 (B.val k) := by
    intro k hk
    have hx : A.x.isSome = true := hA.wfv.has_x (by omega)
    exact (hBv 42013 hx hA.wfv).small k hk
  refine (save_file hB (by rw [hBn, hAn]; exact hf.n_lt) (by rw [hBm, hAm]; exact hf.m_lt) ?_).mono ?_
  · intro k hk
    exact small_lt hA.wfv.good (hsB k hk)
  rintro g ⟨g1, g2⟩
  rw [hBn, hBm, hAn, hAm] at g1
  have hsm : ∀ e ∈ fromOne B.lst, |e.2.2| ≤ 21006 := by
    intro e he
    unfold fromOne Csr.lst at he
    simp only [List.map_flatMap, List.mem_flatMap, List.map_map, List.mem_map, List.mem_range,
      Function.comp_apply] at he
    obtain ⟨i, hi, a, ha, rfl⟩ := he
    obtain ⟨k, k1, k2, rfl⟩ := Csr.mem_seg.mp ha
    have := hsB k (hB.row_lt hi k2)
    unfold Small at this
    rw [abs_le]
    norm_num at this ⊢
    exact this
  refine ⟨_, fun i => D.p.g i, fun j => D.q.g j, g1, by rw [← hAn]; exact h1.perm_p, by rw [← hAm]; exact h1.perm_q,
    fun i j hi hj => ⟨entryZ_small (by norm_num) (distinct_lst hB hnd) hsm i j, ?_⟩⟩
  have hpi := h1.perm_p.1 i (by omega)
  rw [← fileEntry_entryZ, ← fileEntry_entryZ, g2 _ _ _ (by omega), hBe _ _ _ (by omega) (by omega),
    hA.entry _ _ (by omega)]

/-- C80 (dm). If the entries of the matrix are at most 21006 in absolute value, the rows and columns of the matrix are
permuted, whatever the modulus.  `_partial`: the condition is needed (`C80_modulus_dm`). -/
theorem C80_dm_partial (jk : Junk) (jw : Nat → W) {f : List Char} {n m : Nat} {l : List (Int × Int × Int)}
    (hf : IsFile f n m l) (hc : NoCancel 42013 l) (hs : ∀ i j, |entryZ l i j| ≤ 21006) :
    Ok (tool_dm jk jw f) (fun g => ∃ (l' : List (Int × Int × Int)) (p q : Nat → Nat), IsFile g n m l' ∧
      IsPerm p n ∧ IsPerm q m ∧ ∀ r i j, i < n → j < m → fileEntry r l' i j = fileEntry r l (p i) (q j)) := by
  refine (C80_dm_residues jk jw hf hc).mono ?_
  rintro g ⟨l', p, q, g1, hp, hq, g2⟩
  refine ⟨l', p, q, g1, hp, hq, fun r i j hi hj => ?_⟩
  obtain ⟨a1, a2⟩ := g2 i j hi hj
  rw [fileEntry_entryZ, fileEntry_entryZ, eq_of_small a1 (hs _ _) a2]

/-! ### The rank -/

/-- Reordering the rows and the columns. -/
theorem rank_moved {q : ℕ} [Fact q.Prime] {n m : Nat} {l l' : List (Int × Int × Int)} {p c : Nat → Nat}
    (hp : IsPerm p n) (hc : IsPerm c m)
    (h : ∀ i j, i < n → j < m → fileEntry q l' i j = fileEntry q l (p i) (c j)) :
    (fileMat q n m l').rank = (fileMat q n m l).rank := by
  have e : ∀ {k : Nat} {p : Nat → Nat}, IsPerm p k → ∃ e : Fin k ≃ Fin k, ∀ i, (e i : Nat) = p i := by
    intro k p hp
    have hi : Function.Injective (fun i : Fin k => (⟨p i, hp.1 i i.isLt⟩ : Fin k)) := by
      intro a b hab
      exact Fin.ext (hp.2 a b a.isLt b.isLt (by simpa using hab))
    exact ⟨Equiv.ofBijective _ ((Finite.injective_iff_bijective).mp hi), fun i => rfl⟩
  obtain ⟨e1, h1⟩ := e hp
  obtain ⟨e2, h2⟩ := e hc
  have : fileMat q n m l' = (fileMat q n m l).submatrix e1 e2 := by
    ext i j
    simp only [fileMat, Matrix.submatrix_apply, h1, h2]
    exact h i j i.isLt j.isLt
  rw [this, Matrix.rank_submatrix]

/-- Deleting zero rows and columns. -/
theorem rank_stacked {q : ℕ} [Fact q.Prime] {n m n' m' : Nat} {l l' : List (Int × Int × Int)} {r c : Nat → Nat}
    (hr : ∀ a, a < n' → r a < n) (hr' : ∀ a b, a < b → b < n' → r a < r b)
    (hc : ∀ a, a < m' → c a < m) (hc' : ∀ a b, a < b → b < m' → c a < c b)
    (h : ∀ a b, a < n' → b < m' → fileEntry q l' a b = fileEntry q l (r a) (c b))
    (h1 : ∀ i j, (∀ a, a < n' → r a ≠ i) → fileEntry q l i j = 0)
    (h2 : ∀ i j, (∀ b, b < m' → c b ≠ j) → fileEntry q l i j = 0) :
    (fileMat q n' m' l').rank = (fileMat q n m l).rank := by
  let rf : Fin n' → Fin n := fun a => ⟨r a, hr a a.isLt⟩
  let cf : Fin m' → Fin m := fun a => ⟨c a, hc a a.isLt⟩
  have rinj : Function.Injective rf := by
    intro a b hab
    have : r a = r b := congrArg Fin.val hab
    rcases lt_trichotomy a.val b.val with h | h | h
    · have := hr' _ _ h b.isLt; omega
    · exact Fin.ext h
    · have := hr' _ _ h a.isLt; omega
  have cinj : Function.Injective cf := by
    intro a b hab
    have : c a = c b := congrArg Fin.val hab
    rcases lt_trichotomy a.val b.val with h | h | h
    · have := hc' _ _ h b.isLt; omega
    · exact Fin.ext h
    · have := hc' _ _ h a.isLt; omega
  have hS : fileMat q n' m' l' = (fileMat q n m l).submatrix rf cf := by
    ext a b
    exact h a b a.isLt b.isLt
  refine le_antisymm ?_ ?_
  · rw [hS]
    exact Matrix.rank_submatrix_le _ _ _
  · let P : Matrix (Fin n) (Fin n') (ZMod q) := fun i a => if rf a = i then 1 else 0
    let Q : Matrix (Fin m') (Fin m) (ZMod q) := fun b j => if cf b = j then 1 else 0
    have hA : fileMat q n m l = P * fileMat q n' m' l' * Q := by
      ext i j
      rw [Matrix.mul_assoc, Matrix.mul_apply]
      by_cases hi : ∃ a, rf a = i
      · obtain ⟨a, rfl⟩ := hi
        rw [Finset.sum_eq_single a]
        · simp only [P, if_true, one_mul]
          rw [Matrix.mul_apply]
          by_cases hj : ∃ b, cf b = j
          · obtain ⟨b, rfl⟩ := hj
            rw [Finset.sum_eq_single b]
            · simp only [Q, if_true, mul_one]
              exact (h a b a.isLt b.isLt).symm
            · intro b' _ hb
              simp only [Q]
              rw [if_neg (fun e => hb (cinj e)), mul_zero]
            · simp
          · rw [Finset.sum_eq_zero]
            · refine h2 _ _ fun b hb e => hj ⟨⟨b, hb⟩, Fin.ext e⟩
            · intro b _
              simp only [Q]
              rw [if_neg (fun e => hj ⟨b, e⟩), mul_zero]
        · intro a' _ ha
          simp only [P]
          rw [if_neg (fun e => ha (rinj e)), zero_mul]
        · simp
      · rw [Finset.sum_eq_zero]
        · refine h1 _ _ fun a ha e => hi ⟨⟨a, ha⟩, Fin.ext e⟩
        · intro a _
          simp only [P]
          rw [if_neg (fun e => hi ⟨a, e⟩), zero_mul]
    rw [hA]
    exact (Matrix.rank_mul_le_left _ _).trans (Matrix.rank_mul_le_right _ _)

/-- C80 (rank). For all primes at once, the four programs keep the rank of a matrix whose values are at most 21006 in
absolute value.  `_partial`: the condition is needed (`C80_modulus`). -/
theorem C80_rank_partial (jk : Junk) (jw : Nat → W) {f : List Char} {n m : Nat} {l : List (Int × Int × Int)}
    (hf : IsFile f n m l) (hd : Distinct l) (hs : ∀ e ∈ l, |e.2.2| ≤ 21006) (hl : l.length < 2 ^ 31) :
    Ok (tool_transpose jk jw f) (fun g => ∃ l', IsFile g m n l' ∧
      ∀ q, q.Prime → (fileMat q m n l').rank = (fileMat q n m l).rank) ∧
    Ok (tool_vertical_swap jk jw f) (fun g => ∃ l', IsFile g n m l' ∧
      ∀ q, q.Prime → (fileMat q n m l').rank = (fileMat q n m l).rank) ∧
    Ok (tool_stack jk jw f) (fun g => ∃ n' m' l', IsFile g n' m' l' ∧
      ∀ q, q.Prime → (fileMat q n' m' l').rank = (fileMat q n m l).rank) ∧
    Ok (tool_dm jk jw f) (fun g => ∃ l', IsFile g n m l' ∧
      ∀ q, q.Prime → (fileMat q n m l').rank = (fileMat q n m l).rank) := by
  have hz := entryZ_small (by norm_num) hd hs
  refine ⟨?_, ?_, ?_, ?_⟩
  · refine (C80_transpose_partial jk jw hf hd.noCancel hz).mono ?_
    rintro g ⟨l', g1, g2⟩
    refine ⟨l', g1, fun q hq => ?_⟩
    have : Fact q.Prime := ⟨hq⟩
    rw [g2, Matrix.rank_transpose]
  · refine (C80_swap_partial jk jw hf hs).mono ?_
    rintro g ⟨l', g1, g2⟩
    refine ⟨l', g1, fun q hq => ?_⟩
    have : Fact q.Prime := ⟨hq⟩
    refine rank_moved (p := id) (c := fun j => m - 1 - j) ⟨fun i hi => hi, fun a b _ _ h => h⟩
      ⟨fun j hj => ?_, fun a b ha hb h => ?_⟩ fun i j _ hj => g2 q i j hj
    · simp only; omega
    · simp only at h; omega
  · refine (C80_stack_partial jk jw hf hs hl).mono ?_
    rintro g ⟨n', m', l', r, c, g1, a1, a2, a3, a4, a5, a6, a7⟩
    refine ⟨n', m', l', g1, fun q hq => ?_⟩
    have : Fact q.Prime := ⟨hq⟩
    exact rank_stacked a1 a2 a3 a4 (a5 q) (a6 q) (a7 q)
  · refine (C80_dm_partial jk jw hf hd.noCancel hz).mono ?_
    rintro g ⟨l', p, c, g1, hp, hc, g2⟩
    refine ⟨l', g1, fun q hq => ?_⟩
    have : Fact q.Prime := ⟨hq⟩
    exact rank_moved hp hc (g2 q)

/-! ### Larger values -/

/-- A file describes one list of entries only. -/
theorem IsFile.eq {f : List Char} {n m n' m' : Nat} {l l' : List (Int × Int × Int)} (h : IsFile f n m l)
    (h' : IsFile f n' m' l') : n = n' ∧ m = m' ∧ l = l' := by
  have fit : ∀ {n m : Nat} {l : List (Int × Int × Int)}, IsFile f n m l → Fit n m l := by
    intro n m l h
    have h1 := h.n_lt
    have h2 := h.m_lt
    refine ⟨by omega, by omega, fun e he => ?_, fun e he => ?_, fun e he => ?_⟩
    · have := h.row e he; omega
    · have := h.col e he; omega
    · have := abs_lt.mp (h.val e he); omega
  obtain ⟨a, b, c⟩ := C79_unique (C79_documented true h.format).1 (fit h) (C79_documented true h'.format).1 (fit h')
  exact ⟨by exact_mod_cast a, by exact_mod_cast b, c⟩

/-- A matrix with one entry. -/
def exLarge : List Char := "1 1 M\n1 1 42013\n0 0 0\n".toList

theorem exLarge_file : IsFile exLarge 1 1 [(1, 1, 42013)] := by
  refine ⟨.inl ?_, by decide, by decide, by decide, by decide, by decide⟩
  refine ⟨"1 1 M".toList, ["1 1 42013".toList], "0 0 0".toList, [],
    ⟨⟨by decide, by decide, by decide⟩, [], [' '], [' '], [], by simp [Blank], by simp [Blank],
      by simp [Blank], by simp, by decide +kernel⟩, .cons ?_ .nil, ?_, by simp, by decide +kernel⟩
  · exact ⟨⟨by decide, by decide, by decide⟩, [], [' '], [' '], [], by simp [Blank], by simp [Blank],
      by simp [Blank], by simp, by simp, by simp, by decide +kernel⟩
  · exact ⟨⟨by decide, by decide, by decide⟩, [], [' '], [' '], [], by simp [Blank], by simp [Blank],
      by simp [Blank], by simp, by simp, by simp, by decide +kernel⟩

theorem exLarge_load (jk : Junk) (jw : Nat → W) {f : List Char} (hf : IsFile f 1 1 [(1, 1, 42013)]) :
    ∃ T md, triplet_load jk jw f 42013 none = .ok (T, md) ∧ T.n = 1 ∧ T.m = 1 ∧ T.nz = 0 ∧ T.lst = [] := by
  obtain ⟨⟨T, md⟩, e, h⟩ := Ok_iff.mp (load_file jk jw (q := 42013) (by decide +kernel) hf (hash := none)
    (by rintro _ h; cases h))
  have hz : T.nz = 0 := by
    by_contra h0
    obtain ⟨e, he, -, -, h1⟩ := h.has (T.i.g 0) (T.j.g 0) ⟨0, by simp only at h0 ⊢; omega, rfl, rfl⟩
    rw [List.mem_singleton.mp he] at h1
    exact h1 (by decide)
  exact ⟨T, md, e, h.n_eq, h.m_eq, hz, by simp [Triplet.lst, hz]⟩

/-- C80 (the condition is needed). Modulo any number other than 42013 (and 1), the matrix with one entry 42013 is not
zero, but the three programs write the zero matrix. -/
theorem C80_modulus {q : ℕ} (hq : q ≠ 1) (hq' : q ≠ 42013) (jk : Junk) (jw : Nat → W) {f : List Char}
    (hf : IsFile f 1 1 [(1, 1, 42013)]) :
    fileEntry q [(1, 1, 42013)] 0 0 ≠ 0 ∧
    (∃ g, tool_transpose jk jw f = .ok g ∧ ∀ n m l, IsFile g n m l → n = 1 ∧ m = 1 ∧ fileEntry q l 0 0 = 0) ∧
    (∃ g, tool_vertical_swap jk jw f = .ok g ∧ ∀ n m l, IsFile g n m l → n = 1 ∧ m = 1 ∧ fileEntry q l 0 0 = 0) ∧
    (∃ g, tool_stack jk jw f = .ok g ∧ ∀ n m l, IsFile g n m l → n = 0 ∧ m = 0) := by
  obtain ⟨T, md, e, h1, h2, h3, h4⟩ := exLarge_load jk jw hf
  refine ⟨?_, ?_, ?_, ?_⟩
  · rw [fileEntry_entryZ]
    have : entryZ [(1, 1, 42013)] 0 0 = ((42013 : ℕ) : Int) := by decide
    rw [this, Int.cast_natCast, Ne, ZMod.natCast_eq_zero_iff]
    intro hd
    rcases (Nat.dvd_prime prime_42013.out).mp hd with h | h
    · exact hq h
    · exact hq' h
  · have hc : NoCancel 42013 [(1, 1, 42013)] := by
      intro e he h0
      rw [List.mem_singleton.mp he] at h0
      exact absurd (by decide) h0
    obtain ⟨g, eg, l', g1, g2⟩ := Ok_iff.mp (C80_transpose_residues jk jw hf hc)
    refine ⟨g, eg, fun n m l hl => ?_⟩
    obtain ⟨rfl, rfl, rfl⟩ := g1.eq hl
    obtain ⟨a1, a2⟩ := g2 0 0 (by decide) (by decide)
    refine ⟨rfl, rfl, ?_⟩
    rw [fileEntry_entryZ, eq_of_small a1 (y := 0) (by decide) (by rw [a2]; decide)]
    simp
  · obtain ⟨g, eg, -, hg⟩ := Ok_iff.mp (C43_swap e (by omega) (by omega))
    rw [h1, h2, h4] at hg
    refine ⟨g, eg, fun n m l hl => ?_⟩
    obtain ⟨rfl, rfl, rfl⟩ := (IsFile.mk (n := 1) (m := 1) (.inl hg) (by decide) (by decide) (by decide) (by decide)
      (by decide)).eq hl
    exact ⟨rfl, rfl, rfl⟩
  · obtain ⟨g, eg, hg⟩ := Ok_iff.mp (C43_stack e (by omega) (by omega) (by omega))
    rw [h1, h2, h4] at hg
    refine ⟨g, eg, fun n m l hl => ?_⟩
    obtain ⟨rfl, rfl, rfl⟩ := (IsFile.mk (n := 0) (m := 0) (.inl hg) (by decide) (by decide) (by decide) (by decide)
      (by decide)).eq hl
    exact ⟨rfl, rfl⟩

/-- There is such a file. -/
example : IsFile exLarge 1 1 [(1, 1, 42013)] := exLarge_file

/-- C80 (the condition is needed, dm). -/
theorem C80_modulus_dm {q : ℕ} (hq : q ≠ 1) (hq' : q ≠ 42013) (jk : Junk) (jw : Nat → W) {f : List Char}
    (hf : IsFile f 1 1 [(1, 1, 42013)]) :
    fileEntry q [(1, 1, 42013)] 0 0 ≠ 0 ∧
    ∃ g, tool_dm jk jw f = .ok g ∧ ∀ n m l, IsFile g n m l → n = 1 ∧ m = 1 ∧ fileEntry q l 0 0 = 0 := by
  refine ⟨(C80_modulus hq hq' jk jw hf).1, ?_⟩
  have hc : NoCancel 42013 [(1, 1, 42013)] := by
    intro e he h0
    rw [List.mem_singleton.mp he] at h0
    exact absurd (by decide) h0
  obtain ⟨g, eg, l', p, r, g1, hp, hr, g2⟩ := Ok_iff.mp (C80_dm_residues jk jw hf hc)
  refine ⟨g, eg, fun n m l hl => ?_⟩
  obtain ⟨rfl, rfl, rfl⟩ := g1.eq hl
  obtain ⟨a1, a2⟩ := g2 0 0 (by decide) (by decide)
  have p0 := hp.1 0 (by decide)
  have r0 := hr.1 0 (by decide)
  rw [show p 0 = 0 by omega, show r 0 = 0 by omega] at a2
  refine ⟨rfl, rfl, ?_⟩
  rw [fileEntry_entryZ, eq_of_small a1 (y := 0) (by decide) (by rw [a2]; decide)]
  simp

/-- What `dm` writes. -/
example : (match tool_dm default exJw exLarge with
    | .ok g => decide (g = "1 1 M\n0 0 0\n".toList)
    | .error _ => false) = true := by decide +kernel

/-- The hypotheses of the `_partial` theorems are met. -/
example : IsFile exSms 2 3 [(1, 2, -9), (2, 3, 14), (2, 1, 1)] ∧ NoCancel 42013 [(1, 2, -9), (2, 3, 14), (2, 1, 1)] ∧
    (∀ i j, |entryZ [(1, 2, -9), (2, 3, 14), (2, 1, 1)] i j| ≤ 21006) ∧
    ∀ e ∈ [((1 : Int), (2 : Int), (-9 : Int)), (2, 3, 14), (2, 1, 1)], |e.2.2| ≤ 21006 := by
  have hd : Distinct [(1, 2, -9), (2, 3, 14), (2, 1, 1)] := by unfold Distinct; decide
  have hv : ∀ e ∈ [((1 : Int), (2 : Int), (-9 : Int)), (2, 3, 14), (2, 1, 1)], |e.2.2| ≤ 21006 := by decide
  exact ⟨exSms_file, hd.noCancel, entryZ_small (by norm_num) hd hv, hv⟩

end Spasm
