import Verif.Props.Pnm
import Verif.Proofs.FileOut
import Verif.Spec.DmReport

/-!
C50: the tool `dm`.  `IsFile`, `fileEntry` and `NoCancel` are specified in Spec/File.lean, `dmReport` and
`FileMatching` in Spec/DmReport.lean, `IsCoarse` and `IsFine` in Spec/Dm.lean.
-/

namespace Spasm

open Sha Finset

/-- The sizes of the components of the square part. -/
def Dm.sizes (D : Dm) : List Nat := (List.range (D.nb - 2)).map fun b => (D.r.g (b + 2) - D.r.g (b + 1)).toNat

theorem sccLines_append (a b : List Nat) : sccLines (a ++ b) = sccLines a ++ sccLines b := by
  unfold sccLines
  rw [List.filter_append, List.flatMap_append]

theorem dm_sizes_spec {D : Dm} (hs : D.nb < D.r.size ∨ D.nb ≤ 2) (hr : ∀ b, 1 ≤ b → b < D.nb → 0 ≤ D.r.g b ∧ D.r.g b < 2 ^ 31)
    (hlt : ∀ b, 1 ≤ b → b + 1 < D.nb → D.r.g b < D.r.g (b + 1)) (hnb : D.nb < 2 ^ 31) :
    Ok (dm_sizes D) (fun s => s.1 = sccLines D.sizes ∧ s.2 = D.sizes.count 1) := by
  unfold dm_sizes
  rcases Nat.lt_or_ge D.nb 3 with h3 | h3
  · have h1 : D.nb - 1 ≤ 1 := by omega
    have h2 : D.nb - 2 = 0 := by omega
    have : forRange 1 (D.nb - 1) (([] : List Char), (0 : Int)) (fun i (s : List Char × Int) => (do
        let a ← rd D.r (i + 1)
        let b ← rd D.r i
        let size ← i32 (a - b)
        if size = 1 then do
          let k ← i32 (s.2 + 1)
          .ok (s.1, k)
        else .ok (s.1 ++ "    *) SCC of size ".toList ++ fmtD size ++ ['\n'], s.2) : C _)) = .ok ([], 0) := by
      unfold forRange
      rw [show D.nb - 1 - 1 = 0 by omega]
      rfl
    rw [this, Ok_ok]
    unfold Dm.sizes
    rw [h2]
    exact ⟨rfl, rfl⟩
  · have hs : D.nb < D.r.size := by omega
    refine Ok_forRange_imp (I := fun i (s : List Char × Int) =>
      s.1 = sccLines ((List.range (i - 1)).map fun b => (D.r.g (b + 2) - D.r.g (b + 1)).toNat) ∧
      s.2 = ((List.range (i - 1)).map fun b => (D.r.g (b + 2) - D.r.g (b + 1)).toNat).count 1)
      (by omega) ⟨rfl, rfl⟩ ?_ ?_
    · rintro i ⟨t, k⟩ hi1 hi2 ⟨h1, h2⟩
      simp only at h1 h2
      have a1 := hr i hi1 (by omega)
      have a2 := hr (i + 1) (by omega) (by omega)
      have a3 := hlt i hi1 (by omega)
      have hk : k ≤ i := by
        have := List.count_le_length (a := 1) (l := (List.range (i - 1)).map fun b => (D.r.g (b + 2) - D.r.g (b + 1)).toNat)
        rw [List.length_map, List.length_range] at this
        omega
      have hk0 : 0 ≤ k := by omega
      have e1 : i + 1 - 1 = i - 1 + 1 := by omega
      have e2 : (D.r.g (i - 1 + 2) - D.r.g (i - 1 + 1)).toNat = (D.r.g (i + 1) - D.r.g i).toNat := by
        rw [show i - 1 + 2 = i + 1 by omega, show i - 1 + 1 = i by omega]
      simp only [Ok_bind, Ok_rd, Ok_i32]
      refine ⟨by omega, by omega, ⟨by omega, by omega⟩, ?_⟩
      rw [e1, List.range_succ, List.map_append, sccLines_append, List.count_append,
        List.map_cons, List.map_nil, e2]
      by_cases hc : D.r.g (i + 1) - D.r.g i = 1
      · rw [if_pos hc]
        simp only [Ok_bind, Ok_i32, Ok_ok]
        refine ⟨⟨by omega, by omega⟩, ?_, ?_⟩
        · rw [h1, hc]; simp [sccLines]
        · rw [h2, hc]; simp
      · rw [if_neg hc, Ok_ok]
        have hc' : (D.r.g (i + 1) - D.r.g i).toNat ≠ 1 := by omega
        have e3 : ((D.r.g (i + 1) - D.r.g i).toNat : Int) = D.r.g (i + 1) - D.r.g i := by omega
        refine ⟨?_, ?_⟩
        · have : sccLines [(D.r.g (i + 1) - D.r.g i).toNat] =
              "    *) SCC of size ".toList ++ dec ((D.r.g (i + 1) - D.r.g i).toNat : Int) ++ "\n".toList := by
            unfold sccLines
            rw [List.filter_cons_of_pos (by simpa using hc'), List.filter_nil, List.flatMap_cons, List.flatMap_nil,
              List.append_nil]
          rw [h1, this, e3, dec_eq]
          simp
        · rw [h2, List.count_cons_of_ne (by simpa using hc'), List.count_nil, Nat.add_zero]; rfl
    · rintro ⟨t, k⟩ h
      exact h

theorem dm_part_spec (name : String) {a b : Int} (ha : 0 ≤ a) (hb : 0 ≤ b) :
    dm_part name a b = partLine name a.toNat b.toNat := by
  unfold dm_part partLine
  rw [dec_eq, dec_eq, show ((a.toNat : Nat) : Int) = a by omega, show ((b.toNat : Nat) : Int) = b by omega]
  by_cases h : a > 0 ∧ b > 0
  · rw [if_pos h, if_pos (by omega)]
  · rw [if_neg h, if_neg (by omega)]

theorem dm_square_spec {A : Csr} {D : Dm} (hn : A.n + A.m < 2 ^ 31) (h : IsCoarse A D)
    (hf : D.rr.g 1 < D.rr.g 2 → IsFine A D) :
    Ok (dm_square D (D.rr.g 2 - D.rr.g 1) (D.cc.g 3 - D.cc.g 2)) (fun t =>
      t = if 0 < (D.rr.g 2 - D.rr.g 1).toNat then
        "*) S (".toList ++ dec ((D.rr.g 2 - D.rr.g 1).toNat : Int) ++ " x ".toList ++
          dec ((D.rr.g 2 - D.rr.g 1).toNat : Int) ++ ") : \n".toList ++ sccLines D.sizes ++
          (if 0 < D.sizes.count 1 then "    -> plus ".toList ++ dec (D.sizes.count 1 : Int) ++
            " SCC of size 1\n".toList else [])
        else []) := by
  have r0 := h.rr_zero
  have c0 := h.cc_zero
  have r1 := h.rr_mono 0 (by omega)
  have r2 := h.rr_mono 1 (by omega)
  have r3 := h.rr_mono 2 (by omega)
  have r4 := h.rr_mono 3 (by omega)
  have c1 := h.cc_mono 0 (by omega)
  have c2 := h.cc_mono 1 (by omega)
  have c3 := h.cc_mono 2 (by omega)
  have c4 := h.cc_mono 3 (by omega)
  have s1 := h.square 1 (by omega)
  have s2 := h.square 2 (by omega)
  have s3 := h.square 3 (by omega)
  have rl := h.rr_last
  have cl := h.cc_last
  have rs := h.rr_size
  have cs := h.cc_size
  simp only [Nat.reduceAdd] at r1 r2 r3 r4 c1 c2 c3 c4 s1 s2 s3
  unfold dm_square
  by_cases hk : D.rr.g 1 < D.rr.g 2
  · have hF := hf hk
    rw [if_pos (by omega), if_pos (by omega), Ok_bind]
    have hup : ∀ k, k + 1 < D.nb → (k : Int) + D.rr.g 1 ≤ D.r.g (k + 1) := by
      intro k
      induction k with
      | zero => intro _; have := hF.r_one; simp only [Nat.zero_add, Nat.cast_zero] at *; omega
      | succ k ih =>
        intro hk
        have h1 := ih (by omega)
        have h2 := hF.r_lt (k + 1) (by omega) (by omega)
        push_cast
        omega
    have hdown : ∀ k, k + 1 < D.nb → D.r.g (D.nb - 1 - k) ≤ D.rr.g 2 := by
      intro k
      induction k with
      | zero => intro _; rw [Nat.sub_zero, hF.r_pen]
      | succ k ih =>
        intro hk
        have h1 := ih (by omega)
        have h2 := hF.r_lt (D.nb - 1 - (k + 1)) (by omega) (by omega)
        rw [show D.nb - 1 - (k + 1) + 1 = D.nb - 1 - k by omega] at h2
        omega
    have hnb := hF.nb
    refine (dm_sizes_spec (.inl hF.r_size) ?_ hF.r_lt ?_).mono ?_
    · intro b h1 h2
      have a1 := hup (b - 1) (by omega)
      have a2 := hdown (D.nb - 1 - b) (by omega)
      rw [show b - 1 + 1 = b by omega] at a1
      rw [show D.nb - 1 - (D.nb - 1 - b) = b by omega] at a2
      omega
    · have a1 := hup (D.nb - 2) (by omega)
      have a2 := hdown 0 (by omega)
      rw [show D.nb - 2 + 1 = D.nb - 1 - 0 by omega] at a1
      omega
    · rintro ⟨t, k⟩ ⟨e1, e2⟩
      simp only at e1 e2
      simp only [Ok_ok]
      rw [e1, e2, show D.cc.g 3 - D.cc.g 2 = D.rr.g 2 - D.rr.g 1 by omega,
        show (((D.rr.g 2 - D.rr.g 1).toNat : Nat) : Int) = D.rr.g 2 - D.rr.g 1 by omega, dec_eq, dec_eq]
      congr 1
      by_cases hc : 0 < D.sizes.count 1
      · rw [if_pos hc, if_pos (by omega)]
      · rw [if_neg hc, if_neg (by omega)]
  · rw [if_neg (by omega), if_neg (by omega), Ok_ok]

attribute [local irreducible] dm_square dm_part in
/-- The size of the parts. -/
theorem dm_report_spec {A : Csr} {D : Dm} (hn : A.n + A.m < 2 ^ 31) (h : IsCoarse A D)
    (hf : D.rr.g 1 < D.rr.g 2 → IsFine A D) :
    Ok (dm_report D) (fun g => g = dmReport (D.rr.g 3).toNat (D.rr.g 1).toNat (D.cc.g 2).toNat
      (D.rr.g 2 - D.rr.g 1).toNat (A.n - D.rr.g 2).toNat (A.m - D.cc.g 3).toNat D.sizes) := by
  have r0 := h.rr_zero
  have c0 := h.cc_zero
  have r1 := h.rr_mono 0 (by omega)
  have r2 := h.rr_mono 1 (by omega)
  have r3 := h.rr_mono 2 (by omega)
  have r4 := h.rr_mono 3 (by omega)
  have c1 := h.cc_mono 0 (by omega)
  have c2 := h.cc_mono 1 (by omega)
  have c3 := h.cc_mono 2 (by omega)
  have c4 := h.cc_mono 3 (by omega)
  have s1 := h.square 1 (by omega)
  have s2 := h.square 2 (by omega)
  have s3 := h.square 3 (by omega)
  have rl := h.rr_last
  have cl := h.cc_last
  have rs := h.rr_size
  have cs := h.cc_size
  simp only [Nat.reduceAdd] at r1 r2 r3 r4 c1 c2 c3 c4 s1 s2 s3
  have hsq := dm_square_spec hn h hf
  unfold dm_report
  rw [Ok_bind, Ok_rd]
  refine ⟨by omega, ?_⟩
  rw [Ok_bind, Ok_rd]
  refine ⟨by omega, ?_⟩
  rw [Ok_bind, Ok_rd]
  refine ⟨by omega, ?_⟩
  rw [Ok_bind, Ok_rd]
  refine ⟨by omega, ?_⟩
  rw [Ok_bind, Ok_rd]
  refine ⟨by omega, ?_⟩
  rw [Ok_bind, Ok_rd]
  refine ⟨by omega, ?_⟩
  rw [Ok_bind, Ok_rd]
  refine ⟨by omega, ?_⟩
  rw [Ok_bind, Ok_rd]
  refine ⟨by omega, ?_⟩
  have hi : ∀ {x : Int} {α : Type} {k : Int → C α} {Q : α → Prop}, (-2 ^ 31 ≤ x ∧ x < 2 ^ 31) → Ok (k x) Q →
      Ok (i32 x >>= k) Q := by
    intro x α k Q h1 h2
    rw [Ok_bind, Ok_i32]
    exact ⟨h1, h2⟩
  refine hi (by omega) (hi (by omega) (hi (by omega) (hi (by omega) (hi (by omega) (hi (by omega) ?_)))))
  rw [Ok_bind]
  refine hsq.mono ?_
  rintro t rfl
  refine hi (by omega) (hi (by omega) ?_)
  have e1 : D.rr.g 2 + D.cc.g 4 - D.cc.g 3 = ((D.rr.g 3).toNat : Int) := by omega
  have e2 : D.rr.g 1 - D.rr.g 0 = D.rr.g 1 := by omega
  have e3 : D.cc.g 2 - D.cc.g 0 = D.cc.g 2 := by omega
  rw [Ok_ok, e1, e2, e3, rl, cl, dm_part_spec "H" (by omega) (by omega), dm_part_spec "V" (by omega) (by omega), ← dec_eq]
  unfold dmReport
  have e4 : "\n".toList = ['\n'] := rfl
  rw [e4]

theorem FileMatching.iff {q : ℕ} {n m : Nat} {l : List (Int × Int × Int)} {A : Csr} (h : FileCsr q n m l A)
    {S : Finset (Nat × Nat)} : FileMatching q n m l S ↔ IsMatching A S := by
  constructor
  · intro hS
    refine ⟨fun e he => ?_, fun e f he hf => hS.row e he f hf, fun e f he hf => hS.col e he f hf⟩
    obtain ⟨h1, h2, h3⟩ := hS.entry e he
    exact ⟨by rw [h.n_eq]; exact h1, (h.inRow h1).mpr h3⟩
  · rintro ⟨h1, h2, h3⟩
    refine ⟨fun e he => ?_, fun e he f hf => h2 e f he hf, fun e he f hf => h3 e f he hf⟩
    obtain ⟨a1, a2⟩ := h1 e he
    have hn : e.1 < n := by rw [← h.n_eq]; exact a1
    refine ⟨hn, ?_, (h.inRow hn).mp a2⟩
    obtain ⟨k, k1, k2, k3⟩ := a2
    rw [← h.m_eq, ← k3]
    exact h.wfv.j_lt k (by have := h.wfv.row_le a1; omega)

/-- Loading and compressing, in the tools. -/
theorem tool_load (jk : Junk) (jw : Nat → W) {q : ℕ} (hq : 2 ≤ q ∧ q ≤ 0xfffffffb) {f : List Char} {n m : Nat}
    {l : List (Int × Int × Int)} (h : IsFile f n m l) (hc : NoCancel q l) {α : Type} {k : Csr → C α} {Q : α → Prop}
    (hk : ∀ A, FileCsr q n m l A → Ok (k A) Q) :
    Ok (do let (T, _) ← triplet_load jk jw f q none; let A ← compress jk T; k A) Q := by
  rw [Ok_bind]
  refine (load_file jk jw hq h (hash := none) (by rintro _ h; cases h)).mono ?_
  rintro ⟨T, md⟩ hT
  simp only [Ok_bind]
  exact (compress_file jk hT hc).mono fun A hA => hk A hA

/-- C50 (permuted matrix). For every file, `dm` writes a file that describes the same matrix with permuted rows and
columns, in block triangular form: no entries in the rows from `h` (from `k`) and the columns before `c + h` (before
`c + k`), nonzero entries at the positions `(t, c + t)` for `t < s`; there are `m - c = s` of these, and no matching
is larger. -/
theorem C50_dm (jk : Junk) (jw : Nat → W) {f : List Char} {n m : Nat} {l : List (Int × Int × Int)}
    (hf : IsFile f n m l) (hc : NoCancel 42013 l) :
    Ok (tool_dm jk jw f) (fun g => ∃ (l' : List (Int × Int × Int)) (p q : Nat → Nat) (h k s c : Nat),
      IsFile g n m l' ∧ IsPerm p n ∧ IsPerm q m ∧
      (∀ i j, i < n → j < m → fileEntry 42013 l' i j = fileEntry 42013 l (p i) (q j)) ∧
      h ≤ k ∧ k ≤ s ∧ s ≤ n ∧ c + s = m ∧
      (∀ i j, h ≤ i → i < n → j < c + h → fileEntry 42013 l' i j = 0) ∧
      (∀ i j, k ≤ i → i < n → j < c + k → fileEntry 42013 l' i j = 0) ∧
      (∀ t, t < s → fileEntry 42013 l' t (c + t) ≠ 0) ∧
      ∀ S, FileMatching 42013 n m l S → S.card ≤ s) := by
  unfold tool_dm
  refine tool_load jk jw (q := 42013) (by omega) hf hc ?_
  intro A hA
  rw [Ok_bind]
  refine (dm_decompose_spec jk hA.wfv.toWF).mono ?_
  rintro ⟨D, B⟩ ⟨h1, -, -, hB, hBn, hBm, hBz, hBi, hBe, hBv⟩
  simp only at *
  have hAn := hA.n_eq
  have hAm := hA.m_eq
  refine (save_file hB (by rw [hBn, hAn]; exact hf.n_lt) (by rw [hBm, hAm]; exact hf.m_lt) ?_).mono ?_
  · intro k hk
    have hx : A.x.isSome = true := hA.wfv.has_x (by omega)
    have := hBv 42013 hx hA.wfv
    exact small_lt this.good (this.small k hk)
  rintro g ⟨g1, g2⟩
  rw [hBn, hBm, hAn, hAm] at g1
  have hent : ∀ i j, i < n → j < m → fileEntry 42013 (fromOne B.lst) i j = fileEntry 42013 l (D.p.g i) (D.q.g j) := by
    intro i j hi hj
    have hpi := h1.perm_p.1 i (by omega)
    rw [g2 _ _ _ (by omega), hBe _ _ _ (by omega) (by omega), hA.entry _ _ (by omega)]
  have r0 := h1.rr_zero
  have c0 := h1.cc_zero
  have r1 := h1.rr_mono 0 (by omega)
  have r2 := h1.rr_mono 1 (by omega)
  have r3 := h1.rr_mono 2 (by omega)
  have r4 := h1.rr_mono 3 (by omega)
  have c1 := h1.cc_mono 0 (by omega)
  have s1 := h1.square 1 (by omega)
  have s2 := h1.square 2 (by omega)
  have s3 := h1.square 3 (by omega)
  have rl := h1.rr_last
  have cl := h1.cc_last
  simp only [Nat.reduceAdd] at r1 r2 r3 r4 c1 s1 s2 s3
  have hzero : ∀ i j, i < n → j < m → ¬ A.InRow (D.p.g i) (D.q.g j) → fileEntry 42013 (fromOne B.lst) i j = 0 := by
    intro i j hi hj hno
    rw [hent i j hi hj]
    by_contra hne
    exact hno ((hA.inRow (by have := h1.perm_p.1 i (by omega); omega)).mpr hne)
  refine ⟨fromOne B.lst, D.p.g, D.q.g, (D.rr.g 1).toNat, (D.rr.g 2).toNat, (D.rr.g 3).toNat, (D.cc.g 1).toNat, g1,
    by rw [← hAn]; exact h1.perm_p, by rw [← hAm]; exact h1.perm_q, hent, by omega, by omega, by omega, by omega,
    ?_, ?_, ?_, ?_⟩
  · intro i j hi hin hj
    refine hzero i j hin (by omega) fun hh => ?_
    have := h1.mid i j (by omega) (by omega) hh (by omega)
    omega
  · intro i j hi hin hj
    refine hzero i j hin (by omega) fun hh => ?_
    have := h1.low i j (by omega) (by omega) hh (by omega)
    omega
  · intro t ht
    rw [hent _ _ (by omega) (by omega)]
    exact (hA.inRow (by have := h1.perm_p.1 t (by omega); omega)).mp (h1.diag t (by omega))
  · intro S hS
    exact (C34_structural_rank A hA.wfv.toWF D h1).2.2 S ((FileMatching.iff hA).mp hS)

/-- C50 (report). The report gives the structural rank, i.e. the size of the largest matchings, the sizes of the parts
of the coarse decomposition and those of the components of the square part. -/
theorem C50_report (jk : Junk) (jw : Nat → W) {f : List Char} {n m : Nat} {l : List (Int × Int × Int)}
    (hf : IsFile f n m l) (hc : NoCancel 42013 l) (hnm : n + m < 2 ^ 31) :
    Ok (tool_dm_verbose jk jw f) (fun g => ∃ (A : Csr) (D : Dm), A.n = n ∧ A.m = m ∧
      (∀ i j, i < n → (A.InRow i j ↔ fileEntry 42013 l i j ≠ 0)) ∧ IsCoarse A D ∧
      (D.rr.g 1 < D.rr.g 2 → IsFine A D) ∧
      g = dmReport (D.rr.g 3).toNat (D.rr.g 1).toNat (D.cc.g 2).toNat (D.rr.g 2 - D.rr.g 1).toNat
        (n - D.rr.g 2).toNat (m - D.cc.g 3).toNat D.sizes ∧
      (∃ S, FileMatching 42013 n m l S ∧ S.card = (D.rr.g 3).toNat) ∧
      ∀ S, FileMatching 42013 n m l S → S.card ≤ (D.rr.g 3).toNat) := by
  unfold tool_dm_verbose
  refine tool_load jk jw (q := 42013) (by omega) hf hc ?_
  intro A hA
  rw [Ok_bind]
  refine (dm_decompose_spec jk hA.wfv.toWF).mono ?_
  rintro ⟨D, B⟩ ⟨h1, h2, -⟩
  simp only at h1 h2 ⊢
  have hAn := hA.n_eq
  have hAm := hA.m_eq
  refine (dm_report_spec (by omega) h1 h2).mono ?_
  rintro g rfl
  obtain ⟨a1, a2, a3⟩ := C34_structural_rank A hA.wfv.toWF D h1
  exact ⟨A, D, hAn, hAm, fun i j hi => hA.inRow hi, h1, h2, by rw [hAn, hAm], ⟨_, (FileMatching.iff hA).mpr a1, a2⟩,
    fun S hS => a3 S ((FileMatching.iff hA).mp hS)⟩

theorem exSms_file : IsFile exSms 2 3 [(1, 2, -9), (2, 3, 14), (2, 1, 1)] :=
  ⟨.inl exSms_is, by decide, by decide, by decide, by decide, by decide⟩

/-- The hypotheses are met. -/
example : IsFile exSms 2 3 [(1, 2, -9), (2, 3, 14), (2, 1, 1)] ∧
    NoCancel 42013 [(1, 2, -9), (2, 3, 14), (2, 1, 1)] :=
  ⟨exSms_file, Distinct.noCancel (by unfold Distinct; decide)⟩

/-- What is written for this file, and for another one. -/
example : tool_dm default exJw exSms = .ok "2 3 M\n1 2 14\n1 1 1\n2 3 -9\n0 0 0\n".toList ∧
    tool_dm_verbose default exJw exSms =
      .ok "structural rank = 2\n*) H (1 x 2)\n*) S (1 x 1) : \n    -> plus 1 SCC of size 1\n".toList ∧
    tool_dm_verbose default exJw "2 2 M\n1 1 1\n1 2 1\n2 1 1\n2 2 1\n0 0 0\n".toList =
      .ok "structural rank = 2\n*) S (2 x 2) : \n    *) SCC of size 2\n".toList := by
  decide +kernel

end Spasm
