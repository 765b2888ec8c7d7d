import Verif.Props.ComposeDm

/-!
C78: chains of programs with `vertical_swap` and `stack`.
-/

namespace Spasm

open Sha

/-- What `vertical_swap` and `stack` load. -/
theorem load_moved (jk : Junk) (jw : Nat → W) {f : List Char} {n m : Nat} {l : List (Int × Int × Int)}
    (hf : IsFile f n m l) (hc : NoCancel 42013 l) :
    ∃ T md, triplet_load jk jw f 42013 none = .ok (T, md) ∧ T.n = n ∧ T.m = m ∧ T.nz ≤ l.length ∧
      (∀ e ∈ T.lst, e.1 < n ∧ e.2.1 < m ∧ |e.2.2| < 2 ^ 63 ∧ tsum 42013 T.lst e.1 e.2.1 ≠ 0) ∧
      ∀ i j, tsum 42013 T.lst i j = fileEntry 42013 l i j := by
  have hfit := hf.fits
  have hone := fits_one hfit
  rw [hf.fromOne] at hone
  have hnl := hf.n_lt
  have hml := hf.m_lt
  have hh : HashBuf none := by rintro _ h; cases h
  have key : Ok (triplet_load jk jw f 42013 none) (fun r => Loaded true 42013 n m l r.1) := by
    rcases hf.format with hs | ⟨hs, h1, h2⟩
    · exact (C41_sms jk jw field_42013 hs (by omega) (by omega) hone hh).mono fun _ h => h.1
    · exact (C41_mm jk jw field_42013 hs (by omega) (by omega) hone h1 h2 hh).mono fun _ h => h.1
  obtain ⟨⟨T, md⟩, e, h1⟩ := Ok_iff.mp (key.and (load_file jk jw (q := 42013) (by decide) hf hh))
  obtain ⟨h1, h2⟩ := h1
  simp only at h1 h2
  have hsum : ∀ i j, tsum 42013 T.lst i j = fileEntry 42013 l i j := fun i j => by
    rw [← h2.sum, Triplet.sum_eq]
  refine ⟨T, md, e, h2.n_eq, h2.m_eq, ?_, ?_, hsum⟩
  · have h3 : T.nz = T.lst.length := by simp [Triplet.lst]
    rw [h3, ← h1.lst.length_eq]
    exact List.length_filter_le _ _
  · intro t ht
    obtain ⟨k, hk, rfl⟩ := List.mem_map.mp ht
    have hk := List.mem_range.mp hk
    obtain ⟨e, e1, e2, e3, e4⟩ := h2.has _ _ ⟨k, hk, rfl, rfl⟩
    have hb := (h2.bal k hk).1
    refine ⟨?_, ?_, ?_, ?_⟩
    · have := h2.wf.i_lt k hk; have := h2.n_eq; simp only; omega
    · have := h2.wf.j_lt k hk; have := h2.m_eq; simp only; omega
    · have := hb.small
      simp only [Small] at this
      simp only
      rw [abs_lt]
      omega
    · rw [hsum]
      have := hc e e1 e4
      rw [e2, e3] at this
      exact this

theorem noCancel_fromOne {q : ℕ} {t : List (Nat × Nat × Int)} (h : ∀ e ∈ t, tsum q t e.1 e.2.1 ≠ 0) :
    NoCancel q (fromOne t) := by
  intro e he _
  obtain ⟨a, ha, rfl⟩ := List.mem_map.mp he
  have := h a ha
  rw [← fileEntry_fromOne] at this
  exact this

/-- C78 (vertical_swap). The file written describes the matrix with its columns in reverse order, modulo 42013, and can be
read by the other programs: entries at the same position do not cancel. -/
theorem C78_clean_swap (jk : Junk) (jw : Nat → W) {f : List Char} {n m : Nat} {l : List (Int × Int × Int)}
    (hf : IsFile f n m l) (hc : NoCancel 42013 l) :
    Ok (tool_vertical_swap jk jw f) (fun g => ∃ l', IsFile g n m l' ∧ NoCancel 42013 l' ∧
      ∀ i j, j < m → fileEntry 42013 l' i j = fileEntry 42013 l i (m - 1 - j)) := by
  obtain ⟨T, md, e, h1, h2, -, h3, h4⟩ := load_moved jk jw hf hc
  have hnl := hf.n_lt
  have hml := hf.m_lt
  refine (C43_swap e (by omega) (by omega)).mono ?_
  rintro g ⟨-, hg⟩
  rw [h1, h2] at hg
  have hent : ∀ i j, j < m → tsum 42013 (mirrored m T.lst) i j = tsum 42013 T.lst i (m - 1 - j) := by
    intro i j hj
    unfold tsum mirrored
    rw [List.map_map]
    congr 1
    refine List.map_congr_left fun e he => ?_
    have := (h3 e he).2.1
    simp only [Function.comp_apply]
    have hiff : (e.1 = i ∧ m - 1 - e.2.1 = j) ↔ (e.1 = i ∧ e.2.1 = m - 1 - j) := by omega
    simp only [hiff]
  refine ⟨_, ⟨.inl hg, hnl, hml, ?_, ?_, ?_⟩, ?_, ?_⟩
  · intro e he
    obtain ⟨a, ha, rfl⟩ := List.mem_map.mp he
    obtain ⟨b, hb, rfl⟩ := List.mem_map.mp ha
    have := h3 b hb
    simp only; omega
  · intro e he
    obtain ⟨a, ha, rfl⟩ := List.mem_map.mp he
    obtain ⟨b, hb, rfl⟩ := List.mem_map.mp ha
    have := h3 b hb
    simp only; omega
  · intro e he
    obtain ⟨a, ha, rfl⟩ := List.mem_map.mp he
    obtain ⟨b, hb, rfl⟩ := List.mem_map.mp ha
    exact (h3 b hb).2.2.1
  · refine noCancel_fromOne fun e he => ?_
    obtain ⟨b, hb, rfl⟩ := List.mem_map.mp he
    obtain ⟨-, b2, -, b4⟩ := h3 b hb
    simp only
    rw [hent _ _ (by omega), (by omega : m - 1 - (m - 1 - b.2.1) = b.2.1)]
    exact b4
  · intro i j hj
    rw [fileEntry_fromOne, hent i j hj, h4]

/-- C78 (stack). The file written describes the matrix without some of its rows and columns, which are zero, modulo 42013,
and can be read by the other programs: entries at the same position do not cancel. No row and no column of it is zero. -/
theorem C78_clean_stack (jk : Junk) (jw : Nat → W) {f : List Char} {n m : Nat} {l : List (Int × Int × Int)}
    (hf : IsFile f n m l) (hc : NoCancel 42013 l) (hl : l.length < 2 ^ 31) :
    Ok (tool_stack jk jw f) (fun g => ∃ (n' m' : Nat) (l' : List (Int × Int × Int)) (r c : Nat → Nat),
      IsFile g n' m' l' ∧ NoCancel 42013 l' ∧ l'.length ≤ l.length ∧
      (∀ a, a < n' → r a < n) ∧ (∀ a b, a < b → b < n' → r a < r b) ∧
      (∀ a, a < m' → c a < m) ∧ (∀ a b, a < b → b < m' → c a < c b) ∧
      (∀ a b, a < n' → b < m' → fileEntry 42013 l' a b = fileEntry 42013 l (r a) (c b)) ∧
      (∀ i j, (∀ a, a < n' → r a ≠ i) → fileEntry 42013 l i j = 0) ∧
      (∀ i j, (∀ b, b < m' → c b ≠ j) → fileEntry 42013 l i j = 0) ∧
      (∀ a, a < n' → ∃ b, b < m' ∧ fileEntry 42013 l' a b ≠ 0) ∧
      ∀ b, b < m' → ∃ a, a < n' ∧ fileEntry 42013 l' a b ≠ 0) := by
  obtain ⟨T, md, e, h1, h2, h0, h3, h4⟩ := load_moved jk jw hf hc
  have hnl := hf.n_lt
  have hml := hf.m_lt
  refine (C43_stack e (by omega) (by omega) (by omega)).mono ?_
  intro g hg
  rw [h1, h2] at hg
  obtain ⟨k1, k2, k3, k4, k5⟩ := C43_stack_entries (n := n) (m := m) (l := T.lst) (fun e he => (h3 e he).1)
    (fun e he => (h3 e he).2.1)
  have hr : ∀ a, ∃ i, a < Nat.count (RowUsed T.lst) n → RowUsed T.lst i ∧ Nat.count (RowUsed T.lst) i = a := by
    intro a
    by_cases h : a < Nat.count (RowUsed T.lst) n
    · obtain ⟨i, hi⟩ := (k2 a).mp h
      exact ⟨i, fun _ => hi⟩
    · exact ⟨0, fun h' => absurd h' h⟩
  have hc : ∀ a, ∃ i, a < Nat.count (ColUsed T.lst) m → ColUsed T.lst i ∧ Nat.count (ColUsed T.lst) i = a := by
    intro a
    by_cases h : a < Nat.count (ColUsed T.lst) m
    · obtain ⟨i, hi⟩ := (k4 a).mp h
      exact ⟨i, fun _ => hi⟩
    · exact ⟨0, fun h' => absurd h' h⟩
  choose r hr using hr
  choose c hc using hc
  have hcn : Nat.count (RowUsed T.lst) n ≤ n := Nat.count_le _
  have hcm : Nat.count (ColUsed T.lst) m ≤ m := Nat.count_le _
  have hrow : ∀ b ∈ T.lst, Nat.count (RowUsed T.lst) b.1 < Nat.count (RowUsed T.lst) n := fun b hb =>
    (k2 _).mpr ⟨b.1, ⟨b, hb, rfl⟩, rfl⟩
  have hcol : ∀ b ∈ T.lst, Nat.count (ColUsed T.lst) b.2.1 < Nat.count (ColUsed T.lst) m := fun b hb =>
    (k4 _).mpr ⟨b.2.1, ⟨b, hb, rfl⟩, rfl⟩
  have hne : ∀ b ∈ T.lst, tsum 42013 (stacked T.lst) (Nat.count (RowUsed T.lst) b.1) (Nat.count (ColUsed T.lst) b.2.1) ≠ 0 := by
    intro b hb
    rw [k5 42013 _ _ ⟨b, hb, rfl⟩ ⟨b, hb, rfl⟩]
    exact (h3 b hb).2.2.2
  refine ⟨_, _, _, r, c, ⟨.inl hg, by omega, by omega, ?_, ?_, ?_⟩, ?_, ?_, ?_, ?_, ?_, ?_, ?_, ?_, ?_, ?_, ?_⟩
  · intro e he
    obtain ⟨a, ha, rfl⟩ := List.mem_map.mp he
    obtain ⟨b, hb, rfl⟩ := List.mem_map.mp ha
    have := hrow b hb
    simp only; omega
  · intro e he
    obtain ⟨a, ha, rfl⟩ := List.mem_map.mp he
    obtain ⟨b, hb, rfl⟩ := List.mem_map.mp ha
    have := hcol b hb
    simp only; omega
  · intro e he
    obtain ⟨a, ha, rfl⟩ := List.mem_map.mp he
    obtain ⟨b, hb, rfl⟩ := List.mem_map.mp ha
    exact (h3 b hb).2.2.1
  · refine noCancel_fromOne fun e he => ?_
    obtain ⟨b, hb, rfl⟩ := List.mem_map.mp he
    exact hne b hb
  · simpa [fromOne, stacked, Triplet.lst] using h0
  · intro a ha
    obtain ⟨⟨e, he, h⟩, -⟩ := hr a ha
    rw [← h]; exact (h3 e he).1
  · intro a b hab hb
    obtain ⟨u1, u2⟩ := hr a (by omega)
    obtain ⟨v1, v2⟩ := hr b hb
    exact (k1 _ _ u1 v1).mp (by omega)
  · intro a ha
    obtain ⟨⟨e, he, h⟩, -⟩ := hc a ha
    rw [← h]; exact (h3 e he).2.1
  · intro a b hab hb
    obtain ⟨u1, u2⟩ := hc a (by omega)
    obtain ⟨v1, v2⟩ := hc b hb
    exact (k3 _ _ u1 v1).mp (by omega)
  · intro a b ha hb
    obtain ⟨u1, u2⟩ := hr a ha
    obtain ⟨v1, v2⟩ := hc b hb
    have := k5 42013 _ _ u1 v1
    rw [u2, v2] at this
    rw [fileEntry_fromOne, this, h4]
  · intro i j h
    rw [← h4]
    refine tsum_unused_row (fun hu => ?_) j
    have ha := (k2 (Nat.count (RowUsed T.lst) i)).mpr ⟨i, hu, rfl⟩
    obtain ⟨u1, u2⟩ := hr _ ha
    refine h _ ha ?_
    have a1 := k1 _ _ u1 hu
    have a2 := k1 _ _ hu u1
    omega
  · intro i j h
    rw [← h4]
    refine tsum_unused_col (fun hu => ?_) i
    have ha := (k4 (Nat.count (ColUsed T.lst) j)).mpr ⟨j, hu, rfl⟩
    obtain ⟨u1, u2⟩ := hc _ ha
    refine h _ ha ?_
    have a1 := k3 _ _ u1 hu
    have a2 := k3 _ _ hu u1
    omega
  · intro a ha
    obtain ⟨i, ⟨b, hb, rfl⟩, u2⟩ := (k2 a).mp ha
    exact ⟨_, hcol b hb, by rw [fileEntry_fromOne, ← u2]; exact hne b hb⟩
  · intro a ha
    obtain ⟨j, ⟨b, hb, rfl⟩, u2⟩ := (k4 a).mp ha
    exact ⟨_, hrow b hb, by rw [fileEntry_fromOne, ← u2]; exact hne b hb⟩

section
variable (jk jk2 : Junk) (jw jw2 : Nat → W) (h0 : Nat → B) (env : Env) (opts : Opts) (hx : Exact jk2 42013 env opts)
  {f : List Char} {n m : Nat} {l : List (Int × Int × Int)} (hf : IsFile f n m l) (hc : NoCancel 42013 l) (allow : Bool)
include hx hf hc

/-- C78. `vertical_swap` then `rank` modulo 42013: the rank of the matrix. -/
theorem C78_swap_rank :
    Ok (do let g ← tool_vertical_swap jk jw f
           tool_rank jk2 jw2 h0 env opts g 42013 allow) (fun r => r = (fileMat 42013 n m l).rank) := by
  have := prime_42013
  rw [Ok_bind]
  refine (C78_clean_swap jk jw hf hc).mono ?_
  rintro g ⟨l', g1, g2, g3⟩
  refine (rank_exact (q := 42013) jk2 jw2 env opts (by norm_num) g1 g2 hx h0 allow).mono ?_
  rintro _ rfl
  refine rank_moved (p := id) (c := fun j => m - 1 - j) ⟨fun i hi => hi, fun a b _ _ h => h⟩
    ⟨fun j hj => ?_, fun a b ha hb h => ?_⟩ fun i j _ hj => g3 i j hj
  · simp only; omega
  · simp only at h; omega

/-- C78. `stack` then `rank` modulo 42013: the rank of the matrix. -/
theorem C78_stack_rank (hl : l.length < 2 ^ 31) :
    Ok (do let g ← tool_stack jk jw f
           tool_rank jk2 jw2 h0 env opts g 42013 allow) (fun r => r = (fileMat 42013 n m l).rank) := by
  have := prime_42013
  rw [Ok_bind]
  refine (C78_clean_stack jk jw hf hc hl).mono ?_
  rintro g ⟨n', m', l', r, c, g1, g2, -, a1, a2, a3, a4, a5, a6, a7, -⟩
  refine (rank_exact (q := 42013) jk2 jw2 env opts (by norm_num) g1 g2 hx h0 allow).mono ?_
  rintro _ rfl
  exact rank_stacked a1 a2 a3 a4 a5 a6 a7

end

/-- C78. `vertical_swap` then `dm --verbose`: the numbers printed are those printed for the first file, with the sizes of the
components in some order. -/
theorem C78_swap_dm (jk jk2 jk3 : Junk) (jw jw2 jw3 : Nat → W) {f : List Char} {n m : Nat} {l : List (Int × Int × Int)}
    (hf : IsFile f n m l) (hc : NoCancel 42013 l) (hnm : n + m < 2 ^ 31) :
    Ok (do let g ← tool_vertical_swap jk jw f
           tool_dm_verbose jk2 jw2 g) (fun t => ∃ s h w k v u sizes sizes', sizes.Perm sizes' ∧
      tool_dm_verbose jk3 jw3 f = .ok (dmReport s h w k v u sizes) ∧ t = dmReport s h w k v u sizes') := by
  rw [Ok_bind]
  refine (C78_clean_swap jk jw hf hc).mono ?_
  rintro g ⟨l', g1, g2, g3⟩
  obtain ⟨s, h, w, k, v, u, z, z', a1, a2, a3⟩ := C85_report jk3 jk2 jw3 jw2 hf g1 hc g2 hnm (σ := id)
    (τ := fun j => m - 1 - j) ⟨fun i hi => hi, fun a b _ _ h => h⟩
    ⟨fun j hj => by simp only; omega, fun a b ha hb h => by simp only at h; omega⟩
    (fun i j hi hj => by rw [g3 i j hj]; rfl)
  exact Ok_iff.mpr ⟨_, a3, s, h, w, k, v, u, z, z', a1, a2, rfl⟩

theorem matching_image {q n m n' m' : ℕ} {l l' : List (Int × Int × Int)} {S : Finset (Nat × Nat)}
    (hS : FileMatching q n m l S) {φ : Nat × Nat → Nat × Nat}
    (h : ∀ e ∈ S, (φ e).1 < n' ∧ (φ e).2 < m' ∧ fileEntry q l' (φ e).1 (φ e).2 ≠ 0)
    (hr : ∀ e ∈ S, ∀ e' ∈ S, (φ e).1 = (φ e').1 → e.1 = e'.1)
    (hc : ∀ e ∈ S, ∀ e' ∈ S, (φ e).2 = (φ e').2 → e.2 = e'.2) :
    ∃ S', FileMatching q n' m' l' S' ∧ S'.card = S.card := by
  refine ⟨S.image φ, ⟨fun e he => ?_, fun e he e' he' hee => ?_, fun e he e' he' hee => ?_⟩, ?_⟩
  · obtain ⟨a, ha, rfl⟩ := Finset.mem_image.mp he
    exact h a ha
  · obtain ⟨a, ha, rfl⟩ := Finset.mem_image.mp he
    obtain ⟨b, hb, rfl⟩ := Finset.mem_image.mp he'
    rw [hS.row a ha b hb (hr a ha b hb hee)]
  · obtain ⟨a, ha, rfl⟩ := Finset.mem_image.mp he
    obtain ⟨b, hb, rfl⟩ := Finset.mem_image.mp he'
    rw [hS.col a ha b hb (hc a ha b hb hee)]
  · exact Finset.card_image_of_injOn fun a ha b hb e => hS.row a ha b hb (hr a ha b hb (by rw [e]))

/-- C78. `stack` then `dm --verbose`: the structural rank printed is that printed for the first file. -/
theorem C78_stack_dm (jk jk2 jk3 : Junk) (jw jw2 jw3 : Nat → W) {f : List Char} {n m : Nat} {l : List (Int × Int × Int)}
    (hf : IsFile f n m l) (hc : NoCancel 42013 l) (hnm : n + m < 2 ^ 31) (hl : l.length < 2 ^ 31) :
    Ok (do let g ← tool_stack jk jw f
           tool_dm_verbose jk2 jw2 g) (fun t => ∃ s h w k v u sizes h' w' k' v' u' sizes',
      tool_dm_verbose jk3 jw3 f = .ok (dmReport s h w k v u sizes) ∧ t = dmReport s h' w' k' v' u' sizes') := by
  rw [Ok_bind]
  refine (C78_clean_stack jk jw hf hc hl).mono ?_
  rintro g ⟨n', m', l', r, c, g1, g2, -, a1, a2, a3, a4, a5, a6, a7, -⟩
  have inj : ∀ {k : Nat} {r : Nat → Nat}, (∀ a b, a < b → b < k → r a < r b) → ∀ a b, a < k → b < k → r a = r b → a = b := by
    intro k r h a b ha hb e
    rcases lt_trichotomy a b with hab | hab | hab
    · have := h a b hab hb; omega
    · exact hab
    · have := h b a hab ha; omega
  have le : ∀ {k : Nat} {r : Nat → Nat}, (∀ a b, a < b → b < k → r a < r b) → ∀ a, a < k → a ≤ r a := by
    intro k r h a
    induction a with
    | zero => intro _; omega
    | succ a ih =>
      intro ha
      have := ih (by omega)
      have := h a (a + 1) (by omega) ha
      omega
  have hn' : n' ≤ n := by
    by_contra h
    have := le a2 (n' - 1) (by omega)
    have := a1 (n' - 1) (by omega)
    omega
  have hm' : m' ≤ m := by
    by_contra h
    have := le a4 (m' - 1) (by omega)
    have := a3 (m' - 1) (by omega)
    omega
  obtain ⟨_, e, A, D, -, -, -, -, -, rfl, ⟨S, b1, b2⟩, b3⟩ := Ok_iff.mp (C50_report jk3 jw3 hf hc hnm)
  obtain ⟨_, e', A', D', -, -, -, -, -, rfl, ⟨S', d1, d2⟩, d3⟩ := Ok_iff.mp (C50_report jk2 jw2 g1 g2 (by omega))
  have hs : (D.rr.g 3).toNat = (D'.rr.g 3).toNat := by
    apply le_antisymm
    · have hr : ∀ i, ∃ a, (∃ j, fileEntry 42013 l i j ≠ 0) → a < n' ∧ r a = i := by
        intro i
        by_cases h : ∃ a, a < n' ∧ r a = i
        · exact h.imp fun _ h _ => h
        · push Not at h
          exact ⟨0, fun ⟨j, hj⟩ => absurd (a6 i j h) hj⟩
      have hc : ∀ j, ∃ b, (∃ i, fileEntry 42013 l i j ≠ 0) → b < m' ∧ c b = j := by
        intro j
        by_cases h : ∃ b, b < m' ∧ c b = j
        · exact h.imp fun _ h _ => h
        · push Not at h
          exact ⟨0, fun ⟨i, hi⟩ => absurd (a7 i j h) hi⟩
      choose r' hr using hr
      choose c' hc using hc
      have k1 : ∀ e ∈ S, r' e.1 < n' ∧ r (r' e.1) = e.1 := fun e he => hr _ ⟨_, (b1.entry e he).2.2⟩
      have k2 : ∀ e ∈ S, c' e.2 < m' ∧ c (c' e.2) = e.2 := fun e he => hc _ ⟨_, (b1.entry e he).2.2⟩
      obtain ⟨S2, f1, f2⟩ := matching_image b1 (n' := n') (m' := m') (l' := l') (φ := fun e => (r' e.1, c' e.2))
        (fun e he => ⟨(k1 e he).1, (k2 e he).1, by
          simp only
          rw [a5 _ _ (k1 e he).1 (k2 e he).1, (k1 e he).2, (k2 e he).2]
          exact (b1.entry e he).2.2⟩)
        (fun e he e2 he2 h => by rw [← (k1 e he).2, ← (k1 e2 he2).2]; exact congrArg r h)
        (fun e he e2 he2 h => by rw [← (k2 e he).2, ← (k2 e2 he2).2]; exact congrArg c h)
      have := d3 S2 f1
      omega
    · obtain ⟨S2, f1, f2⟩ := matching_image d1 (n' := n) (m' := m) (l' := l) (φ := fun e => (r e.1, c e.2))
        (fun e he => ⟨a1 _ (d1.entry e he).1, a3 _ (d1.entry e he).2.1, by
          simp only
          rw [← a5 _ _ (d1.entry e he).1 (d1.entry e he).2.1]
          exact (d1.entry e he).2.2⟩)
        (fun e he e2 he2 h => inj a2 _ _ (d1.entry e he).1 (d1.entry e2 he2).1 h)
        (fun e he e2 he2 h => inj a4 _ _ (d1.entry e he).2.1 (d1.entry e2 he2).2.1 h)
      have := b3 S2 f1
      omega
  exact Ok_iff.mpr ⟨_, e', _, _, _, _, _, _, _, _, _, _, _, _, _, e, by rw [hs]⟩

theorem mono_onto {n k : Nat} {r : Nat → Nat} (h1 : ∀ a, a < k → r a < n) (h2 : ∀ a b, a < b → b < k → r a < r b)
    (h3 : ∀ i, i < n → ∃ a, a < k ∧ r a = i) : k = n ∧ ∀ a, a < k → r a = a := by
  have ge : ∀ a, a < k → a ≤ r a := by
    intro a
    induction a with
    | zero => intro _; omega
    | succ a ih =>
      intro ha
      have := ih (by omega)
      have := h2 a (a + 1) (by omega) ha
      omega
  have eq : ∀ a, a < k → r a = a := by
    intro a
    induction a using Nat.strong_induction_on with
    | _ a ih =>
      intro ha
      have g1 := ge a ha
      have g2 := h1 a ha
      obtain ⟨b, hb, hab⟩ := h3 a (by omega)
      have g3 := ge b hb
      by_cases hba : b < a
      · have := ih b hba hb; omega
      · rw [(by omega : b = a)] at hab; exact hab
  refine ⟨le_antisymm ?_ ?_, eq⟩
  · by_contra h
    have := h1 (k - 1) (by omega)
    rw [eq (k - 1) (by omega)] at this
    omega
  · by_contra h
    obtain ⟨a, ha, e⟩ := h3 k (by omega)
    rw [eq a ha] at e
    omega

/-- C78. `stack` twice: the second one changes nothing. -/
theorem C78_stack_twice (jk jk2 : Junk) (jw jw2 : Nat → W) {f : List Char} {n m : Nat} {l : List (Int × Int × Int)}
    (hf : IsFile f n m l) (hc : NoCancel 42013 l) (hl : l.length < 2 ^ 31) :
    Ok (tool_stack jk jw f) (fun g => ∃ n' m' l', IsFile g n' m' l' ∧
      Ok (tool_stack jk2 jw2 g) (fun g2 => ∃ l2, IsFile g2 n' m' l2 ∧ fileMat 42013 n' m' l2 = fileMat 42013 n' m' l')) := by
  refine (C78_clean_stack jk jw hf hc hl).mono ?_
  rintro g ⟨n', m', l', _, _, g1, g2, g3, -, -, -, -, -, -, -, u1, u2⟩
  refine ⟨n', m', l', g1, (C78_clean_stack jk2 jw2 g1 g2 (by omega)).mono ?_⟩
  rintro g' ⟨n2, m2, l2, r, c, b1, -, -, a1, a2, a3, a4, a5, a6, a7, -⟩
  obtain ⟨rfl, er⟩ := mono_onto a1 a2 fun i hi => by
    by_contra h
    push Not at h
    obtain ⟨b, hb, hne⟩ := u1 i hi
    exact hne (a6 i b h)
  obtain ⟨rfl, ec⟩ := mono_onto a3 a4 fun j hj => by
    by_contra h
    push Not at h
    obtain ⟨a, ha, hne⟩ := u2 j hj
    exact hne (a7 a j h)
  refine ⟨l2, b1, ?_⟩
  ext a b
  have := a5 a b a.isLt b.isLt
  rw [er a a.isLt, ec b b.isLt] at this
  exact this

/-- The hypotheses are met. -/
example : IsFile exSms 2 3 exSmsList ∧ NoCancel 42013 exSmsList ∧ exSmsList.length < 2 ^ 31 ∧
    2 + 3 < 2 ^ 31 ∧ Exact default 42013 exEnvP exDenseOpts :=
  ⟨exSms_file, exSms_noCancel 42013, by decide, by decide, exExactP⟩

/-- `stack` on a file with an empty row and two empty columns, alone and then `dm --verbose`. -/
example : tool_stack default exJw "3 4 M\n1 4 2\n3 2 5\n0 0 0\n".toList = .ok "2 2 M\n1 2 2\n2 1 5\n0 0 0\n".toList ∧
    (do let g ← tool_stack default exJw "3 4 M\n1 4 2\n3 2 5\n0 0 0\n".toList
        tool_dm_verbose default exJw g) =
      .ok "structural rank = 2\n*) S (2 x 2) : \n    -> plus 2 SCC of size 1\n".toList := by
  decide +kernel

end Spasm
