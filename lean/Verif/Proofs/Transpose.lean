import Verif.Proofs.Permutation

namespace Spasm

open Finset

/-- Bookkeeping facts about a matrix under construction. -/
structure Shape (B : Csr) (n m nz : Nat) (wv : Bool) (F : Field) : Prop where
  n_eq : B.n = n
  m_eq : B.m = m
  p_size : B.p.size = n + 1
  j_size : B.j.size = nz
  x_isSome : B.x.isSome = wv
  room : ∀ k, k < nz → B.Room k
  F_eq : B.F = F

theorem Fresh.shape {B : Csr} {n m nz : Nat} {G : Int} {wv : Bool} (h : Fresh B n m nz G wv) :
    Shape B n m nz wv B.F :=
  ⟨h.n_eq, h.m_eq, h.p_size, h.j_size, h.x_isSome,
    fun k hk a ha => by rw [h.x_size a ha]; exact hk, rfl⟩

theorem Shape.updP {B : Csr} {n m nz : Nat} {wv : Bool} {F : Field} (h : Shape B n m nz wv F)
    (k v : Nat) : Shape (B.updP k v) n m nz wv F :=
  ⟨h.n_eq, h.m_eq, by simpa using h.p_size, h.j_size, h.x_isSome, h.room, h.F_eq⟩

theorem Shape.updJ {B : Csr} {n m nz : Nat} {wv : Bool} {F : Field} (h : Shape B n m nz wv F)
    (k v : Nat) : Shape (B.updJ k v) n m nz wv F :=
  ⟨h.n_eq, h.m_eq, h.p_size, by simpa using h.j_size, h.x_isSome, h.room, h.F_eq⟩

theorem Shape.updX {B : Csr} {n m nz : Nat} {wv : Bool} {F : Field} (h : Shape B n m nz wv F)
    (k : Nat) (v : Int) : Shape (B.updX k v) n m nz wv F :=
  ⟨h.n_eq, h.m_eq, h.p_size, h.j_size, by simpa using h.x_isSome,
    fun k hk => by simpa using h.room k hk, h.F_eq⟩

theorem Shape.x_le {B : Csr} {n m nz : Nat} {wv : Bool} {F : Field} (h : Shape B n m nz wv F)
    {t : Nat} (ht : t ≤ nz) : ∀ a, B.x = some a → t ≤ a.size := by
  intro a ha
  by_contra hc
  have := h.room (t - 1) (by omega) a ha
  omega

theorem flat_eq_flatMap {α : Type} (R : Nat → List α) (n : Nat) :
    flat R n = (List.range n).flatMap R := by
  induction n with
  | zero => rfl
  | succ n ih => rw [List.range_succ, List.flatMap_append, ← ih]; simp [flat]

theorem Csr.flat_of_segs {B : Csr} {R : Nat → List (Nat × Int)} {n : Nat}
    (h : ∀ i, i < n → B.seg (offs R i) (offs R (i + 1)) = R i) :
    B.seg 0 (offs R n) = flat R n := by
  induction n with
  | zero => simp [offs, flat, Csr.seg_self]
  | succ n ih =>
    rw [← B.seg_append (Nat.zero_le (offs R n)) (offs_mono R (by omega)),
      ih (fun i hi => h i (by omega)), h n (by omega)]
    rfl

/-! ### Counting sort -/

/-- Payloads of the items with key `j`, in order. -/
def sel {α : Type} (L : List (Nat × α)) (j : Nat) : List α :=
  (L.filter (fun e => decide (e.1 = j))).map Prod.snd

@[simp] theorem sel_nil {α : Type} (j : Nat) : sel ([] : List (Nat × α)) j = [] := rfl

theorem sel_append {α : Type} (L L' : List (Nat × α)) (j : Nat) :
    sel (L ++ L') j = sel L j ++ sel L' j := by simp [sel]

theorem sel_single_eq {α : Type} (j : Nat) (e : α) : sel [(j, e)] j = [e] := by simp [sel]

theorem sel_single_ne {α : Type} {j k : Nat} (e : α) (h : k ≠ j) : sel [(j, e)] k = [] := by
  have : j ≠ k := fun e => h e.symm
  simp [sel, this]

theorem offs_sel {α : Type} (L : List (Nat × α)) (m : Nat) (h : ∀ e ∈ L, e.1 < m) :
    offs (sel L) m = L.length := by
  rw [offs_eq_sum]
  induction L with
  | nil => simp
  | cons e L ih =>
    have he := h e (by simp)
    have ih := ih (fun e' h' => h e' (by simp [h']))
    have : ∀ j, (sel (e :: L) j).length = (if j = e.1 then 1 else 0) + (sel L j).length := by
      intro j
      rw [show e :: L = [e] ++ L from rfl, sel_append, List.length_append]
      congr 1
      by_cases hj : j = e.1
      · subst hj
        rw [show [e] = [(e.1, e.2)] from rfl, sel_single_eq]; simp
      · rw [show [e] = [(e.1, e.2)] from rfl, sel_single_ne _ hj]; simp [hj]
    simp only [this, Finset.sum_add_distrib, ih, List.length_cons]
    rw [Finset.sum_ite_eq' (range m) e.1 (fun _ => 1), if_pos (mem_range.mpr he)]
    omega

theorem length_sel_prefix {α : Type} {P L : List (Nat × α)} (h : P <+: L) (j : Nat) :
    (sel P j).length ≤ (sel L j).length := by
  obtain ⟨t, rfl⟩ := h
  rw [sel_append, List.length_append]; omega

/-- State of the counting sort after dispatching the items `P` (a prefix of `L`). -/
structure CSInv {α : Type} (f : α → Nat × Int) (m : Nat) (L P : List (Nat × α)) (T : Csr)
    (w : Array Nat) : Prop where
  w_size : m ≤ w.size
  w_eq : ∀ j, j < m → w.g j = offs (sel L) j + (sel P j).length
  seg_eq : ∀ j, j < m → T.seg (offs (sel L) j) (offs (sel L) j + (sel P j).length) = (sel P j).map f

theorem CSInv.pos {α : Type} {f : α → Nat × Int} {m : Nat} {L P : List (Nat × α)} {T : Csr}
    {w : Array Nat} (h : CSInv f m L P T w) {j : Nat} {e : α} (hj : j < m)
    (hP : P ++ [(j, e)] <+: L) : w.g j < offs (sel L) (j + 1) ∧ offs (sel L) (j + 1) ≤ offs (sel L) m := by
  have h1 := length_sel_prefix hP j
  rw [sel_append, sel_single_eq, List.length_append, List.length_singleton] at h1
  have h2 := h.w_eq j hj
  refine ⟨by simp only [offs]; omega, offs_mono _ (by omega)⟩

theorem CSInv.step {α : Type} {f : α → Nat × Int} {m : Nat} {L P : List (Nat × α)} {T : Csr}
    {w : Array Nat} (h : CSInv f m L P T w) {j : Nat} {e : α} (hj : j < m)
    (hP : P ++ [(j, e)] <+: L) {c : Nat} {v : Int} (hs : w.g j < T.j.size) (hr : T.Room (w.g j))
    (hf : f e = (c, if T.x.isSome then v else 1)) :
    CSInv f m L (P ++ [(j, e)]) ((T.updJ (w.g j) c).updX (w.g j) v) (w.upd j (w.g j + 1)) := by
  have hpos := h.pos hj hP
  have hw := h.w_size
  refine ⟨by simpa using hw, ?_, ?_⟩
  · intro k hk
    rw [sel_append]
    by_cases he : k = j
    · subst he
      rw [g_upd_eq _ _ _ (by omega), sel_single_eq, List.length_append, List.length_singleton,
        h.w_eq k hk]
      omega
    · rw [g_upd_ne _ _ _ _ he, sel_single_ne _ he, h.w_eq k hk]; simp
  · intro k hk
    rw [sel_append]
    by_cases he : k = j
    · subst he
      rw [sel_single_eq, List.length_append, List.length_singleton, ← Nat.add_assoc,
        ← h.w_eq k hk, Csr.seg_upd_push _ (by rw [h.w_eq k hk]; omega) hs hr, h.w_eq k hk,
        h.seg_eq k hk, List.map_append, List.map_cons, List.map_nil, hf]
    · rw [sel_single_ne _ he, List.append_nil, ← h.seg_eq k hk]
      apply Csr.seg_congr
      intro l hl1 hl2
      apply Csr.ent_upd_ne
      have hPL : P <+: L := (List.prefix_append _ _).trans hP
      have h1 := length_sel_prefix hPL k
      have h2 := h.w_eq j hj
      rcases Nat.lt_or_gt_of_ne he with hlt | hgt
      · have h3 : offs (sel L) (k + 1) ≤ offs (sel L) j := offs_mono _ (by omega)
        simp only [offs] at h3
        omega
      · have h3 : offs (sel L) (j + 1) ≤ offs (sel L) k := offs_mono _ (by omega)
        omega

/-- The matrix obtained at the end of the counting sort. -/
theorem CSInv.final {α : Type} {f : α → Nat × Int} {n : Nat} {L : List (Nat × α)} {T : Csr}
    {w : Array Nat} {m nz : Nat} {wv : Bool} {F : Field} (h : CSInv f n L L T w)
    (hS : Shape T n m nz wv F)
    (hp : ∀ j, j ≤ n → T.p.g j = offs (sel L) j) (hnz : offs (sel L) n ≤ nz)
    (hm : ∀ e ∈ L, (f e.2).1 < m) (hF : F.p < 0 ∨ (2 ≤ F.p ∧ F.p ≤ 0xfffffffb)) :
    T.WF ∧ ∀ j, j < n → T.row j = (sel L j).map f := by
  have hoff : ∀ j, offs (fun j => (sel L j).map f) j = offs (sel L) j := by
    intro j
    induction j with
    | zero => rfl
    | succ j ih => simp only [offs, ih, List.length_map]
  have := Csr.of_flat (B := T) (R := fun j => (sel L j).map f) (by rw [hS.n_eq, hS.p_size]; omega)
    (by intro i hi; rw [hoff]; exact hp i (by rw [hS.n_eq] at hi; exact hi))
    (by
      rw [hS.n_eq]
      apply Csr.flat_of_segs
      intro i hi
      rw [hoff, hoff]
      exact h.seg_eq i hi)
    (by rw [hoff, hS.n_eq, hS.j_size]; exact hnz)
    (by rw [hoff, hS.n_eq]; exact hS.x_le hnz)
    (by
      intro i hi e he
      rw [List.mem_map] at he
      obtain ⟨a, ha, rfl⟩ := he
      unfold sel at ha
      rw [List.mem_map] at ha
      obtain ⟨b, hb, rfl⟩ := ha
      rw [hS.m_eq]
      exact hm b (List.mem_filter.mp hb).1)
    (by rw [hS.F_eq]; exact hF)
  rw [hS.n_eq] at this
  exact this

/-! ### Transpose -/

/-- Items sorted by `spasm_transpose` for row `i`: key = column, payload = (row, value). -/
def trRow (i : Nat) (l : List (Nat × Int)) : List (Nat × (Nat × Int)) :=
  l.map fun e => (e.1, (i, e.2))

theorem sel_trRow (i j : Nat) (l : List (Nat × Int)) :
    sel (trRow i l) j = (l.filter (fun e => decide (e.1 = j))).map (fun e => (i, e.2)) := by
  unfold sel trRow
  rw [List.filter_map, List.map_map]
  rfl

theorem sel_flat {α : Type} (X : Nat → List (Nat × α)) (n j : Nat) :
    sel (flat X n) j = flat (fun i => sel (X i) j) n := by
  induction n with
  | zero => rfl
  | succ n ih => simp only [flat]; rw [sel_append, ih]

theorem flat_prefix {α : Type} (X : Nat → List α) {i n : Nat} (h : i ≤ n) :
    flat X i <+: flat X n := by
  induction n with
  | zero => have : i = 0 := by omega
            subst this; exact List.prefix_refl _
  | succ n ih =>
    by_cases he : i = n + 1
    · subst he; exact List.prefix_refl _
    · exact (ih (by omega)).trans (List.prefix_append _ _)

theorem seg_prefix (A : Csr) {lo mid hi : Nat} (h1 : lo ≤ mid) (h2 : mid ≤ hi) :
    A.seg lo mid <+: A.seg lo hi := by
  rw [← A.seg_append h1 h2]; exact List.prefix_append _ _

theorem map_flat {α β : Type} (f : α → β) (X : Nat → List α) (n : Nat) :
    (flat X n).map f = flat (fun i => (X i).map f) n := by
  induction n with
  | zero => rfl
  | succ n ih => simp only [flat]; rw [List.map_append, ih]

theorem flat_congr {α : Type} {X Y : Nat → List α} {n : Nat} (h : ∀ i, i < n → X i = Y i) :
    flat X n = flat Y n := by
  induction n with
  | zero => rfl
  | succ n ih => simp only [flat]; rw [ih (fun i hi => h i (by omega)), h n (by omega)]

theorem mem_flat {α : Type} {X : Nat → List α} {n : Nat} {e : α} :
    e ∈ flat X n ↔ ∃ i, i < n ∧ e ∈ X i := by
  rw [flat_eq_flatMap, List.mem_flatMap]
  simp

theorem transpose_spec (jk : Junk) {A : Csr} (hA : A.WF) (keep : Bool) :
    Ok (transpose jk A keep) (fun T => T.WF ∧ T.n = A.m ∧ T.m = A.n ∧
      (∀ j, j < A.m → T.row j = (List.range A.n).flatMap fun i =>
        ((A.row i).filter (fun e => decide (e.1 = j))).map
          (fun e => (i, if keep then e.2 else 1))) ∧
      T.x.isSome = (keep && A.x.isSome) ∧ T.F.p = A.F.p ∧ (∀ q, A.F.Good q → T.F.Good q) ∧
      T.j.size = A.p.g A.n ∧ T.p.g T.n = A.p.g A.n) := by
  unfold transpose nnz
  have hps := hA.p_size
  have hnz := hA.p_nnz
  simp only [Ok_bind, Ok_rd]
  refine ⟨hps, ?_⟩
  refine (csr_alloc_spec jk A.m A.n (A.p.g A.n) (keep && A.x.isSome) hA.field_ok).mono ?_
  rintro T0 ⟨hT, hgood⟩
  set X : Nat → List (Nat × (Nat × Int)) := fun i => trRow i (A.row i) with hX
  set L := flat X A.n with hL
  have hkeys : ∀ e ∈ L, e.1 < A.m := by
    intro e he
    obtain ⟨i, hi, he⟩ := mem_flat.mp he
    simp only [hX, trRow, List.mem_map] at he
    obtain ⟨e', he', rfl⟩ := he
    exact hA.mem_row hi he'
  have hlen : L.length = A.p.g A.n := by
    rw [hL, length_flat, hA.p_eq_offs (le_refl _)]
    have : ∀ n, offs X n = offs A.row n := by
      intro n
      induction n with
      | zero => rfl
      | succ n ih => simp only [offs, ih]; simp [hX, trRow]
    exact this _
  have htot : offs (sel L) A.m = A.p.g A.n := by rw [offs_sel L A.m hkeys, hlen]
  -- items processed at position px of row i
  have hcat : ∀ i px, A.p.g i ≤ px → flat X i ++ trRow i (A.seg (A.p.g i) (px + 1))
      = (flat X i ++ trRow i (A.seg (A.p.g i) px)) ++ [(A.j.g px, (i, A.val px))] := by
    intro i px h
    rw [A.seg_succ h]
    simp [trRow, Csr.ent]
  have hprefix : ∀ i px, i < A.n → A.p.g i ≤ px → px ≤ A.p.g (i + 1) →
      flat X i ++ trRow i (A.seg (A.p.g i) px) <+: L := by
    intro i px hi h1 h2
    refine List.IsPrefix.trans ?_ (flat_prefix X (show i + 1 ≤ A.n by omega))
    simp only [flat]
    rw [List.prefix_append_right_inj]
    simp only [hX, trRow]
    exact (seg_prefix A h1 h2).map _
  -- phase 1
  refine Ok_forRange_imp (I := fun i w => w.size = A.m ∧
      ∀ j, j < A.m → w.g j = (sel (flat X i) j).length) (Nat.zero_le _) ?_ ?_ ?_
  · refine ⟨by simp, fun j hj => ?_⟩
    rw [g_mkArr _ _ _ hj]; rfl
  · rintro i w - hi ⟨h1, h2⟩
    simp only [Ok_bind, Ok_rd]
    refine ⟨by omega, by omega, ?_⟩
    have hrow := hA.row_le hi
    refine Ok_forRange_imp (I := fun px w => w.size = A.m ∧
      ∀ j, j < A.m → w.g j = (sel (flat X i ++ trRow i (A.seg (A.p.g i) px)) j).length)
      hrow.1 ?_ ?_ ?_
    · refine ⟨h1, fun j hj => ?_⟩
      rw [A.seg_self, h2 j hj]; simp [trRow]
    · rintro px w h3 h4 ⟨e1, e2⟩
      have hpx := lt_of_lt_of_le h4 hrow.2
      have hj := hA.j_lt px hpx
      simp only [Ok_bind, Ok_rd, Ok_wr]
      refine ⟨by omega, by omega, by omega, by simpa using e1, ?_⟩
      intro j hjm
      rw [hcat i px h3, sel_append, List.length_append]
      by_cases he : j = A.j.g px
      · subst he
        rw [g_upd_eq _ _ _ (by omega), sel_single_eq, e2 _ hjm]; rfl
      · rw [g_upd_ne _ _ _ _ he, sel_single_ne _ he, e2 _ hjm]; rfl
    · rintro w ⟨e1, e2⟩
      exact ⟨e1, e2⟩
  · rintro w ⟨h1, h2⟩
    rw [← hL] at h2
    -- phase 2
    refine Ok_forRange_imp (I := fun j (s : Csr × Array Nat × Nat) =>
      Shape s.1 A.m A.n (A.p.g A.n) (keep && A.x.isSome) T0.F ∧ s.2.2 = offs (sel L) j ∧
      s.2.1.size = A.m ∧
      (∀ k, k < j → s.1.p.g k = offs (sel L) k ∧ s.2.1.g k = offs (sel L) k) ∧
      (∀ k, j ≤ k → k < A.m → s.2.1.g k = (sel L k).length)) (Nat.zero_le _) ?_ ?_ ?_
    · exact ⟨hT.shape, rfl, h1, fun k hk => by omega, fun k _ hk => h2 k hk⟩
    · rintro j ⟨T, w, sum⟩ - hj ⟨e1, e2, e3, e4, e5⟩
      simp only at e1 e2 e3 e4 e5
      subst e2
      have hTp := e1.p_size
      simp only [Ok_bind, Ok_setP, Ok_rd, Ok_wr, Ok_ok, Csr.p_updP, size_upd]
      refine ⟨by omega, by omega, by omega, by omega, e1.updP _ _, ?_, by simpa using e3, ?_, ?_⟩
      · simp only [offs]; rw [e5 j (le_refl _) hj]
      · intro k hk
        by_cases he : k = j
        · subst he
          rw [g_upd_eq _ _ _ (by omega), g_upd_eq _ _ _ (by omega)]
          exact ⟨rfl, rfl⟩
        · rw [g_upd_ne _ _ _ _ he, g_upd_ne _ _ _ _ he]
          exact e4 k (by omega)
      · intro k hk hk'
        rw [g_upd_ne _ _ _ _ (by omega)]
        exact e5 k (by omega) hk'
    · rintro ⟨T, w, sum⟩ ⟨e1, e2, e3, e4, -⟩
      simp only at e1 e2 e3 e4
      subst e2
      have hTp := e1.p_size
      simp only [Ok_setP]
      refine ⟨by omega, ?_⟩
      -- phase 3
      refine Ok_forRange_imp (I := fun i (s : Csr × Array Nat) =>
        Shape s.1 A.m A.n (A.p.g A.n) (keep && A.x.isSome) T0.F ∧
        (∀ k, k ≤ A.m → s.1.p.g k = offs (sel L) k) ∧
        CSInv (fun e => (e.1, if (keep && A.x.isSome) then e.2 else 1)) A.m L (flat X i) s.1 s.2)
        (Nat.zero_le _) ?_ ?_ ?_
      · refine ⟨e1.updP _ _, ?_, by simp only; omega, ?_, ?_⟩
        · intro k hk
          rw [Csr.p_updP]
          by_cases he : k = A.m
          · subst he; rw [g_upd_eq _ _ _ (by omega)]
          · rw [g_upd_ne _ _ _ _ he]; exact (e4 k (by omega)).1
        · intro j hj
          rw [(e4 j hj).2]; simp [flat]
        · intro j hj
          simp [flat, Csr.seg_self]
      · rintro i ⟨T, w⟩ - hi ⟨d1, d2, d3⟩
        simp only at d1 d2 d3
        simp only [Ok_bind, Ok_rd]
        refine ⟨by omega, by omega, ?_⟩
        have hrow := hA.row_le hi
        refine Ok_forRange_imp (I := fun px (s : Csr × Array Nat) =>
          Shape s.1 A.m A.n (A.p.g A.n) (keep && A.x.isSome) T0.F ∧
          (∀ k, k ≤ A.m → s.1.p.g k = offs (sel L) k) ∧
          CSInv (fun e => (e.1, if (keep && A.x.isSome) then e.2 else 1)) A.m L
            (flat X i ++ trRow i (A.seg (A.p.g i) px)) s.1 s.2)
          hrow.1 ?_ ?_ ?_
        · refine ⟨d1, d2, ?_⟩
          rw [A.seg_self]; simpa [trRow] using d3
        · rintro px ⟨T, w⟩ h3 h4 ⟨c1, c2, c3⟩
          simp only at c1 c2 c3
          have hpx := lt_of_lt_of_le h4 hrow.2
          have hj := hA.j_lt px hpx
          have hpre := hprefix i (px + 1) hi (by omega) (by omega)
          rw [hcat i px h3] at hpre
          have hpos := c3.pos hj hpre
          have hw := c3.w_size
          have hTj := c1.j_size
          simp only [Ok_bind, Ok_rd, Ok_setJ]
          refine ⟨by omega, by omega, by omega, ?_⟩
          have hroom : T.Room (w.g (A.j.g px)) := c1.room _ (by omega)
          apply Ok_copyX hA hpx
          · intro hx
            rw [Csr.x_updJ, c1.x_isSome] at hx
            simp at hx; exact hx.2
          · simpa using hroom
          · simp only [Ok_wr, Ok_ok]
            refine ⟨by omega, (c1.updJ _ _).updX _ _, c2, ?_⟩
            rw [hcat i px h3]
            apply c3.step hj hpre (by omega) hroom
            rw [c1.x_isSome]
        · rintro ⟨T, w⟩ h; exact h
      · rintro ⟨T, w⟩ ⟨d1, d2, d3⟩
        simp only at d1 d2 d3
        rw [Ok_ok]
        rw [← hL] at d3
        have hfin := d3.final d1 d2 (by omega) (by
          intro e he
          obtain ⟨i, hi, he⟩ := mem_flat.mp he
          simp only [hX, trRow, List.mem_map] at he
          obtain ⟨e', he', rfl⟩ := he
          exact hi) (by rw [hT.F_p]; exact hA.field_ok)
        refine ⟨hfin.1, d1.n_eq, d1.m_eq, ?_, d1.x_isSome, by rw [d1.F_eq, hT.F_p],
          by rw [d1.F_eq]; exact hgood, d1.j_size, ?_⟩
        · intro j hj
          rw [hfin.2 j hj, ← flat_eq_flatMap, hL, sel_flat, map_flat]
          apply flat_congr
          intro i hi
          simp only [hX]
          rw [sel_trRow, List.map_map]
          apply List.map_congr_left
          intro e he
          simp only [Function.comp]
          by_cases hx : A.x.isSome = true
          · simp [hx]
          · have hn : A.x = none := by simpa using hx
            obtain ⟨k, -, -, rfl⟩ := Csr.mem_seg.mp (List.mem_filter.mp he).1
            simp [hn, Csr.ent, Csr.val]
        · rw [d1.n_eq, d2 _ (le_refl _), htot]

end Spasm
