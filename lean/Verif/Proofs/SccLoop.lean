import Verif.Proofs.Scc

namespace Spasm

open Relation

variable {A : Csr} {ps : Array Nat}

theorem scc_pop_spec {path : List Nat} {s s' : Scc} (h : SccInv A path ps s) {t : Nat}
    (ht : t < s.top) (e : SccInv.Emitted s s' A.n (t + 1)) {k : Nat} (hk : k = s.stack.g t) :
    Ok (scc_pop A.n k s') (fun s'' => SccInv.Emitted s s'' A.n t ∧ s''.rr = s'.rr ∧
      s''.nscc = s'.nscc) := by
  subst hk
  have hps := h.p_size
  have hls := h.low_size
  have h1 := h.total
  have h2 := h.count.1
  have h3 := e.ptop
  have h4 := e.top
  have hlt : s'.ptop < s'.p.size := by rw [e.psize, hps]; omega
  have hkn := h.st_lt t ht
  have hkl : s.stack.g t < s'.low.size := by rw [e.lsize, hls]; exact hkn
  unfold scc_pop
  rw [Ok_bind, Ok_wr]
  refine ⟨hlt, ?_⟩
  rw [Ok_bind, Ok_wr]
  refine ⟨hkl, ?_⟩
  rw [Ok_ok]
  refine ⟨⟨?_, by omega, ?_, ?_, ?_, ?_, ?_, ?_, ?_, e.index, e.pstack, e.marks, e.prev, e.stack⟩,
    rfl, rfl⟩
  · show s'.top - 1 = t; omega
  · show s'.ptop + 1 = _; omega
  · show (s'.p.upd _ _).size = _; rw [size_upd]; exact e.psize
  · intro u hu
    show (s'.p.upd _ _).g u = _
    rw [g_upd_ne _ _ _ _ (by omega)]; exact e.p_old u hu
  · intro u hu hu'
    change u < s'.ptop + 1 at hu'
    show (s'.p.upd _ _).g u = _
    by_cases hc : u = s'.ptop
    · rw [hc, g_upd_eq _ _ _ hlt]; congr 1; omega
    · rw [g_upd_ne _ _ _ _ hc]; exact e.p_new u hu (by omega)
  · show (s'.low.upd _ _).size = _; rw [size_upd]; exact e.lsize
  · intro u hu hu'
    show (s'.low.upd _ _).g _ = _
    by_cases hc : u = t
    · rw [hc, g_upd_eq _ _ _ hkl]
    · by_cases hc' : s.stack.g u = s.stack.g t
      · rw [hc', g_upd_eq _ _ _ hkl]
      · rw [g_upd_ne _ _ _ _ hc']; exact e.low_new u (by omega) hu'
  · intro v hv
    show (s'.low.upd _ _).g _ = _
    rw [g_upd_ne _ _ _ _ (fun he => hv t (le_refl _) ht he.symm)]
    exact e.low_old v fun u hu hu' => hv u (by omega) hu'

theorem scc_emit_spec {j : Nat} {l : List Nat} {s : Scc} (hA : A.WF) (hnm : A.n = A.m)
    (h : SccInv A (j :: l) ps s) (hfull : A.p.g j + ps.g j = A.p.g (j + 1))
    (hroot : s.low.g j = s.marks.g j) :
    Ok (scc_emit A.n j s) (fun s' => SccInv A l ps s' ∧ s'.index = s.index ∧ s'.pstack = s.pstack ∧
      s'.prev = s.prev ∧ s'.low.g j = A.n ∧ s'.marks = s.marks) := by
  obtain ⟨tj, htj, hj⟩ := h.path_on j (List.mem_cons_self ..)
  have h1 := h.total
  have h2 := h.count.1
  have hn1 := h.nscc_le
  have hrs := h.rr_size
  unfold scc_emit
  rw [Ok_bind]
  refine Ok_whileFuel' (I := fun b s' => b + 1 = s'.top ∧ tj < s'.top ∧
      SccInv.Emitted s s' A.n s'.top ∧ s'.rr = s.rr ∧ s'.nscc = s.nscc) ?_ (A.n + 1) (s.top - 1) s
    ⟨by omega, htj, ⟨rfl, le_refl _, by omega, rfl, fun _ _ => rfl, fun t ht ht' => by omega, rfl,
      fun t ht ht' => by omega, fun _ _ => rfl, rfl, rfl, rfl, rfl, rfl⟩, rfl, rfl⟩ (by omega)
  rintro b s' ⟨b1, b2, b3, b4, b5⟩
  have hle := b3.le
  rw [Ok_bind, Ok_rdI]
  refine ⟨by omega, ?_, ?_⟩
  · rw [b3.stack, h.stack_size]; omega
  · rw [b3.stack]
    have e1 : ((s'.top : Int) - 1).toNat = s'.top - 1 := by omega
    rw [e1]
    by_cases hc : s.stack.g (s'.top - 1) = j
    · rw [if_pos hc, Ok_ok]
      simp only
      have e2 : s'.top - 1 = tj := by
        rcases Nat.lt_trichotomy (s'.top - 1) tj with hlt | hlt | hlt
        · omega
        · exact hlt
        · have := h.ord tj (s'.top - 1) hlt (by omega)
          rw [hc, hj] at this; omega
      rw [Ok_bind]
      refine (scc_pop_spec h htj (by rw [← e2]; convert b3 using 1; omega) hj.symm).mono ?_
      rintro s2 ⟨c1, c2, c3⟩
      rw [Ok_bind, Ok_wr]
      have hpt := c1.ptop
      refine ⟨by rw [c2, b4, c3, b5]; omega, ?_⟩
      rw [Ok_ok]
      refine ⟨?_, c1.index, c1.pstack, c1.prev, ?_, c1.marks⟩
      · refine h.emit hA hnm hfull hroot htj hj (tj := tj) ⟨c1.top, c1.le, c1.ptop, c1.psize,
          c1.p_old, c1.p_new, c1.lsize, c1.low_new, c1.low_old, c1.index, c1.pstack, c1.marks,
          c1.prev, c1.stack⟩ ?_ ?_
        · show s2.rr.upd (s2.nscc + 1) _ = _
          rw [c2, b4, c3, b5]
        · show s2.nscc + 1 = _
          rw [c3, b5]
      · show s2.low.g j = _
        rw [← hj]; exact c1.low_new tj (le_refl _) htj
    · rw [if_neg hc, Ok_bind]
      have e2 : s'.top - 1 ≠ tj := fun he => hc (by rw [he]; exact hj)
      refine (scc_pop_spec h (t := s'.top - 1) (by omega) (by convert b3 using 1; omega) rfl).mono ?_
      rintro s2 ⟨c1, c2, c3⟩
      have hct := c1.top
      rw [Ok_ok]
      simp only
      refine ⟨b - 1, by omega, by omega, by omega, by rw [hct]; exact c1, by rw [c2, b4],
        by rw [c3, b5]⟩

/-- Scanning the row of `j`. -/
theorem scc_scan_spec {j : Nat} {l : List Nat} {s : Scc} (hA : A.WF) (hnm : A.n = A.m)
    (h : SccInv A (j :: l) s.pstack s) :
    Ok (scc_scan A j (A.p.g j) (A.p.g (j + 1) - A.p.g j) s) (fun r =>
      SccInv A (j :: l) (s.pstack.upd j r.1) { s with low := r.2.2 } ∧
      A.p.g j + r.1 ≤ A.p.g (j + 1) ∧
      (r.2.1 = false → r.1 = A.p.g (j + 1) - A.p.g j) ∧
      (r.2.1 = true → A.p.g j + r.1 < A.p.g (j + 1) ∧
        s.marks.g (A.j.g (A.p.g j + r.1)) < 0)) := by
  have hjon := h.path_on j (List.mem_cons_self ..)
  have hjn := h.on_lt hjon
  have hjs : j < s.pstack.size := by rw [h.ps_size]; exact hjn
  have hple := h.ps_le j hjn
  unfold scc_scan
  rw [Ok_bind, Ok_rd]
  refine ⟨hjs, ?_⟩
  rw [Ok_bind]
  refine (Ok_forBrk (I := fun px (t : Bool × Array Int) => t.1 = false ∧
      SccInv A (j :: l) (s.pstack.upd j px) { s with low := t.2 })
    (B := fun px t => t.1 = true ∧ A.p.g j + px < A.p.g (j + 1) ∧
      s.marks.g (A.j.g (A.p.g j + px)) < 0 ∧
      SccInv A (j :: l) (s.pstack.upd j px) { s with low := t.2 }) (by omega) ?_ ?_).mono ?_
  · refine ⟨rfl, h.setps (by simpa using h.ps_size) ?_ ?_ ?_⟩
    all_goals
      intro v
      have : (s.pstack.upd j (s.pstack.g j)).g v = s.pstack.g v := by
        by_cases he : v = j
        · rw [he, g_upd_eq _ _ _ hjs]
        · rw [g_upd_ne _ _ _ _ he]
      rw [this]
    · exact h.ps_le v
    · intros; rfl
    · intros; rfl
  · rintro px ⟨b, low⟩ hlo hhi ⟨rfl, hI⟩
    simp only at hI ⊢
    have hpos : A.p.g j + px < A.p.g (j + 1) := by omega
    have hk1 := hA.row_lt hjn hpos
    have hkn := hA.j_lt _ hk1
    have hk2 := hA.p_nnz
    have hls : low.size = A.n := hI.low_size
    rw [Ok_bind, Ok_rd]
    refine ⟨by omega, ?_⟩
    rw [Ok_bind, Ok_rd]
    refine ⟨by rw [h.marks_size]; omega, ?_⟩
    by_cases hm : 0 ≤ s.marks.g (A.j.g (A.p.g j + px))
    · rw [if_pos hm]
      rw [Ok_bind, Ok_rd]
      refine ⟨by omega, ?_⟩
      rw [Ok_bind, Ok_rd]
      refine ⟨by omega, ?_⟩
      rw [Ok_bind, Ok_wr]
      refine ⟨by omega, ?_⟩
      rw [Ok_ok]
      simp only
      refine ⟨trivial, ?_⟩
      set k := A.j.g (A.p.g j + px) with hk
      set s1 : Scc := { s with low := low } with hs1
      have hedge : Edge A j k := ⟨hjn, _, by omega, hpos, rfl⟩
      have hjmem : j ∈ j :: l := List.mem_cons_self ..
      have hset : SccInv A (j :: l) (s.pstack.upd j px)
          { s1 with low := low.upd j (min (low.g j) (low.g k)) } := by
        refine hI.setlow hjmem (min_le_left _ _) ?_
        rcases le_total (low.g j) (low.g k) with hc | hc
        · rw [min_eq_left hc]; exact hI.low_wit j (hI.path_on j hjmem)
        · rw [min_eq_right hc]
          rcases hI.vis k (by omega) hm with hon | ⟨u, hu, he⟩
          · obtain ⟨w, h1, h2, h3⟩ := hI.low_wit k hon
            exact ⟨w, h1, h2, (ReflTransGen.single hedge).trans h3⟩
          · have h1 := hI.em_low u hu
            have h2 := hI.low_lt (hI.path_on j hjmem)
            rw [he] at h1
            change low.g k = _ at h1
            change low.g j < _ at h2
            omega
      have hadv := hset.advance (c := j) (x := px) hjmem (by
          rw [g_upd_eq _ _ _ hjs]) hpos hm (by
          intro hon
          show (low.upd j _).g j ≤ s.marks.g _
          rw [g_upd_eq _ _ _ (by omega)]
          exact le_trans (min_le_right _ _) (hI.low_le k hon))
      refine hadv.setps (ps' := s.pstack.upd j (px + 1)) (by simpa using h.ps_size) ?_ ?_ ?_
      · intro v hv
        by_cases he : v = j
        · rw [he, g_upd_eq _ _ _ hjs]; omega
        · rw [g_upd_ne _ _ _ _ he]; exact h.ps_le v hv
      all_goals
        intro v
        intros
        by_cases he : v = j
        · rw [he, g_upd_eq _ _ _ hjs, g_upd_eq _ _ _ (by simpa using hjs)]
        · rw [g_upd_ne _ _ _ _ he, g_upd_ne _ _ _ _ he, g_upd_ne _ _ _ _ he]
    · rw [if_neg hm, Ok_ok]
      exact ⟨rfl, hpos, by omega, hI⟩
  · rintro ⟨px, b, low⟩ hr
    rw [Ok_ok]
    simp only at hr ⊢
    rcases hr with ⟨h1, h2, h3, h4, h5, h6⟩ | ⟨h1, h2, h3⟩
    · refine ⟨h6, by omega, fun hb => ?_, fun _ => ⟨h4, h5⟩⟩
      rw [h3] at hb; cases hb
    · subst h1
      refine ⟨h3, by omega, fun _ => rfl, fun hb => ?_⟩
      rw [h2] at hb; cases hb

/-- Invariant at the head of the `while` loop.  The nodes in `V` have been visited. -/
def SccHead (A : Csr) (V : Nat → Prop) (b : Nat) (s : Scc) : Prop :=
  (s.j = -1 ∧ SccInv A [] s.pstack s ∧ ∀ v, V v → 0 ≤ s.marks.g v) ∨
  ∃ (j : Nat) (l : List Nat), s.j = (j : Int) ∧ Ok (scc_init j s) (fun s' =>
    SccInv A (j :: l) s'.pstack s' ∧ 2 * (A.n - s'.index) + l.length + 1 ≤ b ∧
    ∀ v, V v → 0 ≤ s'.marks.g v)

/-- Initialisation of a visited node does nothing. -/
theorem scc_init_visited {j : Nat} {s : Scc} (hj : j < s.marks.size) (hm : 0 ≤ s.marks.g j)
    {Q : Scc → Prop} (hQ : Q s) : Ok (scc_init j s) Q := by
  unfold scc_init
  rw [Ok_bind, Ok_rd]
  refine ⟨hj, ?_⟩
  rw [if_neg (by omega), Ok_ok]
  exact hQ

/-- Initialisation of a node just pushed. -/
theorem scc_init_new {j : Nat} {s : Scc} (hj : j < s.marks.size) (hl : j < s.low.size)
    (hm : s.marks.g j < 0) {Q : Scc → Prop}
    (hQ : Q { s with low := s.low.upd j s.index, marks := s.marks.upd j s.index,
                     index := s.index + 1 }) : Ok (scc_init j s) Q := by
  unfold scc_init
  rw [Ok_bind, Ok_rd]
  refine ⟨hj, ?_⟩
  rw [if_pos hm, Ok_bind, Ok_wr]
  refine ⟨hl, ?_⟩
  rw [Ok_bind, Ok_wr]
  refine ⟨hj, ?_⟩
  rw [Ok_ok]
  exact hQ

theorem SccInv.irrel {path : List Nat} {s : Scc} (h : SccInv A path ps s) (i : Int)
    (ps' : Array Nat) : SccInv A path ps { s with j := i, pstack := ps' } :=
  { h with }

/-- Effect of going back to the predecessor. -/
theorem scc_back_spec {j : Nat} {l : List Nat} {s : Scc} (hj : j < A.n)
    (hch : PrevChain s.prev (j :: l)) (hps : s.prev.size = A.n) (hls : s.low.size = A.n)
    (hms : s.marks.size = A.n) (hln : ∀ c, c ∈ l → c < A.n ∧ 0 ≤ s.marks.g c)
    {b : Nat} (hb : 2 * (A.n - s.index) + l.length ≤ b)
    {V : Nat → Prop} (hV : ∀ v, V v → 0 ≤ s.marks.g v)
    (hnil : l = [] → SccInv A [] s.pstack s)
    (hcons : ∀ c l', l = c :: l' → SccInv A l s.pstack
      { s with low := s.low.upd c (min (s.low.g c) (s.low.g j)) }) :
    Ok (scc_back j s) (SccHead A V b) := by
  unfold scc_back
  rw [Ok_bind, Ok_rd]
  refine ⟨by omega, ?_⟩
  cases l with
  | nil =>
    have : s.prev.g j = -1 := hch
    rw [this, if_neg (by omega), Ok_ok]
    left
    exact ⟨rfl, (hnil rfl).irrel _ _, hV⟩
  | cons c l =>
    have : s.prev.g j = (c : Int) := hch.1
    obtain ⟨hcn, hcv⟩ := hln c (List.mem_cons_self ..)
    rw [this, if_pos (by omega), Ok_bind, Ok_rdI]
    refine ⟨by omega, by rw [Int.toNat_natCast]; omega, ?_⟩
    rw [Ok_bind, Ok_rd]
    refine ⟨by omega, ?_⟩
    rw [Ok_bind, Ok_wrI]
    refine ⟨by omega, by rw [Int.toNat_natCast]; omega, ?_⟩
    rw [Ok_ok, Int.toNat_natCast]
    right
    refine ⟨c, l, rfl, ?_⟩
    refine scc_init_visited ?_ ?_ ⟨?_, ?_, hV⟩
    · show c < s.marks.size; omega
    · exact hcv
    · exact (hcons c l rfl).irrel _ _
    · simp only [List.length_cons] at hb
      show 2 * (A.n - s.index) + l.length + 1 ≤ b
      omega

/-- The node `j` is complete. -/
theorem scc_done_spec {j : Nat} {l : List Nat} {s : Scc} (hA : A.WF) (hnm : A.n = A.m)
    (h : SccInv A (j :: l) ps s) (hsz : s.pstack.size = A.n)
    (hle : ∀ v, v < A.n → A.p.g v + s.pstack.g v ≤ A.p.g (v + 1))
    (hps : ∀ v, v ≠ j → s.pstack.g v = ps.g v)
    (hfull : A.p.g j + ps.g j = A.p.g (j + 1)) {b : Nat}
    (hb : 2 * (A.n - s.index) + l.length ≤ b) {V : Nat → Prop} (hV : ∀ v, V v → 0 ≤ s.marks.g v) :
    Ok (scc_root A.n j s >>= scc_back j) (SccHead A V b) := by
  have hjmem : j ∈ j :: l := List.mem_cons_self ..
  have hjon := h.path_on j hjmem
  have hjn := h.on_lt hjon
  have hls := h.low_size
  have hms := h.marks_size
  have hnm' := h.head_not_mem
  rw [Ok_bind]
  unfold scc_root
  rw [Ok_bind, Ok_rd]
  refine ⟨by omega, ?_⟩
  rw [Ok_bind, Ok_rd]
  refine ⟨by omega, ?_⟩
  by_cases hroot : s.low.g j = s.marks.g j
  · rw [if_pos hroot]
    refine (scc_emit_spec hA hnm h hfull hroot).mono ?_
    rintro s' ⟨g1, g2, g3, g4, g5, g6⟩
    have g1' : SccInv A l s'.pstack s' := by
      refine g1.setps (by rw [g3]; exact hsz) (by rw [g3]; exact hle) ?_ ?_
      · intro v _ hm
        rw [g3]
        refine hps v ?_
        intro he; rw [he, g6] at hm
        have := h.on_vis hjon
        omega
      · intro v hv
        rw [g3]
        exact hps v fun he => hnm' (he ▸ hv)
    refine scc_back_spec hjn (by rw [g4]; exact h.chain) g1'.prev_size g1'.low_size g1'.marks_size
      ?_ (by rw [g2]; exact hb) (by rw [g6]; exact hV) (fun hl => hl ▸ g1') ?_
    · intro c hc
      exact ⟨g1'.on_lt (g1'.path_on c hc), g1'.on_vis (g1'.path_on c hc)⟩
    · intro c l' hl
      have hc : c ∈ l := by rw [hl]; exact List.mem_cons_self ..
      have hcon := g1'.path_on c hc
      rw [g5, min_eq_left (g1'.low_lt hcon).le]
      exact g1'.setlow hc (le_refl _) (g1'.low_wit c hcon)
  · rw [if_neg hroot, Ok_ok]
    refine scc_back_spec hjn h.chain h.prev_size hls hms ?_ hb hV ?_ ?_
    · intro c hc
      have hc' := h.path_on c (List.mem_cons_of_mem _ hc)
      exact ⟨h.on_lt hc', h.on_vis hc'⟩
    · intro hl
      obtain ⟨c, hc, -⟩ := h.up hroot
      rw [hl] at hc; cases hc
    · intro c l' hl
      subst hl
      have hcmem : c ∈ j :: c :: l' := List.mem_cons_of_mem _ (List.mem_cons_self ..)
      have hcon := h.path_on c hcmem
      have hcn := h.on_lt hcon
      have hcj : c ≠ j := fun he => hnm' (he ▸ List.mem_cons_self ..)
      have hset : SccInv A (j :: c :: l') ps
          { s with low := s.low.upd c (min (s.low.g c) (s.low.g j)) } := by
        refine h.setlow hcmem (min_le_left _ _) ?_
        rcases le_total (s.low.g c) (s.low.g j) with hc | hc
        · rw [min_eq_left hc]; exact h.low_wit c hcon
        · rw [min_eq_right hc]
          obtain ⟨w, h1, h2, h3⟩ := h.low_wit j hjon
          exact ⟨w, h1, h2, (h.on_reach hcon hjon (h.head_max hcmem)).trans h3⟩
      have hm := hset.merge hfull (by
        show (s.low.upd c _).g j ≠ _
        rw [g_upd_ne _ _ _ _ hcj.symm]; exact hroot) (by
        show (s.low.upd c _).g c ≤ (s.low.upd c _).g j
        rw [g_upd_ne _ _ _ _ hcj.symm, g_upd_eq _ _ _ (by omega)]
        exact min_le_right _ _)
      refine hm.setps hsz hle ?_ ?_
      · intro v _ hmv
        refine hps v ?_
        intro he; rw [he] at hmv
        have := h.on_vis hjon
        change s.marks.g j < 0 at hmv
        omega
      · intro v hv
        exact hps v fun he => hnm' (he ▸ hv)

/-- A new node is pushed. -/
theorem scc_push_spec {j px : Nat} {l : List Nat} {s : Scc} (hA : A.WF) (hnm : A.n = A.m)
    (h : SccInv A (j :: l) (s.pstack.upd j px) s) (hps : s.pstack.size = A.n)
    (hpos : A.p.g j + px < A.p.g (j + 1)) (hm : s.marks.g (A.j.g (A.p.g j + px)) < 0) {b : Nat}
    (hb : 2 * (A.n - s.index) + l.length ≤ b) {V : Nat → Prop} (hV : ∀ v, V v → 0 ≤ s.marks.g v) :
    Ok (scc_push A j (A.p.g j) px s) (SccHead A V b) := by
  have hjmem : j ∈ j :: l := List.mem_cons_self ..
  have hjon := h.path_on j hjmem
  have hjn := h.on_lt hjon
  have hk1 := hA.row_lt hjn hpos
  have hkn := hA.j_lt _ hk1
  have hk2 := hA.p_nnz
  have hcnt := h.count.2 _ (by omega) hm
  have htot := h.total
  have hss := h.stack_size
  have hvs := h.prev_size
  have hls := h.low_size
  have hms := h.marks_size
  have hjs : j < s.pstack.size := by omega
  unfold scc_push
  rw [Ok_bind, Ok_rd]
  refine ⟨by omega, ?_⟩
  rw [Ok_bind, Ok_wr]
  refine ⟨by omega, ?_⟩
  rw [Ok_bind, Ok_wr]
  refine ⟨by omega, ?_⟩
  rw [Ok_bind, Ok_wr]
  refine ⟨by omega, ?_⟩
  rw [Ok_ok]
  set k := A.j.g (A.p.g j + px) with hk
  have hkj : k ≠ j := by
    intro he; rw [he] at hm
    have := h.on_vis hjon
    omega
  have hkp : ∀ c, c ∈ j :: l → c ≠ k := by
    intro c hc he
    have := h.on_vis (h.path_on c hc)
    rw [he] at this; omega
  right
  refine ⟨k, j :: l, rfl, ?_⟩
  refine scc_init_new ?_ ?_ ?_ ⟨?_, ?_, ?_⟩
  · show k < s.marks.size; omega
  · show k < s.low.size; omega
  · exact hm
  · have hchain : ∀ l', (∀ c, c ∈ l' → c ≠ k) → PrevChain s.prev l' →
        PrevChain (s.prev.upd k (j : Int)) l' := by
      intro l'
      induction l' with
      | nil => intros; trivial
      | cons a l' ih =>
        intro h1 h2
        cases l' with
        | nil =>
          show (s.prev.upd k _).g a = -1
          rw [g_upd_ne _ _ _ _ (h1 a (List.mem_cons_self ..))]; exact h2
        | cons c l' =>
          refine ⟨?_, ih (fun d hd => h1 d (List.mem_cons_of_mem _ hd)) h2.2⟩
          rw [g_upd_ne _ _ _ _ (h1 a (List.mem_cons_self ..))]; exact h2.1
    have hpush := h.push (k := k) (pr := s.prev.upd k (j : Int)) (by omega) hm (by
        intro c hc
        exact (h.on_reach (h.path_on c hc) hjon (h.head_max hc)).tail
          (show Edge A j k from ⟨hjn, _, by omega, hpos, rfl⟩))
      (by simpa using hvs) (fun v hv => g_upd_ne _ _ _ _ hv)
      ⟨g_upd_eq _ _ _ (by omega), hchain _ hkp h.chain⟩
    have hlj : s.low.g j ≤ s.index := by
      have h1 := h.low_le j hjon
      have h2 := h.idx j hjn
      omega
    have hadv := hpush.advance (c := j) (x := px) (List.mem_cons_of_mem _ hjmem)
      (by rw [g_upd_eq _ _ _ hjs]) hpos (by
        show 0 ≤ (s.marks.upd k _).g k
        rw [g_upd_eq _ _ _ (by omega)]; omega) (by
        intro _
        show (s.low.upd k _).g j ≤ (s.marks.upd k _).g k
        rw [g_upd_eq _ _ _ (by omega), g_upd_ne _ _ _ _ hkj.symm]; exact hlj)
    have heq : (s.pstack.upd j px).upd j (px + 1) = s.pstack.upd j (px + 1) := by
      refine array_ext_g (by simp) ?_
      intro v hv
      by_cases he : v = j
      · rw [he, g_upd_eq _ _ _ hjs, g_upd_eq _ _ _ (by simpa using hjs)]
      · rw [g_upd_ne _ _ _ _ he, g_upd_ne _ _ _ _ he, g_upd_ne _ _ _ _ he]
    rw [heq] at hadv
    exact hadv.irrel _ _
  · show 2 * (A.n - (s.index + 1)) + (j :: l).length + 1 ≤ b
    simp only [List.length_cons]
    omega
  · intro v hv
    show 0 ≤ (s.marks.upd k _).g v
    by_cases he : v = k
    · rw [he, g_upd_eq _ _ _ (by omega)]; omega
    · rw [g_upd_ne _ _ _ _ he]; exact hV v hv

theorem scc_step_spec {j : Nat} {l : List Nat} {s : Scc} {b : Nat} {V : Nat → Prop} (hA : A.WF)
    (hnm : A.n = A.m) (h : Ok (scc_init j s) (fun s' =>
      SccInv A (j :: l) s'.pstack s' ∧ 2 * (A.n - s'.index) + l.length + 1 ≤ b ∧
      ∀ v, V v → 0 ≤ s'.marks.g v)) :
    Ok (scc_step A j s) (fun s' => ∃ b', b' < b ∧ SccHead A V b' s') := by
  have main : Ok (scc_step A j s) (fun s' => 0 < b ∧ SccHead A V (b - 1) s') := by
    unfold scc_step
    rw [Ok_bind]
    refine h.mono ?_
    rintro s1 ⟨h1, h2, hV⟩
    have hjmem : j ∈ j :: l := List.mem_cons_self ..
    have hjon := h1.path_on j hjmem
    have hjn := h1.on_lt hjon
    have hpz := hA.p_size
    have hmono := hA.p_mono j hjn
    rw [Ok_bind, Ok_rd]
    refine ⟨by omega, ?_⟩
    rw [Ok_bind, Ok_rd]
    refine ⟨by omega, ?_⟩
    rw [Ok_bind]
    refine (scc_scan_spec hA hnm h1).mono ?_
    rintro ⟨px, br, low⟩ ⟨g1, g2, g3, g4⟩
    simp only at g1 g2 g3 g4 ⊢
    have hjs : j < s1.pstack.size := by rw [h1.ps_size]; exact hjn
    cases br with
    | true =>
      rw [if_pos rfl]
      obtain ⟨g5, g6⟩ := g4 rfl
      refine (scc_push_spec (s := { s1 with low := low }) hA hnm g1 h1.ps_size g5 g6
        (b := b - 1) (by show 2 * (A.n - s1.index) + l.length ≤ b - 1; omega) hV).mono ?_
      intro s' hs'
      exact ⟨by omega, hs'⟩
    | false =>
      have g5 := g3 rfl
      rw [if_neg (by decide), if_pos g5]
      refine (scc_done_spec (s := { s1 with low := low }) hA hnm g1 h1.ps_size h1.ps_le ?_ ?_
        (b := b - 1) (by show 2 * (A.n - s1.index) + l.length ≤ b - 1; omega) hV).mono ?_
      · intro v hv
        rw [g_upd_ne _ _ _ _ hv]
      · rw [g_upd_eq _ _ _ hjs]; omega
      · intro s' hs'
        exact ⟨by omega, hs'⟩
  refine main.mono ?_
  rintro s' ⟨h1, h2⟩
  exact ⟨b - 1, by omega, h2⟩

/-- A whole depth-first search. -/
theorem scc_dfs_spec {i : Nat} {s : Scc} (hA : A.WF) (hnm : A.n = A.m)
    (h : SccInv A [] s.pstack s) (hi : i < A.n) (hm : s.marks.g i < 0) {V : Nat → Prop}
    (hV : ∀ v, V v → v = i ∨ 0 ≤ s.marks.g v) :
    Ok (scc_dfs A i s) (fun s' => SccInv A [] s'.pstack s' ∧ ∀ v, V v → 0 ≤ s'.marks.g v) := by
  have htop := h.top_zero
  have hss := h.stack_size
  have hms := h.marks_size
  have hls := h.low_size
  have hcnt := h.count.2 i hi hm
  unfold scc_dfs
  rw [Ok_bind, Ok_wr]
  refine ⟨by omega, ?_⟩
  refine Ok_whileFuel' (I := SccHead A V) ?_ (2 * A.n + 1) (2 * A.n) _ ?_ (by omega)
  · intro b s' hs'
    rcases hs' with ⟨h1, h2, h3⟩ | ⟨j, l, h1, h2⟩
    · rw [if_neg (by omega), Ok_ok]
      exact ⟨h2, h3⟩
    · rw [if_pos (by omega), Ok_bind, h1, Int.toNat_natCast]
      refine (scc_step_spec hA hnm h2).mono ?_
      intro s2 hs2
      exact hs2
  · right
    refine ⟨i, [], rfl, ?_⟩
    refine scc_init_new ?_ ?_ ?_ ⟨?_, ?_, ?_⟩
    · show i < s.marks.size; omega
    · show i < s.low.size; omega
    · exact hm
    · have hpush := h.push (k := i) (pr := s.prev) hi hm (fun c hc => by cases hc) h.prev_size
        (fun _ _ => rfl) (h.unvis i hi hm).2
      have := hpush.irrel (i : Int) s.pstack
      unfold SccInv.pushed at this
      rw [htop] at this
      exact this
    · show 2 * (A.n - (s.index + 1)) + 0 + 1 ≤ 2 * A.n
      omega
    · intro v hv
      show 0 ≤ (s.marks.upd i _).g v
      by_cases he : v = i
      · rw [he, g_upd_eq _ _ _ (by omega)]; omega
      · rw [g_upd_ne _ _ _ _ he]; exact (hV v hv).resolve_left he

theorem path_closed {P : Nat → Prop} (hP : ∀ u w, P u → A.InRow u w → P w) {u w : Nat}
    (h : Path A u w) (hu : P u) : P w := by
  induction h with
  | refl => exact hu
  | tail _ hb ih => exact hP _ _ ih hb.2

/-- The result of the search, before the reversal. -/
structure SccRes (A : Csr) (s : Scc) : Prop where
  inv : SccInv A [] s.pstack s
  all : s.ptop = A.n

theorem SccRes.of_inv {s : Scc} (h : SccInv A [] s.pstack s)
    (hv : ∀ v, v < A.n → 0 ≤ s.marks.g v) : SccRes A s := by
  refine ⟨h, ?_⟩
  have h0 := h.top_zero
  have hle := h.count.1
  have htot := h.total
  have : A.n ≤ s.ptop := by
    have hch : ∀ v, v < A.n → ∃ t, t < s.ptop ∧ s.p.g t = v := by
      intro v hv'
      rcases h.vis v hv' (hv v hv') with ⟨t, ht, -⟩ | h1
      · omega
      · exact h1
    classical
    have := Finset.card_le_card_of_surjOn (s := Finset.range s.ptop) (t := Finset.range A.n) s.p.g
      (by
        intro v hv'
        obtain ⟨t, h1, h2⟩ := hch v (by simpa using hv')
        exact ⟨t, by simpa using h1, h2⟩)
    simpa using this
  omega

theorem SccRes.rr_mono {s : Scc} (h : SccRes A s) : ∀ b c, b ≤ c → c ≤ s.nscc →
    s.rr.g b ≤ s.rr.g c := by
  intro b c hbc hc
  induction c with
  | zero => rw [show b = 0 by omega]
  | succ c ih =>
    by_cases he : b = c + 1
    · rw [he]
    · have := h.inv.rr_lt c (by omega)
      have := ih (by omega) (by omega)
      omega

theorem SccRes.isScc {s : Scc} (h : SccRes A s) {P : Dm} (hps : P.p.size = A.n)
    (hp : ∀ i, i < A.n → P.p.g i = s.p.g (A.n - 1 - i)) (hq : P.q = P.p) (hnb : P.nb = s.nscc)
    (hr : ∀ b, b ≤ s.nscc → P.r.g b = (A.n : Int) - s.rr.g (s.nscc - b))
    (hc : ∀ b, b ≤ s.nscc → P.c.g b = P.r.g b) (hrs : P.nb < P.r.size) (hcs : P.nb < P.c.size) :
    IsScc A P := by
  have hI := h.inv
  have hall := h.all
  have hlast := hI.rr_last
  have hfind : ∀ t : Nat, t < s.ptop → ∃ b, b < s.nscc ∧ s.rr.g b ≤ t ∧ t < s.rr.g (b + 1) := by
    intro t ht
    have key : ∀ c, c ≤ s.nscc → (t : Int) < s.rr.g c →
        ∃ b, b < c ∧ s.rr.g b ≤ t ∧ t < s.rr.g (b + 1) := by
      intro c
      induction c with
      | zero => intro _ h1; rw [hI.rr_zero] at h1; omega
      | succ c ih =>
        intro h1 h2
        by_cases h3 : s.rr.g c ≤ t
        · exact ⟨c, by omega, h3, h2⟩
        · obtain ⟨b, g1, g2⟩ := ih (by omega) (by omega)
          exact ⟨b, by omega, g2⟩
    obtain ⟨b, g1, g2⟩ := key s.nscc (le_refl _) (by omega)
    exact ⟨b, g1, g2⟩
  have hinj : ∀ t u, t < A.n → u < A.n → s.p.g t = s.p.g u → t = u := by
    intro t u ht hu he
    rcases Nat.lt_trichotomy t u with hlt | hlt | hlt
    · exact absurd he (hI.em_inj t u hlt (by omega))
    · exact hlt
    · exact absurd he.symm (hI.em_inj u t hlt (by omega))
  have hreach : ∀ b, b < s.nscc → ∀ t u, t < A.n → u < A.n → (t : Int) < s.rr.g (b + 1) →
      Path A (s.p.g t) (s.p.g u) → (u : Int) < s.rr.g (b + 1) := by
    intro b hb t u ht hu h1 h2
    obtain ⟨u', h3, h4⟩ := path_closed (P := fun v => ∃ u' : Nat, (u' : Int) < s.rr.g (b + 1) ∧
      s.p.g u' = v) (by
        rintro x w ⟨t', k1, rfl⟩ k2
        exact hI.block_edge b hb t' k1 w k2) h2 ⟨t, h1, rfl⟩
    have := h.rr_mono (b + 1) s.nscc (by omega) (le_refl _)
    rw [hinj u u' hu (by omega) h4.symm]
    exact h3
  have hpm : ∀ i, i < A.n → P.p.g i < A.n := by
    intro i hi; rw [hp i hi]; exact hI.em_lt _ (by omega)
  refine { p_size := hps, q_eq := hq, perm := ⟨hpm, ?_⟩, r_zero := ?_, r_last := ?_, r_lt := ?_,
           r_size := hrs, c_size := hcs, c_eq := ?_, conn := ?_, same := ?_, tri := ?_ }
  · intro i j hi hj he
    rw [hp i hi, hp j hj] at he
    have := hinj _ _ (by omega) (by omega) he
    omega
  · rw [hr 0 (by omega), Nat.sub_zero, hlast]; omega
  · rw [hnb, hr _ (le_refl _), Nat.sub_self, hI.rr_zero]; omega
  · intro b hb
    rw [hnb] at hb
    rw [hr b (by omega), hr (b + 1) (by omega)]
    have := hI.rr_lt (s.nscc - (b + 1)) (by omega)
    rw [show s.nscc - (b + 1) + 1 = s.nscc - b by omega] at this
    omega
  · intro b hb; rw [hnb] at hb; exact hc b hb
  · intro b hb t u
    rw [hnb] at hb
    rw [hr b (by omega), hr (b + 1) (by omega)]
    intro h1 h2 h3 h4
    have h5 := h.rr_mono (s.nscc - b) s.nscc (by omega) (le_refl _)
    have h6 := h.rr_mono 0 (s.nscc - (b + 1)) (by omega) (by omega)
    rw [hI.rr_zero] at h6
    rw [hp t (by omega), hp u (by omega)]
    have := hI.block_conn (s.nscc - (b + 1)) (by omega) (A.n - 1 - t) (A.n - 1 - u)
    rw [show s.nscc - (b + 1) + 1 = s.nscc - b by omega] at this
    exact this (by omega) (by omega) (by omega) (by omega)
  · intro t u ht hu h1 h2
    rw [hp t ht, hp u hu] at h1 h2
    obtain ⟨b, g1, g2, g3⟩ := hfind (A.n - 1 - t) (by omega)
    have k1 := hreach b g1 _ _ (by omega) (by omega) g3 h1
    have k2 : s.rr.g b ≤ ((A.n - 1 - u : Nat) : Int) := by
      by_cases hb : b = 0
      · rw [hb, hI.rr_zero]; omega
      · by_contra hn
        have := hreach (b - 1) (by omega) (A.n - 1 - u) (A.n - 1 - t) (by omega) (by omega)
          (by rw [show b - 1 + 1 = b by omega]; omega) h2
        rw [show b - 1 + 1 = b by omega] at this
        omega
    refine ⟨s.nscc - 1 - b, by omega, ?_⟩
    rw [hr (s.nscc - 1 - b) (by omega), hr (s.nscc - 1 - b + 1) (by omega),
      show s.nscc - (s.nscc - 1 - b) = b + 1 by omega,
      show s.nscc - (s.nscc - 1 - b + 1) = b by omega]
    omega
  · intro t u ht hu hin b hb h1
    rw [hnb] at hb
    rw [hr b hb] at h1 ⊢
    rw [hp t ht, hp u hu] at hin
    by_cases h0 : s.nscc - b = 0
    · rw [h0, hI.rr_zero] at h1; omega
    · obtain ⟨u', k1, k2⟩ := hI.block_edge (s.nscc - b - 1) (by omega) (A.n - 1 - t)
        (by rw [show s.nscc - b - 1 + 1 = s.nscc - b by omega]; omega) _ hin
      rw [show s.nscc - b - 1 + 1 = s.nscc - b by omega] at k1
      have := h.rr_mono (s.nscc - b) s.nscc (by omega) (le_refl _)
      have := hinj u' _ (by omega) (by omega) k2
      omega

/-- Copy of an array into another one. -/
theorem Ok_copy {α : Type} [Inhabited α] {n : Nat} {a b : Array α} (f : Nat → α)
    {body : Nat → Array α → C (Array α)} (hn : n ≤ b.size)
    (hbody : ∀ i c, i < n → c.size = b.size → Ok (body i c) (fun r => r = c.upd i (f i)))
    (ha : b = a) :
    Ok (forRange 0 n b body) (fun r => r.size = a.size ∧ (∀ i, i < n → r.g i = f i) ∧
      ∀ i, n ≤ i → r.g i = a.g i) := by
  subst ha
  refine Ok_forRange_imp (I := fun k (c : Array α) => c.size = b.size ∧
    (∀ i, i < k → c.g i = f i) ∧ ∀ i, k ≤ i → c.g i = b.g i) (by omega)
    ⟨rfl, fun i hi => by omega, fun _ _ => rfl⟩ ?_ ?_
  · rintro k c - hk ⟨h1, h2, h3⟩
    refine (hbody k c hk h1).mono ?_
    rintro r rfl
    refine ⟨by rw [size_upd]; exact h1, ?_, ?_⟩
    · intro i hi
      by_cases he : i = k
      · rw [he, g_upd_eq _ _ _ (by omega)]
      · rw [g_upd_ne _ _ _ _ he]; exact h2 i (by omega)
    · intro i hi
      rw [g_upd_ne _ _ _ _ (by omega)]; exact h3 i (by omega)
  · intro c hc; exact hc

theorem scc_finish_spec (jk : Junk) {s : Scc} (hR : SccRes A s) :
    Ok (scc_finish A (dm_alloc jk A.n A.n) s) (IsScc A) := by
  have hcsz : (dm_alloc jk A.n A.n).c.size = A.n + 6 := by simp [dm_alloc]
  have hqsz : (dm_alloc jk A.n A.n).q.size = A.n := by simp [dm_alloc]
  have hI := hR.inv
  unfold scc_finish
  have hall := hR.all
  have hnle := hI.nscc_le
  have hsr := hI.rr_size
  have hsp := hI.p_size
  rw [Ok_bind, Ok_cassert]
  refine ⟨by simpa using hall, ?_⟩
  rw [Ok_bind]
  refine (Ok_copy (fun i => s.p.g (A.n - 1 - i)) (by omega) ?_ rfl).mono ?_
  · intro i c hi hc
    rw [Ok_bind, Ok_rd]
    refine ⟨by omega, ?_⟩
    rw [Ok_wr]
    exact ⟨by omega, rfl⟩
  rintro q ⟨q1, q2, -⟩
  rw [Ok_bind]
  refine (Ok_copy (fun i => q.g i) (by omega) ?_ rfl).mono ?_
  · intro i c hi hc
    rw [Ok_bind, Ok_rd]
    refine ⟨by omega, ?_⟩
    rw [Ok_wr]
    exact ⟨by omega, rfl⟩
  rintro p ⟨p1, p2, -⟩
  rw [Ok_bind]
  refine (Ok_copy (fun i => (A.n : Int) - s.rr.g (s.nscc - i)) (by omega) ?_ rfl).mono ?_
  · intro i c hi hc
    rw [Ok_bind, Ok_rd]
    refine ⟨by omega, ?_⟩
    rw [Ok_wr]
    exact ⟨by omega, rfl⟩
  rintro cc ⟨c1, c2, -⟩
  rw [Ok_bind]
  refine (Ok_copy (fun i => cc.g i) (by omega) ?_ rfl).mono ?_
  · intro i c hi hc
    rw [Ok_bind, Ok_rd]
    refine ⟨by omega, ?_⟩
    rw [Ok_wr]
    exact ⟨by omega, rfl⟩
  rintro r ⟨r1, r2, -⟩
  rw [Ok_ok]
  refine hR.isScc (by show p.size = _; omega) ?_ ?_ rfl ?_ ?_ ?_ ?_
  · intro i hi
    show p.g i = _
    rw [p2 i hi, q2 i hi]
  · show q = p
    refine array_ext_g (by omega) ?_
    intro i hi
    rw [p2 i (by omega)]
  · intro b hb
    show r.g b = _
    rw [r2 b (by omega), c2 b (by omega)]
  · intro b hb
    show cc.g b = r.g b
    rw [r2 b (by omega)]
  · show s.nscc < r.size; omega
  · show s.nscc < cc.size; omega

theorem strongly_connected_components_spec (jk : Junk) (hA : A.WF) (hnm : A.n = A.m) :
    Ok (strongly_connected_components jk A) (IsScc A) := by
  unfold strongly_connected_components
  rw [Ok_bind, Ok_cassert]
  refine ⟨by simpa using hnm, ?_⟩
  simp only
  rw [Ok_bind]
  refine Ok_forRange_imp (I := fun k (t : Array Int × Array Int × Array Nat) => t.1.size = A.n ∧
    t.2.1.size = A.n ∧ t.2.2.size = A.n ∧ ∀ i, i < k → t.1.g i = -1 ∧ t.2.1.g i = -1 ∧
    t.2.2.g i = 0) (by omega) ⟨by simp, by simp, by simp, fun i hi => by omega⟩ ?_ ?_
  · rintro i ⟨mk, pv, ps⟩ - hi ⟨h1, h2, h3, h4⟩
    simp only at h1 h2 h3 h4 ⊢
    rw [Ok_bind, Ok_wr]
    refine ⟨by omega, ?_⟩
    rw [Ok_bind, Ok_wr]
    refine ⟨by omega, ?_⟩
    rw [Ok_bind, Ok_wr]
    refine ⟨by omega, ?_⟩
    rw [Ok_ok]
    refine ⟨by simpa using h1, by simpa using h2, by simpa using h3, fun k hk => ?_⟩
    by_cases he : k = i
    · rw [he, g_upd_eq _ _ _ (by omega), g_upd_eq _ _ _ (by omega), g_upd_eq _ _ _ (by omega)]
      exact ⟨rfl, rfl, rfl⟩
    · rw [g_upd_ne _ _ _ _ he, g_upd_ne _ _ _ _ he, g_upd_ne _ _ _ _ he]; exact h4 k (by omega)
  · rintro ⟨mk, pv, ps⟩ ⟨h1, h2, h3, h4⟩
    simp only at h1 h2 h3 h4 ⊢
    have hrsz : (dm_alloc jk A.n A.n).r.size = A.n + 6 := by simp [dm_alloc]
    have hcsz : (dm_alloc jk A.n A.n).c.size = A.n + 6 := by simp [dm_alloc]
    have hpsz : (dm_alloc jk A.n A.n).p.size = A.n := by simp [dm_alloc]
    have hqsz : (dm_alloc jk A.n A.n).q.size = A.n := by simp [dm_alloc]
    rw [Ok_bind, Ok_wr]
    refine ⟨by omega, ?_⟩
    rw [Ok_bind]
    refine Ok_forRange_imp (I := fun k (s : Scc) => SccInv A [] s.pstack s ∧
      ∀ v, v < k → 0 ≤ s.marks.g v) (by omega) ?_ ?_ ?_
    · have hno : ∀ v, ¬ Scc.On ⟨-1, 0, 0, 0, 0, (dm_alloc jk A.n A.n).p,
          (dm_alloc jk A.n A.n).r.upd 0 0, ps, mk, pv, mkArr A.n jk.nat, mkArr A.n jk.int⟩ v := by
        rintro v ⟨t, ht, -⟩
        exact absurd ht (Nat.not_lt_zero _)
      refine ⟨?_, fun v hv => by omega⟩
      refine { p_size := hpsz, ps_size := h3, marks_size := h1, prev_size := h2,
               stack_size := by simp, low_size := by simp, rr_size := by simp [hrsz],
               st_lt := fun t ht => absurd ht (Nat.not_lt_zero _),
               st_vis := fun t ht => absurd ht (Nat.not_lt_zero _),
               ord := fun t u _ ht => absurd ht (Nat.not_lt_zero _),
               em_lt := fun t ht => absurd ht (Nat.not_lt_zero _),
               em_vis := fun t ht => absurd ht (Nat.not_lt_zero _),
               em_low := fun t ht => absurd ht (Nat.not_lt_zero _),
               em_inj := fun t u _ ht => absurd ht (Nat.not_lt_zero _),
               disj := fun t u ht => absurd ht (Nat.not_lt_zero _),
               vis := ?_, idx := ?_, total := rfl, unvis := fun v hv _ => ⟨(h4 v hv).2.2, (h4 v hv).2.1⟩,
               ps_le := ?_, path_on := (fun c hc => by cases hc), path_dec := List.Pairwise.nil,
               chain := trivial, reach := fun t u _ ht => absurd ht (Nat.not_lt_zero _),
               gray := fun v hv => absurd hv (hno v), low_le := fun v hv => absurd hv (hno v),
               low_wit := fun v hv => absurd hv (hno v), exam := ?_,
               seg := fun v w hv => absurd hv (hno v), rr_zero := ?_, rr_last := ?_,
               rr_lt := fun b hb => absurd hb (Nat.not_lt_zero _), nscc_le := le_refl _,
               block_conn := fun b hb => absurd hb (Nat.not_lt_zero _),
               block_edge := fun b hb => absurd hb (Nat.not_lt_zero _) }
      · intro v hv hm
        have := (h4 v hv).1
        simp only at hm
        omega
      · intro v hv
        show mk.g v < ((0 : Nat) : Int)
        have := (h4 v hv).1
        omega
      · intro v hv
        show A.p.g v + ps.g v ≤ _
        rw [(h4 v hv).2.2]; exact hA.p_mono v hv
      · intro v w hv hm
        have := (h4 v hv).1
        simp only at hm
        omega
      · exact g_upd_eq _ _ _ (by omega)
      · exact g_upd_eq _ _ _ (by omega)
    · rintro i s - hi ⟨hI, hv⟩
      rw [Ok_bind, Ok_rd]
      refine ⟨by rw [hI.marks_size]; exact hi, ?_⟩
      by_cases hm : 0 ≤ s.marks.g i
      · rw [if_pos hm, Ok_ok]
        refine ⟨hI, fun v hv' => ?_⟩
        by_cases he : v = i
        · rw [he]; exact hm
        · exact hv v (by omega)
      · rw [if_neg hm]
        refine scc_dfs_spec hA hnm hI hi (by omega) (V := fun v => v < i + 1) ?_
        intro v hv'
        by_cases he : v = i
        · left; exact he
        · right; exact hv v (by omega)
    · rintro s ⟨hI, hv⟩
      exact scc_finish_spec jk (SccRes.of_inv hI hv)

end Spasm
