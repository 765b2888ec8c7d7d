import Verif.Model.StoreBuffer
import Verif.Proofs.Commit

/-
The commit protocol with store buffers: relation with the machine without buffers.
-/

namespace Spasm.Commit

open Finset

variable {T : Nat}

/-! ### Writes and their effects -/

/-- Apply a list of pending writes of several threads. -/
def appL (L : List (Fin T × Item)) (s : St T) : St T := L.foldl (fun s e => e.2.apply s) s

/-- The writes of thread `t`. -/
def bufOf (L : List (Fin T × Item)) (t : Fin T) : List Item := (L.filter fun e => e.1 = t).map (·.2)

theorem apply_frame (i : Item) (s : St T) (l : Option (Fin T)) (w : Nat) (th : Fin T → Thread) :
    i.apply { s with lock := l, writing := w, th := th } =
      { i.apply s with lock := l, writing := w, th := th } := by
  cases i <;> rfl

theorem appL_frame (L : List (Fin T × Item)) (s : St T) (l : Option (Fin T)) (w : Nat) (th : Fin T → Thread) :
    appL L { s with lock := l, writing := w, th := th } =
      { appL L s with lock := l, writing := w, th := th } := by
  induction L generalizing s with
  | nil => rfl
  | cons e L ih =>
    show appL L (e.2.apply _) = _
    rw [apply_frame, ih]; rfl

theorem apply_th (i : Item) (s : St T) :
    (i.apply s).th = s.th ∧ (i.apply s).lock = s.lock ∧ (i.apply s).writing = s.writing := by
  cases i <;> exact ⟨rfl, rfl, rfl⟩

theorem appL_th (L : List (Fin T × Item)) (s : St T) :
    (appL L s).th = s.th ∧ (appL L s).lock = s.lock ∧ (appL L s).writing = s.writing := by
  induction L generalizing s with
  | nil => exact ⟨rfl, rfl, rfl⟩
  | cons e L ih =>
    obtain ⟨h1, h2, h3⟩ := ih (e.2.apply s)
    obtain ⟨g1, g2, g3⟩ := apply_th e.2 s
    exact ⟨h1.trans g1, h2.trans g2, h3.trans g3⟩

theorem appL_append (L L' : List (Fin T × Item)) (s : St T) : appL (L ++ L') s = appL L' (appL L s) := by
  unfold appL; rw [List.foldl_append]

theorem bufOf_append (L L' : List (Fin T × Item)) (t : Fin T) : bufOf (L ++ L') t = bufOf L t ++ bufOf L' t := by
  unfold bufOf; rw [List.filter_append, List.map_append]

theorem bufOf_own (l : List Item) (t u : Fin T) :
    bufOf (l.map fun i => (t, i)) u = if u = t then l else [] := by
  unfold bufOf
  by_cases h : u = t
  · subst h
    rw [if_pos rfl]
    induction l with
    | nil => rfl
    | cons a l ih => simpa using ih
  · rw [if_neg h]
    have : ¬ t = u := fun e => h e.symm
    induction l with
    | nil => rfl
    | cons a l ih => simp [this]

theorem upd_comm {α : Type} (f : Nat → α) {a b : Nat} (h : a ≠ b) (x y : α) :
    upd (upd f a x) b y = upd (upd f b y) a x := by
  funext i
  unfold upd
  by_cases h1 : i = b <;> by_cases h2 : i = a <;> simp_all

theorem upd_upd {α : Type} (f : Nat → α) (a : Nat) (x y : α) : upd (upd f a x) a y = upd f a y := by
  funext i
  unfold upd
  by_cases h1 : i = a <;> simp_all

theorem set_comm (a : Array Nat) {i j : Nat} (h : i ≠ j) (x y : Nat) :
    (a.setIfInBounds i x).setIfInBounds j y = (a.setIfInBounds j y).setIfInBounds i x := by
  apply Array.ext
  · simp
  · intro k h1 h2
    simp only [Array.size_setIfInBounds] at h1 h2
    rw [Array.getElem_setIfInBounds (by simpa using h1), Array.getElem_setIfInBounds h1,
      Array.getElem_setIfInBounds (by simpa using h1), Array.getElem_setIfInBounds h1]
    split <;> split <;> first | rfl | (subst_vars; exact absurd rfl h)

theorem apply_comm (i j : Item) (h : i.conf j = false) (s : St T) : i.apply (j.apply s) = j.apply (i.apply s) := by
  cases i <;> cases j <;> simp only [Item.conf, beq_eq_false_iff_ne, Bool.and_eq_false_iff, reduceCtorEq] at h <;>
    simp only [Item.apply]
  case cell.cell b g c k v b' g' c' k' v' =>
    congr 1
    by_cases hb : b = b'
    · subst hb
      rw [upd_self, upd_self, upd_upd, upd_upd]
      congr 1
      by_cases hc : c = c'
      · subst hc
        rw [upd_self, upd_self, upd_upd, upd_upd, upd_comm]
        rintro rfl; simp at h
      · rw [upd_ne _ _ hc, upd_ne _ _ (Ne.symm hc), upd_comm _ (Ne.symm hc)]
    · rw [upd_ne _ _ hb, upd_ne _ _ (Ne.symm hb), upd_comm _ (Ne.symm hb)]
  case cell.block b g c k v b' g' c' k' =>
    rw [upd_ne _ _ h, upd_comm _ (Ne.symm h)]
  case block.cell b g c k b' g' c' k' v' =>
    rw [upd_ne _ _ (Ne.symm h), upd_comm _ (Ne.symm h)]
  case block.block =>
    rw [upd_comm _ (Ne.symm h), upd_comm _ (Ne.symm h), upd_comm _ (Ne.symm h)]
  case tag.tag => rw [set_comm _ (Ne.symm h)]
  case rowp.rowp => rw [set_comm _ (Ne.symm h)]
  case ptr.ptr b c g b' c' g' =>
    congr 1
    by_cases hb : b = b'
    · subst hb
      rw [upd_self, upd_self, upd_upd, upd_upd]
      congr 1
      rw [upd_comm]
      rintro rfl; simp at h
    · rw [upd_ne _ _ hb, upd_ne _ _ (Ne.symm hb), upd_comm _ (Ne.symm hb)]
  case used.used => rw [upd_comm _ (Ne.symm h)]

theorem conf_comm (i j : Item) : i.conf j = j.conf i := by
  cases i <;> cases j <;> simp only [Item.conf] <;> (try rw [Bool.eq_iff_iff]) <;>
    simp only [Bool.and_eq_true, beq_iff_eq] <;> (try constructor) <;> simp_all [eq_comm]

/-- A write may be moved before others that do not touch its location. -/
theorem appL_move (L : List (Fin T × Item)) (i : Item) (h : ∀ e ∈ L, i.conf e.2 = false) (s : St T) :
    i.apply (appL L s) = appL L (i.apply s) := by
  induction L generalizing s with
  | nil => rfl
  | cons e L ih =>
    show i.apply (appL L (e.2.apply s)) = appL L (e.2.apply (i.apply s))
    rw [ih (fun e' he => h e' (List.mem_cons_of_mem _ he)), apply_comm i e.2 (h e List.mem_cons_self)]

/-! ### The pending writes and the program counters -/

/-- In the critical section, before `writing += 1`. -/
def Pc.pre : Pc → Bool
  | .test _ | .wait _ | .realloc _ | .refresh _ _ | .reserve _ | .enter => true
  | _ => false

/-- After the first write of a row and before `writing -= 1`. -/
def Pc.wr : Pc → Bool
  | .write _ | .rowptr | .leave => true
  | _ => false

/-- The writes a thread may have in its buffer. -/
def Kind (cfg : Cfg) (writing : Nat) (gen : Nat → Nat) (x : Thread) : Item → Prop
  | .cell b g _ k _ => x.pc.wr = true ∧ b < cfg.nb ∧ x.lo b ≤ k ∧ k < x.lo b + x.job.len b ∧ g = gen b
  | .tag i _ => x.pc.wr = true ∧ i = x.li
  | .rowp i _ => x.pc.wr = true ∧ i = x.li + 1
  | .ptr _ _ _ => x.pc.pre = true ∧ writing = 0
  | .block _ _ _ _ => x.pc.pre = true ∧ writing = 0
  | .rows _ => x.pc.pre = true
  | .used _ _ => x.pc.pre = true

theorem Pc.pre_crit {p : Pc} (h : p.pre = true) : p.crit = true := by cases p <;> simp_all [Pc.pre, Pc.crit]

theorem Pc.wr_wph {p : Pc} (h : p.wr = true) : p.wph = true := by cases p <;> simp_all [Pc.wr, Pc.wph]

theorem Pc.wr_not_crit {p : Pc} (h : p.wr = true) : p.crit = false := by cases p <;> simp_all [Pc.wr, Pc.crit]

/-- The relation between a state `m` of the machine with buffers and a state `σ` of the machine without: `L` are the
pending writes in the order in which the program steps have been done. -/
structure BSim (cfg : Cfg) (m : Buf T) (σ : St T) (L : List (Fin T × Item)) : Prop where
  buf : ∀ t, m.buf t = bufOf L t
  flat : σ = appL L m.s
  kind : ∀ e ∈ L, Kind cfg m.s.writing σ.gen (m.s.th e.1) e.2

section
variable {cfg : Cfg} {u0 : Nat → Nat} {mem0 : Nat → Nat → Nat → Int} {J : Multiset Job}
  {rs ts : Nat} {m : Buf T} {σ : St T} {log : List Job} {L : List (Fin T × Item)} {junk : Nat → Int}

theorem BSim.th (h : BSim cfg m σ L) : σ.th = m.s.th := by rw [h.flat]; exact (appL_th L m.s).1
theorem BSim.lock (h : BSim cfg m σ L) : σ.lock = m.s.lock := by rw [h.flat]; exact (appL_th L m.s).2.1
theorem BSim.writing (h : BSim cfg m σ L) : σ.writing = m.s.writing := by rw [h.flat]; exact (appL_th L m.s).2.2

theorem wr_own (hnb : 0 < cfg.nb) {t : Fin T} (ht : (σ.th t).pc.wr = true) :
    0 < (σ.th t).pc.resv cfg.nb ∧ (σ.th t).pc.resv cfg.nb = cfg.nb := by
  cases hp : (σ.th t).pc <;> simp [hp, Pc.wr, Pc.resv] at ht ⊢ <;> exact hnb

/-- Pending writes of different threads do not touch the same location. -/
theorem kind_noconf (hnb : 0 < cfg.nb) (hI : Inv cfg u0 mem0 J rs ts σ log) {t u : Fin T} (htu : t ≠ u) {i j : Item}
    {g g' : Nat → Nat}
    (hi : Kind cfg σ.writing g (σ.th t) i) (hj : Kind cfg σ.writing g' (σ.th u) j) : i.conf j = false := by
  have key1 : (σ.th t).pc.pre = true → (σ.th u).pc.pre = true → False := by
    intro a b
    have := hI.notcrit (Pc.pre_crit a) (Ne.symm htu)
    rw [Pc.pre_crit b] at this; cases this
  have key2 : ∀ v : Fin T, (σ.th v).pc.wr = true → σ.writing = 0 → False := by
    intro v a b
    have := hI.wph_pos (Pc.wr_wph a); omega
  have key3 : (σ.th t).pc.wr = true → (σ.th u).pc.wr = true → (σ.th t).li ≠ (σ.th u).li := by
    intro a b e
    exact htu (hI.inj t u _ ⟨(wr_own hnb a).1, rfl⟩ ⟨(wr_own hnb b).1, e.symm⟩)
  have key4 : (σ.th t).pc.wr = true → (σ.th u).pc.wr = true → ∀ b, b < cfg.nb →
      (σ.th t).lo b + (σ.th t).job.len b ≤ (σ.th u).lo b ∨ (σ.th u).lo b + (σ.th u).job.len b ≤ (σ.th t).lo b := by
    intro a a' b hb
    have h1 := wr_own hnb a
    have h2 := wr_own hnb a'
    have o1 := (hI.thr t).own h1.1
    have o2 := (hI.thr u).own h2.1
    have e1 := o1.2 b (by omega)
    have e2 := o2.2 b (by omega)
    have hne := key3 a a'
    rw [e1, e2]
    rcases Nat.lt_or_gt_of_ne hne with hlt | hlt
    · have h1 := start_mono (u0 := u0) (log := log) (b := b) (show (σ.th t).li + 1 ≤ (σ.th u).li from hlt)
      rw [start_succ o1.1] at h1; left; exact h1
    · have h1 := start_mono (u0 := u0) (log := log) (b := b) (show (σ.th u).li + 1 ≤ (σ.th t).li from hlt)
      rw [start_succ o2.1] at h1; right; exact h1
  cases i <;> cases j <;> simp only [Kind] at hi hj <;> simp only [Item.conf]
  case cell.cell b g c k v b' g' c' k' v' =>
    by_contra hc
    simp only [Bool.not_eq_false, Bool.and_eq_true, beq_iff_eq] at hc
    obtain ⟨⟨rfl, -⟩, rfl⟩ := hc
    rcases key4 hi.1 hj.1 b hi.2.1 with h | h <;> omega
  case cell.block => exact (key2 t hi.1 hj.2).elim
  case block.cell => exact (key2 u hj.1 hi.2).elim
  case block.block => exact (key1 hi.1 hj.1).elim
  case tag.tag =>
    have := key3 hi.1 hj.1
    rw [beq_eq_false_iff_ne, hi.2, hj.2]; exact this
  case rowp.rowp =>
    have := key3 hi.1 hj.1
    rw [beq_eq_false_iff_ne, hi.2, hj.2]; omega
  case ptr.ptr => exact (key1 hi.1 hj.1).elim
  case rows.rows => exact (key1 hi hj).elim
  case used.used => exact (key1 hi hj).elim

/-! ### Reads -/

theorem apply_sizes (i : Item) (s : St T) :
    (i.apply s).tags.size = s.tags.size ∧ (i.apply s).rowp.size = s.rowp.size := by
  cases i <;> simp [Item.apply]

theorem appL_sizes (L : List (Fin T × Item)) (s : St T) :
    (appL L s).tags.size = s.tags.size ∧ (appL L s).rowp.size = s.rowp.size := by
  induction L generalizing s with
  | nil => exact ⟨rfl, rfl⟩
  | cons e L ih =>
    obtain ⟨h1, h2⟩ := ih (e.2.apply s)
    obtain ⟨g1, g2⟩ := apply_sizes e.2 s
    exact ⟨h1.trans g1, h2.trans g2⟩

theorem view_appL (m : Buf T) (t : Fin T) : m.view t = appL ((m.buf t).map fun i => (t, i)) m.s := by
  unfold Buf.view appL; rw [List.foldl_map]

/-- The counters, sizes and allocation numbers. -/
def SameC (s s' : St T) : Prop := s.used = s'.used ∧ s.cap = s'.cap ∧ s.gen = s'.gen ∧ s.rows = s'.rows

theorem SameC.apply {s s' : St T} (h : SameC s s') (i : Item) : SameC (i.apply s) (i.apply s') := by
  obtain ⟨h1, h2, h3, h4⟩ := h
  cases i <;> simp only [Item.apply, SameC] <;> simp only [h1, h2, h3, h4, and_self]

/-- A write of a row. -/
def Item.row : Item → Bool
  | .cell _ _ _ _ _ | .tag _ _ | .rowp _ _ => true
  | _ => false

theorem SameC.skip {s s' : St T} (h : SameC s s') {i : Item} (hi : i.row = true) : SameC (i.apply s) s' := by
  cases i <;> first | exact h | cases hi

theorem sameC_filter (t : Fin T) (L : List (Fin T × Item)) (s s' : St T) (hs : SameC s s')
    (h : ∀ e ∈ L, e.1 ≠ t → e.2.row = true) :
    SameC (appL L s) (appL ((bufOf L t).map fun i => (t, i)) s') := by
  induction L generalizing s s' with
  | nil => exact hs
  | cons e L ih =>
    have ih' := fun s s' hs => ih s s' hs (fun e' he => h e' (List.mem_cons_of_mem _ he))
    by_cases he : e.1 = t
    · have : bufOf (e :: L) t = e.2 :: bufOf L t := by
        unfold bufOf; rw [List.filter_cons_of_pos (by simpa using he)]; rfl
      rw [this]
      exact ih' _ _ (hs.apply e.2)
    · have : bufOf (e :: L) t = bufOf L t := by
        unfold bufOf; rw [List.filter_cons_of_neg (by simpa using he)]
      rw [this]
      exact ih' _ _ (hs.skip (h e List.mem_cons_self he))

/-- What a thread in the critical section reads. -/
theorem BSim.view_crit (hI : Inv cfg u0 mem0 J rs ts σ log) (h : BSim cfg m σ L) {t : Fin T}
    (ht : (σ.th t).pc.crit = true) : SameC σ (m.view t) := by
  rw [view_appL, h.buf t, h.flat]
  refine sameC_filter t L m.s m.s ⟨rfl, rfl, rfl, rfl⟩ fun e he hne => ?_
  have hk := h.kind e he
  have hc : (m.s.th e.1).pc.crit = false := by rw [← h.th]; exact hI.notcrit ht hne
  have hp : (m.s.th e.1).pc.pre = true → False := fun hp => by
    rw [Pc.pre_crit hp] at hc; cases hc
  cases hi : e.2 <;> rw [hi] at hk <;> simp only [Kind] at hk <;> first | rfl | exact (hp hk).elim | exact (hp hk.1).elim

/-- The memory during a reallocation: no other thread has pending writes. -/
theorem BSim.view_quiet (hI : Inv cfg u0 mem0 J rs ts σ log) (h : BSim cfg m σ L) {t : Fin T}
    (ht : (σ.th t).pc.crit = true) (hw : σ.writing = 0) : (∀ e ∈ L, e.1 = t) ∧ m.view t = σ := by
  have hall : ∀ e ∈ L, e.1 = t := by
    intro e he
    by_contra hne
    have hk := h.kind e he
    have hc : (m.s.th e.1).pc.crit = false := by rw [← h.th]; exact hI.notcrit ht hne
    have hp : (m.s.th e.1).pc.pre = true → False := fun hp => by
      rw [Pc.pre_crit hp] at hc; cases hc
    have hq : (m.s.th e.1).pc.wr = true → False := fun hq => by
      rw [← h.th] at hq
      have := hI.wph_pos (Pc.wr_wph hq); omega
    cases hi : e.2 <;> rw [hi] at hk <;> simp only [Kind] at hk <;>
      first | exact hp hk | exact hp hk.1 | exact hq hk.1
  refine ⟨hall, ?_⟩
  rw [view_appL, h.buf t, h.flat]
  congr 1
  unfold bufOf
  rw [List.filter_eq_self.mpr (by intro e he; simpa using hall e he), List.map_map]
  conv_rhs => rw [← List.map_id L]
  refine List.map_congr_left fun e he => ?_
  rw [← hall e he]; rfl

/-- Pointers, sizes and allocation numbers. -/
def SameW (s s' : St T) : Prop := s.ptr = s'.ptr ∧ s.cap = s'.cap ∧ s.gen = s'.gen

theorem sameW_appL (L : List (Fin T × Item)) (s : St T)
    (h : ∀ e ∈ L, (∀ b c g, e.2 ≠ .ptr b c g) ∧ ∀ b c g f, e.2 ≠ .block b c g f) : SameW (appL L s) s := by
  induction L generalizing s with
  | nil => exact ⟨rfl, rfl, rfl⟩
  | cons e L ih =>
    obtain ⟨h1, h2, h3⟩ := ih (e.2.apply s) (fun e' he => h e' (List.mem_cons_of_mem _ he))
    have hh : SameW (e.2.apply s) s := by
      have := h e List.mem_cons_self
      cases hi : e.2 <;> first | exact ⟨rfl, rfl, rfl⟩ | exact (this.1 _ _ _ hi).elim | exact (this.2 _ _ _ _ hi).elim
    exact ⟨h1.trans hh.1, h2.trans hh.2.1, h3.trans hh.2.2⟩

theorem BSim.noblock (h : BSim cfg m σ L) (hw : 0 < σ.writing) :
    ∀ e ∈ L, (∀ b c g, e.2 ≠ .ptr b c g) ∧ ∀ b c g f, e.2 ≠ .block b c g f := by
  intro e he
  have hk := h.kind e he
  rw [h.writing] at hw
  refine ⟨fun b c g hi => ?_, fun b c g f hi => ?_⟩ <;> rw [hi] at hk <;> simp only [Kind] at hk <;> omega

/-- What a thread that writes its row reads: pointers, sizes and allocation numbers are those in the memory. -/
theorem BSim.view_wph (h : BSim cfg m σ L) (hw : 0 < σ.writing) (t : Fin T) :
    SameW σ m.s ∧ SameW (m.view t) m.s := by
  have h0 := h.noblock hw
  refine ⟨?_, ?_⟩
  · have := sameW_appL L m.s h0
    rw [← h.flat] at this; exact this
  · rw [view_appL, h.buf t]
    refine sameW_appL _ _ fun e he => ?_
    obtain ⟨i, hi, rfl⟩ := List.mem_map.mp he
    obtain ⟨e', he', rfl⟩ := List.mem_map.mp hi
    exact h0 e' (List.mem_of_mem_filter he')

theorem BSim.view_sizes (h : BSim cfg m σ L) (t : Fin T) :
    (m.view t).tags.size = σ.tags.size ∧ (m.view t).rowp.size = σ.rowp.size := by
  rw [view_appL, h.flat]
  obtain ⟨h1, h2⟩ := appL_sizes L m.s
  obtain ⟨g1, g2⟩ := appL_sizes ((m.buf t).map fun i => (t, i)) m.s
  exact ⟨g1.trans h1.symm, g2.trans h2.symm⟩

/-! ### Steps -/

/-- A program step with plain writes. -/
theorem BSim.push (h : BSim cfg m σ L) {t : Fin T} {x' : Thread} {l : List Item} {σ' : St T}
    (hσ : σ' = appL (l.map fun i => (t, i)) (σ.set t x'))
    (hold : ∀ e ∈ L, e.1 = t → Kind cfg m.s.writing σ'.gen x' e.2)
    (hoth : ∀ e ∈ L, e.1 ≠ t → Kind cfg m.s.writing σ'.gen (m.s.th e.1) e.2)
    (hnew : ∀ i ∈ l, Kind cfg m.s.writing σ'.gen x' i) :
    BSim cfg (m.push t x' l) σ' (L ++ l.map fun i => (t, i)) := by
  refine ⟨fun u => ?_, ?_, fun e he => ?_⟩
  · rw [bufOf_append, bufOf_own, ← h.buf u]
    show Function.update m.buf t _ u = _
    by_cases hu : u = t
    · subst hu; rw [Function.update_self, if_pos rfl]
    · rw [Function.update_of_ne hu, if_neg hu, List.append_nil]
  · rw [appL_append, hσ]
    congr 1
    show _ = appL L { m.s with lock := m.s.lock, writing := m.s.writing, th := Function.update m.s.th t x' }
    rw [appL_frame, ← h.flat, ← h.th, ← h.lock, ← h.writing]; rfl
  · show Kind cfg m.s.writing σ'.gen (Function.update m.s.th t x' e.1) e.2
    rcases List.mem_append.mp he with he | he
    · by_cases hu : e.1 = t
      · rw [hu, Function.update_self]; exact hold e he hu
      · rw [Function.update_of_ne hu]; exact hoth e he hu
    · obtain ⟨i, hi, rfl⟩ := List.mem_map.mp he
      rw [Function.update_self]; exact hnew i hi

/-- An atomic step of a thread with an empty buffer. -/
theorem BSim.atomic (h : BSim cfg m σ L) {t : Fin T} {x' : Thread} {l : Option (Fin T)} {w : Nat}
    (hb : m.buf t = [])
    (hoth : ∀ e ∈ L, e.1 ≠ t → Kind cfg m.s.writing σ.gen (m.s.th e.1) e.2 → Kind cfg w σ.gen (m.s.th e.1) e.2) :
    BSim cfg { m with s := { m.s.set t x' with lock := l, writing := w } }
      { σ.set t x' with lock := l, writing := w } L := by
  have hne : ∀ e ∈ L, e.1 ≠ t := by
    intro e he hu
    have : e.2 ∈ m.buf t := by
      rw [h.buf t]
      exact List.mem_map.mpr ⟨e, List.mem_filter.mpr ⟨he, by simpa using hu⟩, rfl⟩
    rw [hb] at this; cases this
  refine ⟨h.buf, ?_, fun e he => ?_⟩
  · show _ = appL L { m.s with lock := l, writing := w, th := Function.update m.s.th t x' }
    rw [appL_frame, ← h.flat, ← h.th]; rfl
  · show Kind cfg w σ.gen (Function.update m.s.th t x' e.1) e.2
    rw [Function.update_of_ne (hne e he)]
    exact hoth e he (hne e he) (h.kind e he)

/-- A write reaches the memory. -/
theorem BSim.drain (hnb : 0 < cfg.nb) (hI : Inv cfg u0 mem0 J rs ts σ log) (h : BSim cfg m σ L) {t : Fin T} {k : Nat}
    {r : C (Buf T)} (hr : bput t k m = some r) :
    ∃ m' L', r = .ok m' ∧ BSim cfg m' σ L' ∧ L'.length < L.length := by
  unfold bput at hr
  cases hk : (m.buf t)[k]? with
  | none => rw [hk] at hr; cases hr
  | some i =>
    rw [hk] at hr
    simp only at hr
    by_cases hc : ((m.buf t).take k).any (fun j => i.conf j) = true
    · rw [if_pos hc] at hr; cases hr
    rw [if_neg hc] at hr
    -- the write in the global list
    have key : ∃ L1 L2, L = L1 ++ (t, i) :: L2 ∧ bufOf L1 t = (m.buf t).take k ∧ bufOf L2 t = (m.buf t).drop (k + 1) := by
      have hb := h.buf t
      clear hc hr
      generalize m.buf t = l at hk hb
      clear h hI
      induction L generalizing l k with
      | nil => subst hb; simp [bufOf] at hk
      | cons e L ih =>
        by_cases he : e.1 = t
        · have hcons : bufOf (e :: L) t = e.2 :: bufOf L t := by
            unfold bufOf; rw [List.filter_cons_of_pos (by simpa using he)]; rfl
          rw [hcons] at hb
          subst hb
          cases k with
          | zero =>
            simp only [List.getElem?_cons_zero, Option.some.injEq] at hk
            refine ⟨[], L, ?_, rfl, ?_⟩
            · rw [← he, ← hk]; rfl
            · simp
          | succ k =>
            simp only [List.getElem?_cons_succ] at hk
            obtain ⟨L1, L2, h1, h2, h3⟩ := ih _ hk rfl
            refine ⟨e :: L1, L2, by rw [h1]; rfl, ?_, ?_⟩
            · have : bufOf (e :: L1) t = e.2 :: bufOf L1 t := by
                unfold bufOf; rw [List.filter_cons_of_pos (by simpa using he)]; rfl
              rw [this, h2]; rfl
            · rw [h3]; rfl
        · have hskip : ∀ M : List (Fin T × Item), bufOf (e :: M) t = bufOf M t := fun M => by
            unfold bufOf; rw [List.filter_cons_of_neg (by simpa using he)]
          rw [hskip] at hb
          obtain ⟨L1, L2, h1, h2, h3⟩ := ih _ hk hb
          exact ⟨e :: L1, L2, by rw [h1]; rfl, by rw [hskip]; exact h2, h3⟩
    obtain ⟨L1, L2, hL, hL1, hL2⟩ := key
    have hmem : (t, i) ∈ L := by rw [hL]; simp
    have hkt := h.kind _ hmem
    simp only at hkt
    -- the write commutes with those before it
    have hcomm : ∀ e ∈ L1, i.conf e.2 = false := by
      intro e he
      by_cases hu : e.1 = t
      · have : e.2 ∈ (m.buf t).take k := by
          rw [← hL1]
          exact List.mem_map.mpr ⟨e, List.mem_filter.mpr ⟨he, by simpa using hu⟩, rfl⟩
        by_contra hcc
        exact hc (List.any_eq_true.mpr ⟨e.2, this, by simpa using hcc⟩)
      · refine kind_noconf hnb hI (Ne.symm hu) (g := σ.gen) (g' := σ.gen) ?_ ?_
        · rw [h.writing, h.th]; exact hkt
        · rw [h.writing, h.th]; exact h.kind e (by rw [hL]; simp [he])
    have hput : i.put m.s = .ok (i.apply m.s) := by
      cases hi : i with
      | cell b g c k v =>
        rw [hi] at hkt
        simp only [Kind] at hkt
        obtain ⟨k1, k2, k3, k4, k5⟩ := hkt
        have hwph : (σ.th t).pc.wph = true := by rw [h.th]; exact Pc.wr_wph k1
        obtain ⟨⟨-, e2, e3⟩, -⟩ := h.view_wph (hI.wph_pos hwph) t
        have hres := hI.reserved hwph hnb k2
        have hroom := hI.room b k2
        have k1' : (σ.th t).pc.wr = true := by rw [h.th]; exact k1
        have hown := (hI.thr t).own (wr_own hnb k1').1
        rw [start_succ hown.1, ← hown.2 b (by rw [(wr_own hnb k1').2]; exact k2), h.th] at hres
        show (if _ then _ else _) = _
        rw [if_pos]
        rw [← e2, ← e3]
        exact ⟨k5, by omega⟩
      | _ => rfl
    rw [hput] at hr
    cases hr
    refine ⟨_, L1 ++ L2, rfl, ⟨fun u => ?_, ?_, fun e he => ?_⟩, by rw [hL]; simp⟩
    · show Function.update m.buf t _ u = _
      by_cases hu : u = t
      · subst hu
        rw [Function.update_self, bufOf_append, hL1, hL2, List.eraseIdx_eq_take_drop_succ]
      · rw [Function.update_of_ne hu, h.buf u, hL, bufOf_append, bufOf_append]
        congr 1
        unfold bufOf; rw [List.filter_cons_of_neg (by simpa using Ne.symm hu)]
    · rw [h.flat, hL, appL_append, appL_append]
      show appL L2 (i.apply (appL L1 m.s)) = _
      rw [appL_move L1 i hcomm]
    · show Kind cfg (i.apply m.s).writing σ.gen ((i.apply m.s).th e.1) e.2
      rw [(apply_th i m.s).2.2, (apply_th i m.s).1]
      refine h.kind e ?_
      rw [hL]
      rcases List.mem_append.mp he with he | he <;> simp [he]


theorem Kind.pre {w : Nat} {g g' : Nat → Nat} {x x' : Thread} {i : Item} (h : Kind cfg w g x i) (hx : x.pc.pre = true)
    (hx' : x'.pc.pre = true) : Kind cfg w g' x' i := by
  have : x.pc.wr = true → False := fun hw => by
    cases hp : x.pc <;> simp [hp, Pc.pre, Pc.wr] at hx hw
  cases i <;> simp only [Kind] at h ⊢
  case cell => exact (this h.1).elim
  case tag => exact (this h.1).elim
  case rowp => exact (this h.1).elim
  case ptr => exact ⟨hx', h.2⟩
  case block => exact ⟨hx', h.2⟩
  case rows => exact hx'
  case used => exact hx'

theorem Kind.wr {w : Nat} {g : Nat → Nat} {x x' : Thread} {i : Item} (h : Kind cfg w g x i) (hx : x.pc.wr = true)
    (hx' : x'.pc.wr = true) (h1 : x'.lo = x.lo) (h2 : x'.job = x.job) (h3 : x'.li = x.li) : Kind cfg w g x' i := by
  have : x.pc.pre = true → False := fun hw => by
    cases hp : x.pc <;> simp [hp, Pc.pre, Pc.wr] at hx hw
  cases i <;> simp only [Kind] at h ⊢
  case cell => rw [h1, h2]; exact ⟨hx', h.2⟩
  case tag => rw [h3]; exact ⟨hx', h.2⟩
  case rowp => rw [h3]; exact ⟨hx', h.2⟩
  case ptr => exact (this h.1).elim
  case block => exact (this h.1).elim
  case rows => exact (this h).elim
  case used => exact (this h).elim

theorem Kind.neither {w : Nat} {g : Nat → Nat} {x : Thread} {i : Item} (h : Kind cfg w g x i)
    (h1 : x.pc.pre = false) (h2 : x.pc.wr = false) : False := by
  cases i <;> simp only [Kind, h1, h2] at h <;> simp at h

theorem BSim.empty (h : BSim cfg m σ L) {t : Fin T} (h1 : (m.s.th t).pc.pre = false) (h2 : (m.s.th t).pc.wr = false) :
    (∀ e ∈ L, e.1 ≠ t) ∧ m.buf t = [] := by
  have : ∀ e ∈ L, e.1 ≠ t := by
    intro e he hu
    have hk := h.kind e he
    rw [hu] at hk
    exact hk.neither h1 h2
  refine ⟨this, ?_⟩
  rw [h.buf t]
  unfold bufOf
  rw [List.filter_eq_nil_iff.mpr]
  · rfl
  · intro e he; simpa using this e he

/-- Steps in the critical section. -/
theorem BSim.push_pre (h : BSim cfg m σ L) {t : Fin T} {x x' : Thread} {l : List Item} (hx : m.s.th t = x)
    (hp : x.pc.pre = true) (hp' : x'.pc.pre = true) (hl : ∀ i ∈ l, ∃ v, i = .rows v ∨ ∃ b, i = .used b v) :
    BSim cfg (m.push t x' l) (appL (l.map fun i => (t, i)) (σ.set t x')) (L ++ l.map fun i => (t, i)) := by
  have hg : (appL (l.map fun i => (t, i)) (σ.set t x')).gen = σ.gen := by
    have : SameW (appL (l.map fun i => (t, i)) (σ.set t x')) (σ.set t x') := by
      refine sameW_appL _ _ fun e he => ?_
      obtain ⟨i, hi, rfl⟩ := List.mem_map.mp he
      obtain ⟨v, hv | ⟨b, hv⟩⟩ := hl i hi <;> rw [hv] <;> simp
    exact this.2.2
  refine h.push rfl (fun e he hu => ?_) (fun e he _ => ?_) (fun i hi => ?_)
  · have hk := h.kind e he
    rw [hu, hx] at hk
    exact hk.pre hp hp'
  · rw [hg]; exact h.kind e he
  · obtain ⟨v, hv | ⟨b, hv⟩⟩ := hl i hi <;> rw [hv] <;> exact hp'

/-- Steps that write a row. -/
theorem BSim.push_wr (h : BSim cfg m σ L) {t : Fin T} {x x' : Thread} {l : List Item} (hx : m.s.th t = x)
    (hp : x.pc.wr = true ∨ x.pc = .tag) (hp' : x'.pc.wr = true) (h1 : x'.lo = x.lo) (h2 : x'.job = x.job)
    (h3 : x'.li = x.li)
    (hl : ∀ i ∈ l, i.row = true ∧ Kind cfg m.s.writing σ.gen x' i) :
    BSim cfg (m.push t x' l) (appL (l.map fun i => (t, i)) (σ.set t x')) (L ++ l.map fun i => (t, i)) := by
  have hg : (appL (l.map fun i => (t, i)) (σ.set t x')).gen = σ.gen := by
    have : SameW (appL (l.map fun i => (t, i)) (σ.set t x')) (σ.set t x') := by
      refine sameW_appL _ _ fun e he => ?_
      obtain ⟨i, hi, rfl⟩ := List.mem_map.mp he
      have := (hl i hi).1
      cases i <;> simp [Item.row] at this ⊢
    exact this.2.2
  refine h.push rfl (fun e he hu => ?_) (fun e he _ => ?_) (fun i hi => ?_)
  · have hk := h.kind e he
    rw [hu, hx] at hk
    rw [hg]
    rcases hp with hp | hp
    · exact hk.wr hp hp' h1 h2 h3
    · exact (hk.neither (by rw [hp]; rfl) (by rw [hp]; rfl)).elim
  · rw [hg]; exact h.kind e he
  · rw [hg]; exact (hl i hi).2

theorem nextBuf_pre (b : Nat) : (nextBuf cfg b).pre = true := by
  unfold nextBuf; split <;> rfl

/-- Every program step of the machine with buffers is a step of the machine without. -/
theorem BSim.step (hnb : 0 < cfg.nb) (hrs : Multiset.card J < rs) (hts : Multiset.card J ≤ ts)
    (hI : Inv cfg u0 mem0 J rs ts σ log) (h : BSim cfg m σ L) {t : Fin T}
    {r : C (Buf T)} (hr : bstep true cfg junk t m = some r) :
    ∃ m' σ' L', r = .ok m' ∧ Commit.step cfg junk t σ = some (.ok σ') ∧ BSim cfg m' σ' L' := by
  have hsafe : ∀ r', Commit.step cfg junk t σ = some r' → ∃ σ', r' = .ok σ' := by
    intro r' hr'
    have := inv_step hnb hrs hts hI hr'
    rw [Ok_iff] at this
    obtain ⟨s', e, -⟩ := this
    exact ⟨s', e⟩
  obtain ⟨x, hx⟩ : ∃ x, m.s.th t = x := ⟨_, rfl⟩
  have hxσ : σ.th t = x := by rw [h.th]; exact hx
  obtain ⟨pc, job, todo, li, lo⟩ := x
  unfold bstep at hr
  simp only [hx] at hr
  cases pc with
  | idle =>
    simp only at hr
    cases todo with
    | nil => cases hr
    | cons j js =>
      simp only at hr
      split at hr
      · rename_i hl hb
        cases hr
        refine ⟨_, _, L, rfl, ?_, h.atomic (x' := ⟨.test 0, j, js, li, lo⟩) (l := some t) (w := m.s.writing) hb
          (fun e he _ hk => hk)⟩
        unfold Commit.step
        simp only [hxσ, h.lock, hl]
        rw [← h.writing]; rfl
      · cases hr
  | test b =>
    have hc : (σ.th t).pc.crit = true := by rw [hxσ]; rfl
    obtain ⟨c1, c2, c3, c4⟩ := h.view_crit hI hc
    simp only [← c1, ← c2] at hr
    by_cases hg : σ.used b + cfg.need b (job.len b) > σ.cap b
    · rw [if_pos hg] at hr
      cases hr
      refine ⟨_, _, _, rfl, ?_, h.push_pre hx rfl rfl (by simp)⟩
      unfold Commit.step
      simp only [hxσ]
      rw [if_pos hg]; rfl
    · rw [if_neg hg] at hr
      cases hr
      refine ⟨_, _, _, rfl, ?_, h.push_pre hx rfl rfl (by simp)⟩
      unfold Commit.step
      simp only [hxσ]
      rw [if_neg hg]; rfl
  | wait b =>
    simp only [← h.writing] at hr
    by_cases hg : σ.writing > 0
    · rw [if_pos hg] at hr
      cases hr
      refine ⟨_, σ, L, rfl, ?_, h⟩
      unfold Commit.step
      simp only [hxσ]
      rw [if_pos hg]
    · rw [if_neg hg] at hr
      cases hr
      refine ⟨_, _, _, rfl, ?_, h.push_pre hx rfl rfl (by simp)⟩
      unfold Commit.step
      simp only [hxσ]
      rw [if_neg hg]; rfl
  | realloc b =>
    have hc : (σ.th t).pc.crit = true := by rw [hxσ]; rfl
    have hq : σ.writing = 0 := (hI.thr t).quiet (by rw [hxσ]; rfl)
    obtain ⟨hall, hv⟩ := h.view_quiet hI hc hq
    simp only [hv] at hr
    cases hr
    refine ⟨_, _, _, rfl, ?_, h.push rfl (fun e he hu => ?_) (fun e he hu => absurd (hall e he) hu) (fun i hi => ?_)⟩
    · unfold Commit.step
      simp only [hxσ]
      rfl
    · have hk := h.kind e he
      rw [hu, hx] at hk
      exact hk.pre rfl rfl
    · rw [List.mem_singleton] at hi
      rw [hi]
      exact ⟨rfl, by rw [← h.writing]; exact hq⟩
  | refresh b c =>
    have hc : (σ.th t).pc.crit = true := by rw [hxσ]; rfl
    have hq : σ.writing = 0 := (hI.thr t).quiet (by rw [hxσ]; rfl)
    obtain ⟨hall, hv⟩ := h.view_quiet hI hc hq
    simp only [hv] at hr
    by_cases hg : c < cfg.wid b
    · rw [if_pos hg] at hr
      cases hr
      refine ⟨_, _, _, rfl, ?_, h.push rfl (fun e he hu => ?_) (fun e he hu => absurd (hall e he) hu) (fun i hi => ?_)⟩
      · unfold Commit.step
        simp only [hxσ]
        rw [if_pos hg]; rfl
      · have hk := h.kind e he
        rw [hu, hx] at hk
        exact hk.pre rfl rfl
      · rw [List.mem_singleton] at hi
        rw [hi]
        exact ⟨rfl, by rw [← h.writing]; exact hq⟩
    · rw [if_neg hg] at hr
      cases hr
      refine ⟨_, _, _, rfl, ?_, h.push_pre hx rfl rfl (by simp)⟩
      unfold Commit.step
      simp only [hxσ]
      rw [if_neg hg]; rfl
  | reserve b =>
    have hc : (σ.th t).pc.crit = true := by rw [hxσ]; rfl
    obtain ⟨c1, c2, c3, c4⟩ := h.view_crit hI hc
    simp only [← c1, ← c4] at hr
    by_cases hg : b = 0
    · rw [if_pos hg] at hr
      cases hr
      refine ⟨_, _, _, rfl, ?_, h.push_pre hx rfl (nextBuf_pre b) (by
        intro i hi
        simp only [List.mem_cons, List.not_mem_nil, or_false] at hi
        rcases hi with rfl | rfl
        · exact ⟨_, Or.inl rfl⟩
        · exact ⟨_, Or.inr ⟨_, rfl⟩⟩)⟩
      unfold Commit.step
      simp only [hxσ]
      rw [if_pos hg]; rfl
    · rw [if_neg hg] at hr
      cases hr
      refine ⟨_, _, _, rfl, ?_, h.push_pre hx rfl (nextBuf_pre b) (by
        intro i hi
        rw [List.mem_singleton] at hi
        exact ⟨_, Or.inr ⟨_, hi⟩⟩)⟩
      unfold Commit.step
      simp only [hxσ]
      rw [if_neg hg]; rfl
  | enter =>
    have hc : (σ.th t).pc.crit = true := by rw [hxσ]; rfl
    by_cases hb : m.buf t = []
    · simp only [hb, ne_eq, not_true_eq_false, and_false, ↓reduceIte, Option.some.injEq] at hr
      subst hr
      refine ⟨_, _, L, rfl, ?_, h.atomic (x' := ⟨.unlock, job, todo, li, lo⟩) (l := m.s.lock) (w := m.s.writing + 1) hb
          (fun e he hu hk => ?_)⟩
      · unfold Commit.step
        simp only [hxσ]
        rw [← h.writing, ← h.lock]; rfl
      · have hc : (m.s.th e.1).pc.crit = false := by rw [← h.th]; exact hI.notcrit hc hu
        have hp : (m.s.th e.1).pc.pre = true → False := fun hp => by
          rw [Pc.pre_crit hp] at hc; cases hc
        cases hi : e.2 <;> rw [hi] at hk <;> simp only [Kind] at hk ⊢ <;> first | exact hk | exact (hp hk.1).elim
    · simp [hb] at hr
  | unlock =>
    obtain ⟨-, hb⟩ := h.empty (t := t) (by rw [hx]; rfl) (by rw [hx]; rfl)
    simp only [hb, ne_eq, not_true_eq_false, ↓reduceIte, Option.some.injEq] at hr
    subst hr
    refine ⟨_, _, L, rfl, ?_, h.atomic (x' := ⟨.tag, job, todo, li, lo⟩) (l := none) (w := m.s.writing) hb
        (fun e he hu hk => hk)⟩
    unfold Commit.step
    simp only [hxσ]
    rw [← h.writing]; rfl
  | tag =>
    have hs := (h.view_sizes t).1
    simp only [hs] at hr
    obtain ⟨σ', hσ'⟩ := hsafe (do
      let a ← Spasm.wr σ.tags li job.tag
      .ok { σ.set t ⟨.write job.ws, job, todo, li, lo⟩ with tags := a }) (by
        unfold Commit.step; simp only [hxσ])
    have hlt : li < σ.tags.size := by
      by_contra hn
      unfold Spasm.wr at hσ'
      rw [if_neg hn] at hσ'; cases hσ'
    rw [if_pos hlt] at hr
    cases hr
    refine ⟨_, _, _, rfl, ?_, h.push_wr hx (Or.inr rfl) rfl rfl rfl rfl (by
      intro i hi
      rw [List.mem_singleton] at hi
      rw [hi]
      exact ⟨rfl, rfl, rfl⟩)⟩
    unfold Commit.step
    simp only [hxσ, Spasm.wr]
    rw [if_pos hlt]; rfl
  | write ws =>
    cases ws with
    | nil =>
      cases hr
      refine ⟨_, _, _, rfl, ?_, h.push_wr hx (Or.inl rfl) rfl rfl rfl rfl (by simp)⟩
      unfold Commit.step
      simp only [hxσ]; rfl
    | cons w ws =>
      have hwph : (σ.th t).pc.wph = true := by rw [hxσ]; rfl
      obtain ⟨⟨p1, p2, p3⟩, q1, q2, q3⟩ := h.view_wph (hI.wph_pos hwph) t
      obtain ⟨σ', hσ'⟩ := hsafe (if σ.ptr w.b w.c = σ.gen w.b ∧ lo w.b + w.off < σ.cap w.b
        then .ok { σ.set t ⟨.write ws, job, todo, li, lo⟩ with
          mem := upd σ.mem w.b (upd (σ.mem w.b) w.c (upd (σ.mem w.b w.c) (lo w.b + w.off) w.v)) }
        else .error .ub) (by
          unfold Commit.step; simp only [hxσ]
          split <;> rfl)
      have hcond : σ.ptr w.b w.c = σ.gen w.b ∧ lo w.b + w.off < σ.cap w.b := by
        by_contra hn
        rw [if_neg hn] at hσ'; cases hσ'
      have hbnd := (hI.thr t).bnd
      rw [hxσ] at hbnd
      have hwm : w ∈ job.ws := (show w :: ws <:+ job.ws from hbnd).subset List.mem_cons_self
      have hjok := (hI.thr t).jok (by rw [hxσ]; simp)
      rw [hxσ] at hjok
      obtain ⟨r1, r2, r3⟩ := hjok.rng w hwm
      cases hr
      refine ⟨_, _, _, rfl, ?_, h.push_wr hx (Or.inl rfl) rfl rfl rfl rfl (by
        intro i hi
        rw [List.mem_singleton] at hi
        rw [hi]
        refine ⟨rfl, rfl, r1, Nat.le_add_right _ _, ?_, ?_⟩
        · exact Nat.add_lt_add_left r3 _
        · rw [q1, ← p1]; exact hcond.1)⟩
      unfold Commit.step
      simp only [hxσ]
      rw [if_pos hcond]; rfl
  | rowptr =>
    have hs := (h.view_sizes t).2
    simp only [hs] at hr
    obtain ⟨σ', hσ'⟩ := hsafe (do
      let a ← Spasm.wr σ.rowp (li + 1) (lo 0 + job.emitted)
      .ok { σ.set t ⟨.leave, job, todo, li, lo⟩ with rowp := a }) (by
        unfold Commit.step; simp only [hxσ])
    have hlt : li + 1 < σ.rowp.size := by
      by_contra hn
      unfold Spasm.wr at hσ'
      rw [if_neg hn] at hσ'; cases hσ'
    rw [if_pos hlt] at hr
    cases hr
    refine ⟨_, _, _, rfl, ?_, h.push_wr hx (Or.inl rfl) rfl rfl rfl rfl (by
      intro i hi
      rw [List.mem_singleton] at hi
      rw [hi]
      exact ⟨rfl, rfl, rfl⟩)⟩
    unfold Commit.step
    simp only [hxσ, Spasm.wr]
    rw [if_pos hlt]; rfl
  | leave =>
    by_cases hb : m.buf t = []
    · simp only [hb, ne_eq, not_true_eq_false, and_false, ↓reduceIte, Option.some.injEq] at hr
      subst hr
      have hpos : 0 < σ.writing := hI.wph_pos (t := t) (by rw [hxσ]; rfl)
      have hno := h.noblock hpos
      refine ⟨_, _, L, rfl, ?_, h.atomic (x' := ⟨.idle, job, todo, li, lo⟩) (l := m.s.lock) (w := m.s.writing - 1) hb
          (fun e he hu hk => ?_)⟩
      · unfold Commit.step
        simp only [hxσ]
        rw [← h.writing, ← h.lock]; rfl
      · have := hno e he
        cases hi : e.2 <;> rw [hi] at hk <;> simp only [Kind] at hk ⊢ <;>
          first | exact hk | exact (this.1 _ _ _ hi).elim | exact (this.2 _ _ _ _ hi).elim
    · simp [hb] at hr

/-! ### Runs -/

theorem BReach.trans {strong : Bool} {m0 m1 m2 : Buf T} (h1 : BReach strong cfg junk m0 m1)
    (h2 : BReach strong cfg junk m1 m2) : BReach strong cfg junk m0 m2 := by
  induction h2 with
  | init => exact h1
  | step _ hst ih => exact ih.step hst
  | put _ hst ih => exact ih.put hst

/-- All pending writes can reach the memory. -/
theorem BSim.drain_all (hnb : 0 < cfg.nb) (hI : Inv cfg u0 mem0 J rs ts σ log) (h : BSim cfg m σ L) {strong : Bool} :
    BReach strong cfg junk m (Buf.init σ) := by
  generalize hn : L.length = n
  induction n using Nat.strong_induction_on generalizing m L with
  | _ n ih =>
    cases L with
    | nil =>
      have h1 : m = Buf.init σ := by
        have hb : m.buf = fun _ => [] := funext fun t => by rw [h.buf t]; rfl
        have hs : σ = m.s := h.flat
        obtain ⟨s, b⟩ := m
        simp only at hb hs
        rw [hb, hs]; rfl
      rw [h1]; exact .init
    | cons e L =>
      have hb : m.buf e.1 = e.2 :: bufOf L e.1 := by
        rw [h.buf e.1]; unfold bufOf; rw [List.filter_cons_of_pos (by simp)]; rfl
      cases hp : bput e.1 0 m with
      | none =>
        unfold bput at hp
        rw [hb] at hp
        simp at hp
      | some r =>
        obtain ⟨m', L', rfl, h2, h3⟩ := h.drain hnb hI hp
        exact (BReach.put .init hp).trans (ih L'.length (by omega) h2 rfl)

/-- A step of the machine without buffers is possible in the machine with buffers when these are empty. -/
theorem bstep_enabled {t : Fin T} {r : C (St T)} (hr : step cfg junk t σ = some r) :
    ∃ r', bstep true cfg junk t (Buf.init σ) = some r' := by
  obtain ⟨x, hx⟩ : ∃ x, σ.th t = x := ⟨_, rfl⟩
  obtain ⟨pc, job, todo, li, lo⟩ := x
  have hx' : (Buf.init σ).s.th t = ⟨pc, job, todo, li, lo⟩ := hx
  unfold step at hr
  simp only [hx] at hr
  unfold bstep
  simp only [hx']
  cases pc with
  | idle =>
    cases todo with
    | nil => cases hr
    | cons j js =>
      simp only at hr ⊢
      cases hl : σ.lock with
      | some l => rw [hl] at hr; cases hr
      | none =>
        have : (Buf.init σ).s.lock = none := hl
        rw [this]
        exact ⟨_, rfl⟩
  | write ws => cases ws <;> exact ⟨_, rfl⟩
  | enter => simp [Buf.init]
  | unlock => simp [Buf.init]
  | leave => simp [Buf.init]
  | test b => simp only; split <;> exact ⟨_, rfl⟩
  | wait b => simp only; split <;> exact ⟨_, rfl⟩
  | realloc b => exact ⟨_, rfl⟩
  | refresh b c => simp only; split <;> exact ⟨_, rfl⟩
  | reserve b => simp only; split <;> exact ⟨_, rfl⟩
  | tag => simp only; split <;> exact ⟨_, rfl⟩
  | rowptr => simp only; split <;> exact ⟨_, rfl⟩

theorem BSim.nil (s : St T) : BSim cfg (Buf.init s) s [] := ⟨fun _ => rfl, rfl, by simp⟩

/-- Every run of the machine without buffers is a run of the machine with buffers. -/
theorem breach_of_reach (hnb : 0 < cfg.nb) (hrs : Multiset.card J < rs) (hts : Multiset.card J ≤ ts)
    (hI : ∃ log, Inv cfg u0 mem0 J rs ts σ log) {σ' : St T} (hr : Reach cfg junk σ σ') :
    BReach true cfg junk (Buf.init σ) (Buf.init σ') ∧ ∃ log, Inv cfg u0 mem0 J rs ts σ' log := by
  induction hr with
  | init => exact ⟨.init, hI⟩
  | step _ hst ih =>
    obtain ⟨ih1, log, ih2⟩ := ih
    obtain ⟨r', hr'⟩ := bstep_enabled hst
    obtain ⟨m', σ2, L', rfl, h1, h2⟩ := (BSim.nil _).step hnb hrs hts ih2 hr'
    rw [hst] at h1
    cases h1
    have hI' := inv_step hnb hrs hts ih2 hst
    rw [Ok_ok] at hI'
    obtain ⟨log', hI'⟩ := hI'
    exact ⟨(ih1.step hr').trans (h2.drain_all hnb hI'), log', hI'⟩

/-- The states of the machine with buffers. -/
theorem breach_sim (hnb : 0 < cfg.nb) {cap used : Nat → Nat} {mem : Nat → Nat → Nat → Int}
    {rowp tags : Array Nat} {jj : Job} {jobs : Fin T → List Job}
    (hcap : ∀ b, b < cfg.nb → used b ≤ cap b) (hjobs : ∀ t, ∀ j ∈ jobs t, JobOk cfg j)
    (hrs : Multiset.card (∑ t, (jobs t : Multiset Job)) < rowp.size)
    (hts : Multiset.card (∑ t, (jobs t : Multiset Job)) ≤ tags.size)
    (hr : BReach true cfg junk (Buf.init (St.init cap used mem rowp tags jj jobs)) m) :
    ∃ σ L, BSim cfg m σ L ∧ Reach cfg junk (St.init cap used mem rowp tags jj jobs) σ := by
  induction hr with
  | init => exact ⟨_, [], BSim.nil _, .init⟩
  | step _ hst ih =>
    obtain ⟨σ, L, h1, h2⟩ := ih
    obtain ⟨⟨log, hI⟩, -⟩ := reach_inv hnb hcap hjobs hrs hts h2
    obtain ⟨m', σ2, L', e, h3, h4⟩ := h1.step hnb hrs hts hI hst
    cases e
    exact ⟨σ2, L', h4, h2.step h3⟩
  | put _ hst ih =>
    obtain ⟨σ, L, h1, h2⟩ := ih
    obtain ⟨⟨log, hI⟩, -⟩ := reach_inv hnb hcap hjobs hrs hts h2
    obtain ⟨m', L', e, h3, -⟩ := h1.drain hnb hI hst
    cases e
    exact ⟨σ, L', h3, h2⟩

end

end Spasm.Commit
