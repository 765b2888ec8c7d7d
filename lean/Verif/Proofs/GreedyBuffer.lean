import Verif.Model.GreedyBuffer
import Verif.Proofs.GreedyStep

/-
The parallel search for pivots with store buffers: relation with the machine without buffers.
-/

namespace Spasm.Greedy

variable {T : Nat} {A : Csr} {q0 : Array Int}

theorem rd_congr {α : Type} {a b : Array α} {i : Nat} (h : b[i]? = a[i]?) : rd b i = rd a i := by
  unfold rd; rw [h]

theorem upd_getElem?_ne {α : Type} (a : Array α) {i k : Nat} (v : α) (h : k ≠ i) : (a.upd i v)[k]? = a[k]? := by
  unfold Array.upd
  rw [Array.getElem?_setIfInBounds_ne (Ne.symm h)]

theorem register_fresh {i j : Nat} {pinv qinv : Array Int} (hi : pinv[i]? = some (-1)) (hj : qinv[j]? = some (-1)) :
    register_writes i j pinv qinv = .ok (1, [.pinv i (j : Int), .qinv j (i : Int)]) ∧
    register_pivot i j pinv qinv = .ok (1, pinv.upd i (j : Int), qinv.upd j (i : Int)) := by
  have h1 : rd pinv i = .ok (-1) := by unfold rd; rw [hi]
  have h2 : rd qinv j = .ok (-1) := by unfold rd; rw [hj]
  have h3 : i < pinv.size := by
    by_contra h
    rw [Array.getElem?_eq_none (by omega)] at hi; cases hi
  have h4 : j < qinv.size := by
    by_contra h
    rw [Array.getElem?_eq_none (by omega)] at hj; cases hj
  constructor
  · unfold register_writes
    rw [h1, h2]
    rfl
  · unfold register_pivot
    rw [h1, h2]
    show (do
      let pinv ← wr pinv i (j : Int)
      let qinv ← wr qinv j (i : Int)
      (.ok (1, pinv, qinv) : C (Nat × Array Int × Array Int))) = _
    unfold wr
    rw [if_pos h3, if_pos h4]
    rfl

theorem Reach.trans {s0 s1 s2 : St T} (h : Reach A s0 s1) (h' : Reach A s1 s2) : Reach A s0 s2 := by
  induction h' with
  | init => exact h
  | step _ hst ih => exact .step ih hst

theorem BReach.trans {strong : Bool} {m0 m1 m2 : Buf T} (h : BReach strong A m0 m1) (h' : BReach strong A m1 m2) :
    BReach strong A m0 m2 := by
  induction h' with
  | init => exact h
  | step _ hst ih => exact .step ih hst
  | put _ hst ih => exact .put ih hst

/-- Outside of the critical section, and not at its entrance. -/
def Pc.loc : Pc → Bool
  | .commit _ => false
  | .register _ => false
  | .journal _ _ => false
  | .publish _ _ => false
  | _ => true

/-- `t` reads the same values in the two states. -/
structure Agree (t : Fin T) (s s' : St T) : Prop where
  th : s'.th t = s.th t
  npiv : s'.npiv = s.npiv
  qinv : s'.qinv = s.qinv
  pinv : ∀ i, i ∈ (s.th t).owned → s'.pinv[i]? = s.pinv[i]?
  jour : ∀ k, k < s.npiv → s'.journal[k]? = s.journal[k]?

theorem Agree.refl (t : Fin T) (s : St T) : Agree t s s := ⟨rfl, rfl, rfl, fun _ _ => rfl, fun _ _ => rfl⟩

/-- The steps outside of the critical section only depend on what the thread reads, and only change its private
variables. -/
theorem step_loc {s : St T} {t : Fin T} (hl : (s.th t).pc.loc = true)
    (htgt : ∀ g, (s.th t).pc = .examine g → g ≤ s.npiv) :
    ∃ o : Option (C Thread), ∀ s', Agree t s s' →
      step A t s' = o.map (fun r => r >>= fun y => .ok (s'.set t y)) := by
  generalize hy : s.th t = y at hl htgt
  rcases hpc : y.pc with _ | _ | px | _ | j | j | ⟨j, r⟩ | ⟨j, r⟩ | g | _
  · rcases ht : y.todo with _ | ⟨i, is⟩
    · refine ⟨none, fun s' h => ?_⟩
      unfold step
      rw [h.th, hy]; simp only [hpc, ht]; rfl
    · refine ⟨some (do
        let pi ← rd s.pinv i
        if 0 ≤ pi then .ok { y with todo := is }
        else .ok { y with pc := .start, i := i, todo := is }), fun s' h => ?_⟩
      unfold step
      rw [h.th, hy]; simp only [hpc, ht]
      rw [rd_congr (h.pinv i (by unfold Thread.owned; rw [hy, if_pos hpc, ht]; simp))]
      rcases rd s.pinv i with e | v
      · rfl
      · by_cases h0 : 0 ≤ v
        · simp [bind, Except.bind, h0]
        · simp [bind, Except.bind, h0]
  · refine ⟨some (do
      let lo ← rd A.p y.i
      .ok { y with pc := .scatter lo, k := s.npiv, x := { y.x with head := 0, tail := 0, surv := 0 } }),
      fun s' h => ?_⟩
    unfold step
    rw [h.th, hy]; simp only [hpc, h.npiv]
    rcases rd A.p y.i with e | v <;> rfl
  · refine ⟨some (do
      let hi ← rd A.p (y.i + 1)
      if px < hi then do
        let x ← scatter_entry A s.qinv y.x px
        .ok { y with pc := .scatter (px + 1), x := x }
      else .ok { y with pc := .bfs }), fun s' h => ?_⟩
    unfold step
    rw [h.th, hy]; simp only [hpc, h.qinv]
    rcases rd A.p (y.i + 1) with e | v
    · rfl
    · by_cases h0 : px < v
      · simp only [bind, Except.bind, h0, if_true]
        rcases scatter_entry A s.qinv y.x px with e | x <;> rfl
      · simp [bind, Except.bind, h0]
  · refine ⟨some (
      if y.x.head < y.x.tail ∧ 0 < y.x.surv then do
        let x ← bfs_pop A s.qinv y.x
        .ok { y with x := x }
      else if y.x.surv = 0 then .ok { y with pc := .clean }
      else do
        let j ← survivor A y.x y.i
        .ok { y with pc := .commit j }), fun s' h => ?_⟩
    unfold step
    rw [h.th, hy]; simp only [hpc, h.qinv]
    by_cases h0 : y.x.head < y.x.tail ∧ 0 < y.x.surv
    · simp only [bind, Except.bind, if_pos h0]
      rcases bfs_pop A s.qinv y.x with e | x <;> rfl
    · simp only [bind, Except.bind, if_neg h0]
      by_cases h1 : y.x.surv = 0
      · simp only [if_pos h1]; rfl
      · simp only [if_neg h1]
        rcases survivor A y.x y.i with e | x <;> rfl
  · rw [hpc] at hl; cases hl
  · rw [hpc] at hl; cases hl
  · rw [hpc] at hl; cases hl
  · rw [hpc] at hl; cases hl
  · refine ⟨some (
      if y.k < g then do
        let j ← rd s.journal y.k
        let x ← examine A s.qinv y.x j
        .ok { y with k := y.k + 1, x := x }
      else .ok { y with pc := .bfs }), fun s' h => ?_⟩
    unfold step
    rw [h.th, hy]; simp only [hpc, h.qinv]
    by_cases h0 : y.k < g
    · have := htgt g hpc
      simp only [bind, Except.bind, if_pos h0]
      rw [rd_congr (h.jour y.k (by omega))]
      rcases rd s.journal y.k with e | v
      · rfl
      · simp only []
        rcases examine A s.qinv y.x v with e | x <;> rfl
    · simp only [bind, Except.bind, if_neg h0]; rfl
  · refine ⟨some (do
      let w ← cleanup A y.x y.i
      .ok { y with pc := .idle, x := { y.x with w := w } }), fun s' h => ?_⟩
    unfold step
    rw [h.th, hy]; simp only [hpc]
    rcases cleanup A y.x y.i with e | x <;> rfl

/-- The steps outside of the critical section, with buffers. -/
theorem bstep_loc {strong : Bool} {m : Buf T} {t : Fin T} (hl : (m.s.th t).pc.loc = true)
    (hb : m.buf t = []) : bstep strong A t m =
      (step A t m.s).map (fun r => r >>= fun s => .ok { m with s := m.s.set t (s.th t) }) := by
  have hv : m.view t = m.s := by unfold Buf.view; rw [hb]; rfl
  unfold bstep
  rw [hv]
  rcases hpc : (m.s.th t).pc
  all_goals first | (simp [hpc, Pc.loc] at hl; done) | simp only [hpc]

/-- The state in the critical section after the registration of the pivot `(i, j)`: `P`, `Q`, `J` are the arrays before;
`a`, `b`, `c` tell which writes are pending; `pub` tells whether the write to the journal has been issued.  Without
buffers, the registration takes place when the write to `qinv` reaches the memory. -/
structure Crit (m : Buf T) (σ : St T) (t : Fin T) (j : Nat) (P Q : Array Int) (J : Array Nat)
    (a b c pub : Bool) : Prop where
  mlock : m.s.lock = some t
  lock : σ.lock = some t
  npiv : σ.npiv = m.s.npiv
  inc : ∀ u, m.inc u = false
  buf : m.buf t = (if a then [.pinv (m.s.th t).i (j : Int)] else []) ++
    (if b then [.qinv j ((m.s.th t).i : Int)] else []) ++ (if c then [.jour m.s.npiv j] else [])
  bufs : ∀ u, u ≠ t → m.buf u = []
  ths : ∀ u, u ≠ t → σ.th u = m.s.th u
  pc : (m.s.th t).pc = if pub then .publish j 1 else .journal j 1
  th : σ.th t = if b then { m.s.th t with pc := .register j } else m.s.th t
  mpinv : m.s.pinv = if a then P else P.upd (m.s.th t).i (j : Int)
  mqinv : m.s.qinv = if b then Q else Q.upd j ((m.s.th t).i : Int)
  mjour : m.s.journal = if pub && !c then J.upd m.s.npiv j else J
  cpub : c = true → pub = true
  pinv : σ.pinv = if b then P else P.upd (m.s.th t).i (j : Int)
  qinv : σ.qinv = if b then Q else Q.upd j ((m.s.th t).i : Int)
  jour : σ.journal = if pub && !b then J.upd m.s.npiv j else J
  reg : register_pivot (m.s.th t).i j P Q = .ok (1, P.upd (m.s.th t).i (j : Int), Q.upd j ((m.s.th t).i : Int))
  room : m.s.npiv < J.size

/-- In the critical section, between the registration and the increment of `npiv`. -/
def Pc.jp : Pc → Bool
  | .journal _ _ => true
  | .publish _ _ => true
  | _ => false

/-- Relation between a state with buffers and a state without. -/
inductive GSim : Buf T → St T → Prop
  | free {m : Buf T} (hb : ∀ t, m.buf t = []) (hi : ∀ t, m.inc t = false)
      (hp : ∀ t, (m.s.th t).pc.jp = false) : GSim m m.s
  | crit {m : Buf T} {σ : St T} {t : Fin T} {j : Nat} {P Q : Array Int} {J : Array Nat} {a b c pub : Bool}
      (h : Crit m σ t j P Q J a b c pub) : GSim m σ
  | left {m : Buf T} {t : Fin T} {j r : Nat} (hb : ∀ t, m.buf t = []) (hi : ∀ u, m.inc u = true ↔ u = t)
      (hl : m.s.lock = some t) (hp : (m.s.th t).pc = .publish j r) :
      GSim m { m.s.set t { m.s.th t with pc := .clean } with lock := none }

theorem Crit.agree {m : Buf T} {σ : St T} {t : Fin T} {j : Nat} {P Q : Array Int} {J : Array Nat} {a b c pub : Bool}
    (h : Crit m σ t j P Q J a b c pub) {pd : Option Nat} (hI : Inv A q0 pd σ) {u : Fin T} (hu : u ≠ t) :
    Agree u σ m.s := by
  refine ⟨(h.ths u hu).symm, h.npiv.symm, by rw [h.qinv, h.mqinv], fun i hi => ?_, fun k hk => ?_⟩
  · have hne : i ≠ (m.s.th t).i := by
      rintro rfl
      refine hI.disj u t hu _ hi ?_
      have h2 : (σ.th t).i = (m.s.th t).i := by rw [h.th]; split <;> rfl
      have h3 : (σ.th t).pc ≠ .idle := by
        intro h4
        have := (hI.lock t).2 h.lock
        rw [h4] at this; cases this
      unfold Thread.owned
      rw [if_neg h3, h2]; exact List.mem_cons_self
    rw [h.mpinv, h.pinv]
    cases a <;> cases b <;> simp [upd_getElem?_ne _ _ hne]
  · rw [h.npiv] at hk
    rw [h.mjour, h.jour]
    have hne : k ≠ m.s.npiv := by omega
    cases b <;> cases c <;> cases pub <;> simp [upd_getElem?_ne _ _ hne]

theorem Crit.set {m : Buf T} {σ : St T} {t : Fin T} {j : Nat} {P Q : Array Int} {J : Array Nat} {a b c pub : Bool}
    (h : Crit m σ t j P Q J a b c pub) {u : Fin T} (hu : u ≠ t) (y : Thread) :
    Crit { m with s := m.s.set u y } (σ.set u y) t j P Q J a b c pub := by
  have e1 : (m.s.set u y).th t = m.s.th t := Function.update_of_ne (Ne.symm hu) _ _
  have e2 : (σ.set u y).th t = σ.th t := Function.update_of_ne (Ne.symm hu) _ _
  refine ⟨h.mlock, h.lock, h.npiv, h.inc, ?_, h.bufs, ?_, ?_, ?_, ?_, ?_, h.mjour, h.cpub, ?_, ?_, h.jour, ?_, h.room⟩
  · simp only [e1]; exact h.buf
  · intro w hw
    show Function.update σ.th u y w = Function.update m.s.th u y w
    by_cases he : w = u
    · subst he; rw [Function.update_self, Function.update_self]
    · rw [Function.update_of_ne he, Function.update_of_ne he]; exact h.ths w hw
  · simp only [e1]; exact h.pc
  · rw [e2]; simp only [e1]; exact h.th
  · simp only [e1]; exact h.mpinv
  · simp only [e1]; exact h.mqinv
  · simp only [e1]; exact h.pinv
  · simp only [e1]; exact h.qinv
  · simp only [e1]; exact h.reg

/-- The target of a thread that examines new pivots. -/
theorem Inv.tgt {pd : Option Nat} {s : St T} (hI : Inv A q0 pd s) {t : Fin T} {g : Nat}
    (h : (s.th t).pc = .examine g) : g ≤ s.npiv := by
  have hT := hI.thr t
  unfold TInv at hT
  rw [h] at hT
  exact hT.2.2

theorem Inv.ok (hA : A.WF) (hnd : A.NoDup) {pd : Option Nat} {s : St T} (hI : Inv A q0 pd s) {t : Fin T} {r : C (St T)}
    (h : Greedy.step A t s = some r) : ∃ s' pd', r = .ok s' ∧ Inv A q0 pd' s' := by
  obtain ⟨s', h1, ⟨pd', h2⟩, -⟩ := Ok_iff.1 (inv_step hA hnd hI h)
  exact ⟨s', pd', h1, h2⟩

/-- A pivot that is about to be registered. -/
theorem Inv.fresh {pd : Option Nat} {s : St T} (hI : Inv A q0 pd s) {t : Fin T} {j : Nat}
    (hpc : (s.th t).pc = .register j) : s.pinv[(s.th t).i]? = some (-1) ∧ s.qinv[j]? = some (-1) := by
  have hT := hI.thr t
  unfold TInv at hT
  rw [hpc] at hT
  simp only at hT
  obtain ⟨⟨h1, h2, h3, h4⟩, h5, h6⟩ := hT
  obtain ⟨hin, hnK⟩ := h1.one j h3 h4
  have hqj : s.qinv.g j < 0 := by
    by_contra hn
    rcases (hI.sh.known j h3).1 (by omega) with g | g
    · rw [h5] at g; exact hnK g
    · rw [h6] at g; cases g
  have hq := hI.sh.ps.q_ge j h3
  have hqs := hI.sh.ps.qsize
  have hps := hI.sh.ps.psize
  have hil := h1.i_lt
  have hpi := h1.pi
  constructor
  · have hlt : (s.th t).i < s.pinv.size := by omega
    rw [Array.getElem?_eq_getElem hlt]
    rw [g_eq _ _ hlt] at hpi
    exact congrArg some hpi
  · have hlt : j < s.qinv.size := by omega
    have hpj : s.qinv.g j = -1 := by omega
    rw [Array.getElem?_eq_getElem hlt]
    rw [g_eq _ _ hlt] at hpj
    exact congrArg some hpj

/-- The registration and the write to the journal, without buffers. -/
theorem step_reg {s : St T} {t : Fin T} {j : Nat} {P Q : Array Int} (hpc : (s.th t).pc = .register j)
    (hr : register_pivot (s.th t).i j s.pinv s.qinv = .ok (1, P, Q)) :
    Greedy.step A t s = some (.ok { s.set t { s.th t with pc := .journal j 1 } with pinv := P, qinv := Q }) := by
  unfold Greedy.step
  simp only [hpc]
  rw [hr]; rfl

theorem step_jour {s : St T} {t : Fin T} {j r : Nat} (hpc : (s.th t).pc = .journal j r) (h : s.npiv < s.journal.size) :
    Greedy.step A t s = some (.ok { s.set t { s.th t with pc := .publish j r } with
      journal := s.journal.upd s.npiv j }) := by
  unfold Greedy.step
  simp only [hpc]
  unfold wr
  rw [if_pos h]; rfl

theorem step_pub {s : St T} {t : Fin T} {j r : Nat} (hpc : (s.th t).pc = .publish j r) :
    Greedy.step A t s = some (.ok { s.set t { s.th t with pc := .clean } with npiv := s.npiv + r, lock := none }) := by
  unfold Greedy.step
  simp only [hpc]

/-- A step outside of the critical section, with and without buffers. -/
theorem loc_both (hA : A.WF) (hnd : A.NoDup) {pd : Option Nat} {m : Buf T} {σ : St T} (hI : Inv A q0 pd σ) {u : Fin T}
    (hag : Agree u σ m.s) (hb : m.buf u = []) (hl : (σ.th u).pc.loc = true) {r : C (Buf T)} {strong : Bool}
    (hr : bstep strong A u m = some r) :
    ∃ y, r = .ok { m with s := m.s.set u y } ∧ step A u σ = some (.ok (σ.set u y)) ∧ y.pc.jp = false := by
  obtain ⟨o, ho⟩ := step_loc (A := A) hl (fun g hg => hI.tgt hg)
  have h1 := ho _ hag
  have h2 := ho _ (Agree.refl u σ)
  rw [bstep_loc (by rw [hag.th]; exact hl) hb, h1] at hr
  rcases o with _ | o
  · cases hr
  · rcases o with e | y
    · obtain ⟨s', _, h3, -⟩ := hI.ok hA hnd h2
      cases h3
    · have h2' : step A u σ = some (.ok (σ.set u y)) := h2
      refine ⟨y, ?_, h2', ?_⟩
      · have : r = .ok { m with s := m.s.set u ((m.s.set u y).th u) } := by
          have hr' : some (Except.ok { m with s := m.s.set u ((m.s.set u y).th u) }) = some r := hr
          exact (Option.some.inj hr').symm
        rw [this]
        unfold St.set
        simp
      · obtain ⟨s', pd', h3, h4⟩ := hI.ok hA hnd h2'
        cases h3
        have h5 : ((σ.set u y).th u) = y := Function.update_self _ _ _
        have h6 := h4.lock u
        rw [h5] at h6
        by_contra hc
        have h7 : y.pc.crit = true := by
          rcases hy : y.pc <;> rw [hy] at hc <;> first | exact absurd rfl hc | rfl
        have h8 := (hI.lock u).2 (h6.1 h7)
        rcases hy : (σ.th u).pc <;> first | (simp [hy, Pc.loc] at hl; done) | simp [hy, Pc.crit] at h8

theorem Crit.notcrit {m : Buf T} {σ : St T} {t : Fin T} {j : Nat} {P Q : Array Int} {J : Array Nat} {a b c pub : Bool}
    (h : Crit m σ t j P Q J a b c pub) {pd : Option Nat} (hI : Inv A q0 pd σ) {u : Fin T} (hu : u ≠ t) :
    (m.s.th u).pc.crit = false := by
  rw [← h.ths u hu]
  by_contra hc
  have := (hI.lock u).1 (by simpa using hc)
  rw [h.lock] at this
  exact hu (Option.some.inj this).symm

theorem loc_of {p : Pc} (h : p.crit = false) : p.loc = true ∨ ∃ j, p = .commit j := by
  cases p <;> first | exact Or.inl rfl | exact Or.inr ⟨_, rfl⟩ | cases h

theorem view_nil {m : Buf T} {t : Fin T} (h : m.buf t = []) : m.view t = m.s := by
  unfold Buf.view; rw [h]; rfl

theorem view_journal_size {m : Buf T} {t : Fin T} : (m.view t).journal.size = m.s.journal.size := by
  unfold Buf.view
  have : ∀ (l : List Item) (s : St T), (l.foldl (fun s i => i.apply s) s).journal.size = s.journal.size := by
    intro l
    induction l with
    | nil => intro s; rfl
    | cons i l ih =>
      intro s
      rw [List.foldl_cons, ih]
      cases i <;> simp [Item.apply]
  exact this _ _

theorem Buf.eq_init {m : Buf T} (hb : ∀ t, m.buf t = []) (hi : ∀ t, m.inc t = false) : m = Buf.init m.s := by
  obtain ⟨s, b, i⟩ := m
  have h1 : b = fun _ => [] := funext hb
  have h2 : i = fun _ => false := funext hi
  subst h1; subst h2; rfl

theorem Crit.drained {m : Buf T} {σ : St T} {t : Fin T} {j : Nat} {P Q : Array Int} {J : Array Nat} {a b c pub : Bool}
    (h : Crit m σ t j P Q J a b c pub) (hb : m.buf t = []) : σ = m.s := by
  have hbuf := h.buf
  rw [hb] at hbuf
  have hb : b = false := by
    cases b
    · rfl
    · cases a <;> cases c <;> simp at hbuf
  have ha : a = false := by
    cases a
    · rfl
    · cases b <;> cases c <;> simp at hbuf
  have hc : c = false := by
    cases c
    · rfl
    · cases a <;> cases b <;> simp at hbuf
  subst ha; subst hb; subst hc
  have ht := h.th
  simp only [Bool.false_eq_true, if_false] at ht
  have hth : σ.th = m.s.th := by
    funext w
    by_cases hw : w = t
    · subst hw; exact ht
    · exact h.ths w hw
  have e1 : σ.pinv = m.s.pinv := by rw [h.pinv, h.mpinv]
  have e2 : σ.qinv = m.s.qinv := by rw [h.qinv, h.mqinv]
  have e3 : σ.journal = m.s.journal := by rw [h.jour, h.mjour]
  have e4 : σ.lock = m.s.lock := by rw [h.lock, h.mlock]
  have e5 := h.npiv
  generalize m.s = s' at e1 e2 e3 e4 e5 hth
  cases σ; cases s'
  simp only at e1 e2 e3 e4 e5 hth
  subst e1; subst e2; subst e3; subst e4; subst e5; subst hth
  rfl

/-- A step of the program with buffers, seen without buffers. -/
theorem GSim.step (hA : A.WF) (hnd : A.NoDup) {pd : Option Nat} {m : Buf T} {σ : St T} (h : GSim m σ)
    (hI : Inv A q0 pd σ) {u : Fin T} {r : C (Buf T)} (hr : bstep true A u m = some r) :
    ∃ m' σ', r = .ok m' ∧ Reach A σ σ' ∧ GSim m' σ' := by
  cases h with
  | free hb hi hp =>
    rcases hc : (m.s.th u).pc.crit with _ | _
    · rcases loc_of hc with hl | ⟨j, hpc⟩
      · obtain ⟨y, h1, h2, h3⟩ := loc_both hA hnd hI (Agree.refl u m.s) (hb u) hl hr
        refine ⟨_, _, h1, .step .init h2, .free (m := { m with s := m.s.set u y }) hb hi (fun w => ?_)⟩
        show (Function.update m.s.th u y w).pc.jp = false
        by_cases he : w = u
        · subst he; rw [Function.update_self]; exact h3
        · rw [Function.update_of_ne he]; exact hp w
      · have hst : ∀ (y : Thread) (l : Option (Fin T)), y.pc.jp = false → GSim { m with s := { m.s.set u y with lock := l } }
            { m.s.set u y with lock := l } := by
          intro y l hy
          refine .free (m := { m with s := { m.s.set u y with lock := l } }) hb hi (fun w => ?_)
          show (Function.update m.s.th u y w).pc.jp = false
          by_cases he : w = u
          · subst he; rw [Function.update_self]; exact hy
          · rw [Function.update_of_ne he]; exact hp w
        unfold bstep at hr
        simp only [hpc, hb u] at hr
        rcases hlk : m.s.lock with _ | w
        · simp only [hlk] at hr
          by_cases hk : m.s.npiv = (m.s.th u).k
          · rw [if_pos hk] at hr
            refine ⟨_, _, (Option.some.inj hr).symm, .step .init (t := u) ?_, hst _ _ rfl⟩
            unfold Greedy.step
            simp only [hpc, hlk]
            rw [if_pos hk]
          · rw [if_neg hk] at hr
            refine ⟨_, _, (Option.some.inj hr).symm, .step .init (t := u) ?_,
              hst { m.s.th u with pc := .examine m.s.npiv } m.s.lock rfl⟩
            unfold Greedy.step
            simp only [hpc, hlk]
            rw [if_neg hk]
            unfold St.set
            rw [← hlk]
        · simp only [hlk] at hr; cases hr
    · -- registration
      rcases hpc : (m.s.th u).pc with _ | _ | _ | _ | _ | j | ⟨j, r⟩ | ⟨j, r⟩ | _ | _
      any_goals (simp [hpc, Pc.crit] at hc; done)
      · obtain ⟨f1, f2⟩ := hI.fresh hpc
        obtain ⟨f3, f4⟩ := register_fresh f1 f2
        unfold bstep at hr
        simp only [hpc, view_nil (hb u), f3] at hr
        have hst := step_reg (A := A) hpc f4
        obtain ⟨s', pd', g1, g2⟩ := hI.ok hA hnd hst
        cases g1
        have g3 := g2.thr u
        unfold TInv at g3
        simp only [St.set, Function.update_self] at g3
        have g4 := g2.sh.npiv_le
        rw [g3.2.2] at g4
        have g5 := g2.sh.jsize
        have g6 : m.s.npiv + 1 ≤ A.n := g4
        have g7 : m.s.journal.size = A.n := g5
        have e1 : (m.s.set u { m.s.th u with pc := .journal j 1 }).th u = { m.s.th u with pc := .journal j 1 } :=
          Function.update_self _ _ _
        refine ⟨m.push u { m.s.th u with pc := .journal j 1 } [.pinv (m.s.th u).i (j : Int), .qinv j ((m.s.th u).i : Int)],
          m.s, (Option.some.inj hr).symm, .init,
          .crit (t := u) (j := j) (P := m.s.pinv) (Q := m.s.qinv) (J := m.s.journal) (a := true) (b := true) (c := false)
            (pub := false) ?_⟩
        have hlk := (hI.lock u).1 hc
        have he : ({ m.s.th u with pc := .register j } : Thread) = m.s.th u := by rw [← hpc]
        refine ⟨hlk, hlk, rfl, hi, ?_, ?_, ?_, ?_, ?_, rfl, rfl, rfl, fun h => (by cases h), rfl, rfl, rfl, ?_, ?_⟩
        · simp only [Buf.push, e1, Function.update_self, hb u]; rfl
        · intro w hw
          simp only [Buf.push, Function.update_of_ne hw, hb w]
        · intro w hw
          simp only [Buf.push, St.set, Function.update_of_ne hw]
        · simp only [Buf.push, e1]; rfl
        · simp only [Buf.push, e1, if_true]; exact he.symm
        · simp only [Buf.push, e1]; exact f4
        · show m.s.npiv < m.s.journal.size
          omega
      · have := hp u; rw [hpc] at this; cases this
      · have := hp u; rw [hpc] at this; cases this
  | @crit _ t j P Q J a b c pub h =>
    by_cases hu : u = t
    · subst hu
      rcases pub with _ | _
      · have hpc := h.pc
        simp only [Bool.false_eq_true, if_false] at hpc
        have hc : c = false := by
          rcases c with _ | _
          · rfl
          · have := h.cpub rfl; cases this
        subst hc
        have hJ := h.mjour
        simp only [Bool.false_and, Bool.false_eq_true, if_false] at hJ
        have hJ' := h.jour
        simp only [Bool.false_and, Bool.false_eq_true, if_false] at hJ'
        unfold bstep at hr
        simp only [hpc, view_journal_size, hJ] at hr
        rw [if_pos h.room] at hr
        have e1 : (m.s.set u { m.s.th u with pc := .publish j 1 }).th u = { m.s.th u with pc := .publish j 1 } :=
          Function.update_self _ _ _
        have hcr : ∀ σ' : St T, σ'.lock = σ.lock → σ'.npiv = σ.npiv → (∀ w, w ≠ u → σ'.th w = σ.th w) →
            (σ'.th u = if b then { m.s.th u with pc := .register j } else { m.s.th u with pc := .publish j 1 }) →
            σ'.pinv = σ.pinv → σ'.qinv = σ.qinv → (σ'.journal = if !b then J.upd m.s.npiv j else J) →
            GSim (m.push u { m.s.th u with pc := .publish j 1 } [.jour m.s.npiv j]) σ' := by
          intro σ' k1 k2 k3 k4 k5 k6 k7
          refine .crit (t := u) (j := j) (P := P) (Q := Q) (J := J) (a := a) (b := b) (c := true) (pub := true) ?_
          refine ⟨h.mlock, by rw [k1, h.lock], by rw [k2]; exact h.npiv, h.inc, ?_, ?_, ?_, ?_, ?_, ?_, ?_, hJ, fun _ => rfl,
            ?_, ?_, ?_, ?_, h.room⟩
          · have := h.buf
            simp only [Buf.push, e1, Function.update_self, this]
            simp [St.set]
          · intro w hw
            simp only [Buf.push, Function.update_of_ne hw, h.bufs w hw]
          · intro w hw
            simp only [Buf.push, St.set, Function.update_of_ne hw]
            rw [k3 w hw, h.ths w hw]
          · simp only [Buf.push, e1]; rfl
          · simp only [Buf.push, e1]; exact k4
          · simp only [Buf.push, e1]; exact h.mpinv
          · simp only [Buf.push, e1]; exact h.mqinv
          · simp only [Buf.push, e1]; rw [k5]; exact h.pinv
          · simp only [Buf.push, e1]; rw [k6]; exact h.qinv
          · exact k7
          · simp only [Buf.push, e1]; exact h.reg
        rcases b with _ | _
        · have ht := h.th
          simp only [Bool.false_eq_true, if_false] at ht
          have hroom : σ.npiv < σ.journal.size := by rw [h.npiv, hJ']; exact h.room
          have hst := step_jour (A := A) (s := σ) (t := u) (j := j) (r := 1) (by rw [ht, hpc]) hroom
          refine ⟨_, _, (Option.some.inj hr).symm, .step .init hst, hcr _ rfl rfl ?_ ?_ rfl rfl ?_⟩
          · intro w hw; exact Function.update_of_ne hw _ _
          · show Function.update σ.th u _ u = _
            rw [Function.update_self, ht]; rfl
          · show σ.journal.upd σ.npiv j = _
            rw [hJ', h.npiv]; rfl
        · exact ⟨_, _, (Option.some.inj hr).symm, .init, hcr _ rfl rfl (fun _ _ => rfl) h.th rfl rfl hJ'⟩
      · have hpc := h.pc
        simp only [if_true] at hpc
        unfold bstep at hr
        simp only [hpc, h.inc u, Bool.false_eq_true, if_false, true_and] at hr
        by_cases hbe : m.buf u = []
        · simp only [hbe, ne_eq, not_true_eq_false, if_false] at hr
          have hσ : σ = m.s := h.drained hbe
          subst hσ
          have hst := step_pub (A := A) hpc
          refine ⟨_, _, (Option.some.inj hr).symm, .step .init hst,
            .left (m := { m with s := { m.s with npiv := m.s.npiv + 1 }, inc := Function.update m.inc u true })
              (t := u) (j := j) (r := 1) ?_ ?_ h.mlock hpc⟩
          · intro w
            by_cases hw : w = u
            · subst hw; exact hbe
            · exact h.bufs w hw
          · intro w
            show Function.update m.inc u true w = true ↔ _
            by_cases hw : w = u
            · subst hw; simp
            · rw [Function.update_of_ne hw, h.inc w]; simp [hw]
        · rw [if_pos hbe] at hr; cases hr
    · have hc := h.notcrit hI hu
      rcases loc_of hc with hl | ⟨j, hpc⟩
      · obtain ⟨y, h1, h2, -⟩ := loc_both hA hnd hI (h.agree hI hu) (h.bufs u hu)
          (by rw [h.ths u hu]; exact hl) hr
        exact ⟨_, _, h1, .step .init h2, .crit (h.set hu y)⟩
      · unfold bstep at hr
        simp only [hpc, h.mlock] at hr
        cases hr
  | @left t j r' hb hi hl hp =>
    by_cases hu : u = t
    · subst hu
      unfold bstep at hr
      simp only [hp, (hi u).2 rfl, if_true, hb u, ne_eq, not_true_eq_false, if_false] at hr
      refine ⟨_, _, (Option.some.inj hr).symm, .init,
        .free (m := { m with s := { m.s.set u { m.s.th u with pc := .clean } with lock := none },
                             inc := Function.update m.inc u false }) hb ?_ ?_⟩
      · intro w
        show Function.update m.inc u false w = false
        by_cases hw : w = u
        · subst hw; simp
        · rw [Function.update_of_ne hw]
          by_contra hc
          exact hw ((hi w).1 (by simpa using hc))
      · intro w
        show (Function.update m.s.th u _ w).pc.jp = false
        by_cases hw : w = u
        · subst hw; rw [Function.update_self]; rfl
        · have := hI.lock w
          have e : ((m.s.set u { m.s.th u with pc := .clean }).th w) = m.s.th w := Function.update_of_ne hw _ _
          simp only [e, reduceCtorEq, iff_false] at this
          rw [Function.update_of_ne hw]
          rcases hy : (m.s.th w).pc <;> rw [hy] at this <;> first | rfl | exact absurd rfl this
    · have e : ((m.s.set t { m.s.th t with pc := .clean }).th u) = m.s.th u := Function.update_of_ne hu _ _
      have hc : (m.s.th u).pc.crit = false := by
        have := hI.lock u
        simp only [e, reduceCtorEq, iff_false] at this
        simpa using this
      rcases loc_of hc with hloc | ⟨j', hpc⟩
      · obtain ⟨y, h1, h2, -⟩ := loc_both hA hnd hI (m := m) ⟨e.symm, rfl, rfl, fun _ _ => rfl, fun _ _ => rfl⟩ (hb u)
          (by rw [e]; exact hloc) hr
        refine ⟨_, _, h1, .step .init h2, ?_⟩
        have hne : t ≠ u := Ne.symm hu
        have e2 : (m.s.set u y).th t = m.s.th t := Function.update_of_ne hne _ _
        have := GSim.left (m := { m with s := m.s.set u y }) (t := t) (j := j) (r := r') hb hi hl (by rw [e2]; exact hp)
        simp only [e2] at this
        unfold St.set at this ⊢
        rw [Function.update_comm hne]
        exact this
      · unfold bstep at hr
        simp only [hpc, hl] at hr
        cases hr

/-- The pending writes. -/
def pend (i j n : Nat) (a b c : Bool) : List Item :=
  (if a then [.pinv i (j : Int)] else []) ++ (if b then [.qinv j (i : Int)] else []) ++ (if c then [.jour n j] else [])

theorem bput_pend {m m' : Buf T} {t : Fin T} {i j n k : Nat} {a b c : Bool} (hb : m.buf t = pend i j n a b c)
    (h : bput t k m = some m') :
    (a = true ∧ m' = { m with s := (Item.pinv i (j : Int)).apply m.s,
                              buf := Function.update m.buf t (pend i j n false b c) }) ∨
    (b = true ∧ m' = { m with s := (Item.qinv j (i : Int)).apply m.s,
                              buf := Function.update m.buf t (pend i j n a false c) }) ∨
    (c = true ∧ m' = { m with s := (Item.jour n j).apply m.s,
                              buf := Function.update m.buf t (pend i j n a b false) }) := by
  unfold bput at h
  rw [hb] at h
  cases a <;> cases b <;> cases c <;> rcases k with _ | _ | _ | k <;>
    simp [pend, Item.conf] at h <;> subst h <;> simp [pend]

/-- A write reaches the memory, seen without buffers. -/
theorem GSim.put {m m' : Buf T} {σ : St T} (h : GSim m σ) {u : Fin T} {k : Nat} (hr : bput u k m = some m') :
    ∃ σ', Reach A σ σ' ∧ GSim m' σ' := by
  cases h with
  | free hb hi hp => unfold bput at hr; rw [hb u] at hr; cases hr
  | left hb hi hl hp => unfold bput at hr; rw [hb u] at hr; cases hr
  | @crit _ t j P Q J a b c pub h =>
    by_cases hu : u = t
    · subst hu
      have hbuf : ∀ (l : List Item) (w : Fin T), w ≠ u → Function.update m.buf u l w = [] := by
        intro l w hw
        rw [Function.update_of_ne hw]; exact h.bufs w hw
      rcases bput_pend (show m.buf u = pend (m.s.th u).i j m.s.npiv a b c from h.buf) hr with
        ⟨rfl, rfl⟩ | ⟨rfl, rfl⟩ | ⟨rfl, rfl⟩
      · refine ⟨σ, .init, .crit (t := u) (j := j) (P := P) (Q := Q) (J := J) (a := false) (b := b) (c := c) (pub := pub)
          ⟨h.mlock, h.lock, h.npiv, h.inc, Function.update_self _ _ _, hbuf _, h.ths, h.pc, h.th, ?_, h.mqinv, h.mjour,
            h.cpub, h.pinv, h.qinv, h.jour, h.reg, h.room⟩⟩
        show m.s.pinv.upd (m.s.th u).i (j : Int) = _
        rw [h.mpinv]; rfl
      · have h1 := h.th
        have h2 := h.pinv
        have h3 := h.qinv
        have h4 := h.jour
        have h5 := h.mqinv
        simp only [if_true, Bool.not_true, Bool.and_false, Bool.false_eq_true, if_false] at h1 h2 h3 h4 h5
        have hs1 := step_reg (A := A) (s := σ) (t := u) (j := j) (P := P.upd (m.s.th u).i (j : Int))
          (Q := Q.upd j ((m.s.th u).i : Int)) (by rw [h1]) (by rw [h1, h2, h3]; exact h.reg)
        rcases pub with _ | _
        · refine ⟨_, .step .init hs1, .crit (t := u) (j := j) (P := P) (Q := Q) (J := J) (a := a) (b := false) (c := c)
            (pub := false)
            ⟨h.mlock, h.lock, h.npiv, h.inc, Function.update_self _ _ _, hbuf _, ?_, h.pc, ?_, h.mpinv, ?_, h.mjour,
              h.cpub, rfl, rfl, h4, h.reg, h.room⟩⟩
          · intro w hw
            exact (Function.update_of_ne hw _ _).trans (h.ths w hw)
          · refine (Function.update_self _ _ _).trans ?_
            rw [h1]
            have := h.pc
            simp only [Bool.false_eq_true, if_false] at this
            show _ = m.s.th u
            rw [← this]
          · show m.s.qinv.upd j ((m.s.th u).i : Int) = _
            rw [h5]; rfl
        · have hs2 := step_jour (A := A)
            (s := { σ.set u { σ.th u with pc := .journal j 1 } with
                    pinv := P.upd (m.s.th u).i (j : Int), qinv := Q.upd j ((m.s.th u).i : Int) })
            (t := u) (j := j) (r := 1) (by simp [St.set]) (by
              show σ.npiv < σ.journal.size
              rw [h.npiv, h4]; exact h.room)
          refine ⟨_, .step (.step .init hs1) hs2, .crit (t := u) (j := j) (P := P) (Q := Q) (J := J) (a := a) (b := false)
            (c := c) (pub := true)
            ⟨h.mlock, h.lock, h.npiv, h.inc, Function.update_self _ _ _, hbuf _, ?_, h.pc, ?_, h.mpinv, ?_, h.mjour,
              h.cpub, rfl, rfl, ?_, h.reg, h.room⟩⟩
          · intro w hw
            refine (Function.update_of_ne hw _ _).trans ?_
            exact (Function.update_of_ne hw _ _).trans (h.ths w hw)
          · refine (Function.update_self _ _ _).trans ?_
            have := h.pc
            simp only [if_true] at this
            simp only [St.set, Function.update_self, h1]
            show _ = m.s.th u
            rw [← this]
          · show m.s.qinv.upd j ((m.s.th u).i : Int) = _
            rw [h5]; rfl
          · show σ.journal.upd σ.npiv j = _
            rw [h4, h.npiv]; rfl
      · have hp := h.cpub rfl
        subst hp
        refine ⟨σ, .init, .crit (t := u) (j := j) (P := P) (Q := Q) (J := J) (a := a) (b := b) (c := false) (pub := true)
          ⟨h.mlock, h.lock, h.npiv, h.inc, Function.update_self _ _ _, hbuf _, h.ths, h.pc, h.th, h.mpinv, h.mqinv, ?_,
            fun h => (by cases h), h.pinv, h.qinv, h.jour, h.reg, h.room⟩⟩
        show m.s.journal.upd m.s.npiv j = _
        rw [h.mjour]; rfl
    · unfold bput at hr; rw [h.bufs u hu] at hr; cases hr

/-- Every execution with buffers corresponds to one without. -/
theorem breach_sim (hA : A.WF) (hnd : A.NoDup) {s0 : St T} {pd0 : Option Nat} (hI0 : Inv A q0 pd0 s0)
    (hp0 : ∀ t, (s0.th t).pc.jp = false) {m : Buf T} (hr : BReach true A (Buf.init s0) m) :
    ∃ σ pd, GSim m σ ∧ Reach A s0 σ ∧ Inv A q0 pd σ := by
  have hinv : ∀ {σ σ' : St T} {pd : Option Nat}, Inv A q0 pd σ → Reach A σ σ' → ∃ pd', Inv A q0 pd' σ' := by
    intro σ σ' pd hI hr
    induction hr with
    | init => exact ⟨pd, hI⟩
    | step _ hst ih =>
      obtain ⟨pd1, h1⟩ := ih
      exact (inv_step hA hnd h1 hst).1
  induction hr with
  | init => exact ⟨s0, pd0, .free (m := Buf.init s0) (fun _ => rfl) (fun _ => rfl) hp0, .init, hI0⟩
  | step _ hst ih =>
    obtain ⟨σ, pd, h1, h2, h3⟩ := ih
    obtain ⟨m1, σ', e, h4, h5⟩ := h1.step hA hnd h3 hst
    cases e
    obtain ⟨pd', h6⟩ := hinv h3 h4
    exact ⟨σ', pd', h5, h2.trans h4, h6⟩
  | put _ hst ih =>
    obtain ⟨σ, pd, h1, h2, h3⟩ := ih
    obtain ⟨σ', h4, h5⟩ := h1.put (A := A) hst
    obtain ⟨pd', h6⟩ := hinv h3 h4
    exact ⟨σ', pd', h5, h2.trans h4, h6⟩

/-- Every step without buffers is possible with buffers, which are emptied at once. -/
theorem breach_step {strong : Bool} {s s' : St T} {pd : Option Nat} (hI : Inv A q0 pd s)
    {t : Fin T} (hst : step A t s = some (.ok s')) : BReach strong A (Buf.init s) (Buf.init s') := by
  rcases hc : (s.th t).pc.crit with _ | _
  · rcases loc_of hc with hl | ⟨j, hpc⟩
    · obtain ⟨o, ho⟩ := step_loc (A := A) hl (fun g hg => hI.tgt hg)
      have h1 := ho _ (Agree.refl t s)
      rw [hst] at h1
      rcases o with _ | o
      · cases h1
      · rcases o with e | y
        · cases h1
        · have h2 : s' = s.set t y := by
            have h1' : some (Except.ok s') = some (Except.ok (s.set t y)) := h1
            injection h1' with h1'; injection h1'
          subst h2
          refine .step (t := t) .init ?_
          rw [bstep_loc (m := Buf.init s) hl rfl]
          show (step A t s).map _ = _
          rw [hst]
          show some (Except.ok _) = _
          unfold Buf.init St.set
          simp
    · have hlk : s.lock = none := by
        unfold step at hst
        simp only [hpc] at hst
        rcases hlk : s.lock with _ | w
        · rfl
        · simp only [hlk] at hst; cases hst
      refine .step (t := t) .init ?_
      unfold step at hst
      simp only [hpc, hlk] at hst
      unfold bstep
      simp only [Buf.init, hpc, hlk]
      by_cases hk : s.npiv = (s.th t).k
      · rw [if_pos hk] at hst
        injection hst with hst; injection hst with hst
        subst hst
        exact if_pos hk
      · rw [if_neg hk] at hst
        injection hst with hst; injection hst with hst
        subst hst
        exact if_neg hk
  · rcases hpc : (s.th t).pc with _ | _ | _ | _ | _ | j | ⟨j, r⟩ | ⟨j, r⟩ | _ | _
    any_goals (simp [hpc, Pc.crit] at hc; done)
    · obtain ⟨f1, f2⟩ := hI.fresh hpc
      obtain ⟨f3, f4⟩ := register_fresh f1 f2
      rw [step_reg hpc f4] at hst
      injection hst with hst; injection hst with hst
      subst hst
      refine .put (t := t) (k := 0) (.put (t := t) (k := 0) (.step (t := t) .init
        (m' := (Buf.init s).push t { s.th t with pc := .journal j 1 }
          [.pinv (s.th t).i (j : Int), .qinv j ((s.th t).i : Int)]) ?_) (by
          unfold bput
          simp [Buf.push, Buf.init]
          rfl)) ?_
      · unfold bstep
        have hv : (Buf.init s).view t = s := rfl
        rw [hv]
        simp only [Buf.init, hpc, f3]; rfl
      · unfold bput
        simp [Item.apply, Buf.init, St.set]
    · have hT := hI.thr t
      unfold TInv at hT
      rw [hpc] at hT
      simp only at hT
      have hnp := hI.sh.npiv_le
      have hjs := hI.sh.jsize
      rw [hT.2.2] at hnp
      simp only [Option.isSome_some, if_true] at hnp
      rw [step_jour hpc (by omega)] at hst
      injection hst with hst; injection hst with hst
      subst hst
      refine .put (t := t) (k := 0) (.step (t := t) .init
        (m' := (Buf.init s).push t { s.th t with pc := .publish j r } [.jour s.npiv j]) ?_) ?_
      · unfold bstep
        have hv : (Buf.init s).view t = s := rfl
        rw [hv]
        simp only [Buf.init, hpc]
        exact congrArg some (if_pos (by omega))
      · unfold bput
        simp [Item.apply, Buf.init, Buf.push, St.set]
    · rw [step_pub hpc] at hst
      injection hst with hst; injection hst with hst
      subst hst
      refine .step (t := t) (.step (t := t) .init
        (m' := ⟨{ s with npiv := s.npiv + r }, fun _ => [], Function.update (fun _ => false) t true⟩) ?_) ?_
      · unfold bstep
        simp [Buf.init, hpc]
      · unfold bstep
        simp [Buf.init, hpc, St.set]

theorem breach_of_reach {strong : Bool} (hA : A.WF) (hnd : A.NoDup) {s s' : St T} {pd : Option Nat} (hI : Inv A q0 pd s)
    (hr : Reach A s s') : BReach strong A (Buf.init s) (Buf.init s') ∧ ∃ pd', Inv A q0 pd' s' := by
  induction hr with
  | init => exact ⟨.init, pd, hI⟩
  | step _ hst ih =>
    obtain ⟨h1, pd1, h2⟩ := ih
    exact ⟨h1.trans (breach_step h2 hst), (inv_step hA hnd h2 hst).1⟩

/-- The buffers can be emptied. -/
theorem GSim.drain {m : Buf T} {σ : St T} (h : GSim m σ) :
    ∃ m' σ', BReach true A m m' ∧ Reach A σ σ' ∧ GSim m' σ' ∧ ∀ t, m'.buf t = [] := by
  have key : ∀ (l : List Item) (m : Buf T) (σ : St T) (t : Fin T), GSim m σ → m.buf t = l → (∀ u, u ≠ t → m.buf u = []) →
      ∃ m' σ', BReach true A m m' ∧ Reach A σ σ' ∧ GSim m' σ' ∧ ∀ t, m'.buf t = [] := by
    intro l
    induction l with
    | nil =>
      intro m σ t h h1 h2
      refine ⟨m, σ, .init, .init, h, fun u => ?_⟩
      by_cases hu : u = t
      · subst hu; exact h1
      · exact h2 u hu
    | cons i l ih =>
      intro m σ t h h1 h2
      have hp : bput t 0 m = some { m with s := i.apply m.s, buf := Function.update m.buf t l } := by
        unfold bput; rw [h1]; simp
      obtain ⟨σ1, h3, h4⟩ := h.put (A := A) hp
      obtain ⟨m', σ', k1, k2, k3, k4⟩ := ih _ σ1 t h4 (Function.update_self _ _ _)
        (fun u hu => (Function.update_of_ne hu _ _).trans (h2 u hu))
      exact ⟨m', σ', (BReach.put .init hp).trans k1, h3.trans k2, k3, k4⟩
  cases h with
  | free hb hi hp => exact ⟨m, m.s, .init, .init, .free hb hi hp, hb⟩
  | left hb hi hl hp => exact ⟨m, _, .init, .init, .left hb hi hl hp, hb⟩
  | crit h => exact key _ m σ _ (.crit h) rfl h.bufs

/-- A state without pending writes, and without a thread that is about to leave the critical section, can be reached. -/
theorem GSim.settle {m : Buf T} {σ : St T} (h : GSim m σ) :
    ∃ σ', BReach true A m (Buf.init σ') ∧ Reach A σ σ' := by
  obtain ⟨m1, σ1, h1, h2, h3, h4⟩ := h.drain (A := A)
  refine ⟨σ1, h1.trans ?_, h2⟩
  cases h3 with
  | free hb hi hp => rw [← Buf.eq_init hb hi]; exact .init
  | @crit _ t j P Q J a b c pub h =>
    have := h.drained (h4 t)
    subst this
    rw [← Buf.eq_init h4 h.inc]; exact .init
  | @left t j r hb hi hl hp =>
    refine .step (t := t) .init ?_
    unfold bstep
    simp only [hp, (hi t).2 rfl, if_true, hb t, ne_eq, not_true_eq_false, if_false]
    have e1 : m1.buf = fun _ => [] := funext hb
    have e2 : Function.update m1.inc t false = fun _ => false := by
      funext w
      by_cases hw : w = t
      · subst hw; simp
      · rw [Function.update_of_ne hw]
        by_contra hc
        exact hw ((hi w).1 (by simpa using hc))
    rw [e1, e2]
    rfl

end Spasm.Greedy
