import Verif.Spec.Commit
import Mathlib.Data.Multiset.Bind
import Mathlib.Data.Fintype.BigOperators
import Mathlib.Algebra.Order.BigOperators.Group.Finset
import Mathlib.Tactic.Abel

namespace Spasm.Commit

open Finset

variable {T : Nat}

/-- Inside the critical section. -/
def Pc.crit : Pc → Bool
  | .test _ | .wait _ | .realloc _ | .refresh _ _ | .reserve _ | .enter | .unlock => true
  | _ => false

/-- Counted in `writing`. -/
def Pc.wph : Pc → Bool
  | .unlock | .tag | .write _ | .rowptr | .leave => true
  | _ => false

/-- Number of buffers already reserved for the current row. -/
def Pc.resv (nb : Nat) : Pc → Nat
  | .idle => 0
  | .test b | .wait b | .realloc b | .refresh b _ | .reserve b => b
  | _ => nb

/-- Writes not done yet. -/
def Thread.pend (x : Thread) : List Wr :=
  match x.pc with
  | .write ws => ws
  | .rowptr | .leave => []
  | _ => x.job.ws

def Pc.preTag : Pc → Bool
  | .write _ | .rowptr | .leave => false
  | _ => true

def Pc.preRow : Pc → Bool
  | .leave => false
  | _ => true

def Thread.act (cfg : Cfg) (x : Thread) (i : Nat) : Prop := 0 < x.pc.resv cfg.nb ∧ x.li = i

/-- Contribution of a thread to the difference between the counter of buffer `b` and the total
length of the logged rows. -/
def Thread.debt (cfg : Cfg) (b : Nat) (x : Thread) : Nat :=
  if 0 < x.pc.resv cfg.nb ∧ x.pc.resv cfg.nb ≤ b then x.job.len b else 0

/-- Rows of a thread that are not logged yet. -/
def Thread.unlogged (cfg : Cfg) (x : Thread) : Multiset Job :=
  (if x.pc.crit = true ∧ x.pc.resv cfg.nb = 0 then {x.job} else 0) + (x.todo : Multiset Job)

def Pc.wcount (pc : Pc) : Nat := if pc.wph then 1 else 0

def Thread.bnd (cfg : Cfg) (x : Thread) : Prop :=
  match x.pc with
  | .test b | .wait b | .realloc b | .reserve b => b < cfg.nb
  | .refresh b c => b < cfg.nb ∧ c ≤ cfg.wid b
  | .write ws => ws <:+ x.job.ws
  | _ => True

def Thread.room (used cap : Nat → Nat) (x : Thread) : Prop :=
  match x.pc with
  | .reserve b | .refresh b _ => used b + x.job.len b ≤ cap b
  | _ => True

def Pc.quiet : Pc → Bool
  | .realloc _ | .refresh _ _ => true
  | _ => false

structure TInv (cfg : Cfg) (u0 : Nat → Nat) (lock : Option (Fin T)) (used cap : Nat → Nat)
    (writing : Nat) (log : List Job) (t : Fin T) (x : Thread) : Prop where
  own : 0 < x.pc.resv cfg.nb → log[x.li]? = some x.job ∧
    ∀ b, b < x.pc.resv cfg.nb → x.lo b = start u0 log b x.li
  jok : x.pc ≠ .idle → JobOk cfg x.job
  tok : ∀ j ∈ x.todo, JobOk cfg j
  lockd : x.pc.crit = true → lock = some t
  last : x.pc.crit = true → 0 < x.pc.resv cfg.nb → x.li + 1 = log.length
  bnd : x.bnd cfg
  room : x.room used cap
  quiet : x.pc.quiet = true → writing = 0

structure Inv (cfg : Cfg) (u0 : Nat → Nat) (mem0 : Nat → Nat → Nat → Int) (J : Multiset Job)
    (rs ts : Nat) (s : St T) (log : List Job) : Prop where
  thr : ∀ t, TInv cfg u0 s.lock s.used s.cap s.writing log t (s.th t)
  lockc : ∀ h, s.lock = some h → (s.th h).pc.crit = true
  debt : ∀ b, b < cfg.nb →
    s.used b + ∑ t, (s.th t).debt cfg b = start u0 log b log.length
  room : ∀ b, b < cfg.nb → s.used b ≤ s.cap b
  rows : s.rows = log.length
  ptrs : ∀ b c, b < cfg.nb → c < cfg.wid b → s.ptr b c = s.gen b ∨
    ∃ h c', (s.th h).pc = .refresh b c' ∧ c' ≤ c
  wcount : s.writing = ∑ t, (s.th t).pc.wcount
  jobs : (log : Multiset Job) + ∑ t, (s.th t).unlogged cfg = J
  rsize : s.rowp.size = rs
  tsize : s.tags.size = ts
  inj : ∀ t u i, (s.th t).act cfg i → (s.th u).act cfg i → t = u
  cont : ∀ i j w, log[i]? = some j → w ∈ j.ws →
    s.mem w.b w.c (start u0 log w.b i + w.off) = w.v ∨
      ∃ t, (s.th t).act cfg i ∧ w ∈ (s.th t).pend
  rowp : ∀ i, i < log.length → s.rowp.g (i + 1) = start u0 log 0 (i + 1) ∨
    ∃ t, (s.th t).act cfg i ∧ (s.th t).pc.preRow = true
  tags : ∀ i j, log[i]? = some j → s.tags.g i = j.tag ∨
    ∃ t, (s.th t).act cfg i ∧ (s.th t).pc.preTag = true
  old : ∀ b c k, b < cfg.nb → k < u0 b → s.mem b c k = mem0 b c k
  logok : ∀ j ∈ log, JobOk cfg j
  u0le : ∀ b, b < cfg.nb → u0 b ≤ s.used b

theorem sum_update' {M : Type} [AddCommMonoid M] (th : Fin T → Thread) (t : Fin T) (x : Thread)
    (f : Thread → M) :
    ∑ u, f (Function.update th t x u) + f (th t) = ∑ u, f (th u) + f x := by
  rw [← Finset.add_sum_erase univ _ (mem_univ t), ← Finset.add_sum_erase univ
    (fun t => f (th t)) (mem_univ t)]
  rw [Finset.sum_congr rfl (g := fun u => f (th u))]
  · rw [Function.update_self]; abel
  · intro u hu
    rw [Function.update_of_ne (ne_of_mem_erase hu)]

theorem sum_update_eq {M : Type} [AddCommMonoid M] (th : Fin T → Thread) (t : Fin T) (x : Thread)
    (f : Thread → M) (h : f x = f (th t)) :
    ∑ u, f (Function.update th t x u) = ∑ u, f (th u) := by
  refine Finset.sum_congr rfl fun u _ => ?_
  by_cases hu : u = t
  · subst hu; rw [Function.update_self, h]
  · rw [Function.update_of_ne hu]

theorem start_append {u0 : Nat → Nat} {log : List Job} {j : Job} {b i : Nat}
    (h : i ≤ log.length) : start u0 (log ++ [j]) b i = start u0 log b i := by
  unfold start
  rw [List.take_append_of_le_length h]

theorem start_append_last {u0 : Nat → Nat} {log : List Job} {j : Job} {b : Nat} :
    start u0 (log ++ [j]) b (log.length + 1) = start u0 log b log.length + j.len b := by
  unfold start
  rw [List.take_of_length_le (by simp), List.take_of_length_le (le_refl _)]
  simp; omega

theorem start_succ {u0 : Nat → Nat} {log : List Job} {j : Job} {b i : Nat}
    (h : log[i]? = some j) : start u0 log b (i + 1) = start u0 log b i + j.len b := by
  unfold start
  rw [List.take_add_one, h]
  simp; omega

theorem start_mono {u0 : Nat → Nat} {log : List Job} {b i k : Nat} (h : i ≤ k) :
    start u0 log b i ≤ start u0 log b k := by
  induction k, h using Nat.le_induction with
  | base => exact le_refl _
  | succ k hk ih =>
    refine ih.trans ?_
    cases hl : log[k]? with
    | some j => rw [start_succ hl]; omega
    | none =>
      unfold start
      rw [List.take_add_one, hl]; simp

theorem le_start {u0 : Nat → Nat} {log : List Job} {b i : Nat} : u0 b ≤ start u0 log b i := by
  unfold start; omega

section
variable {cfg : Cfg} {u0 : Nat → Nat} {mem0 : Nat → Nat → Nat → Int} {J : Multiset Job}
  {rs ts : Nat} {s : St T} {log : List Job}

theorem TInv.frame_out {lock lock' : Option (Fin T)} {used used' cap cap' : Nat → Nat}
    {w w' : Nat} {log' : List Job} {u : Fin T} {x : Thread}
    (h : TInv cfg u0 lock used cap w log u x) (hc : x.pc.crit = false)
    (hlog : log' = log ∨ ∃ j, log' = log ++ [j]) :
    TInv cfg u0 lock' used' cap' w' log' u x := by
  refine ⟨?_, h.jok, h.tok, by simp [hc], by simp [hc], h.bnd, ?_, ?_⟩
  · intro h0
    obtain ⟨h1, h2⟩ := h.own h0
    rcases hlog with rfl | ⟨j, rfl⟩
    · exact ⟨h1, h2⟩
    · have hlt : x.li < log.length := by
        rw [List.getElem?_eq_some_iff] at h1; exact h1.1
      refine ⟨?_, fun b hb => ?_⟩
      · rw [List.getElem?_append_left hlt]; exact h1
      · rw [start_append (by omega)]; exact h2 b hb
  · unfold Thread.room
    cases hx : x.pc <;> simp only [hx, Pc.crit] at hc ⊢ <;> cases hc
  · cases hx : x.pc <;> simp only [hx, Pc.crit, Pc.quiet] at hc ⊢ <;> simp at hc ⊢

theorem TInv.frame_in {lock : Option (Fin T)} {used cap : Nat → Nat}
    {w w' : Nat} {u : Fin T} {x : Thread}
    (h : TInv cfg u0 lock used cap w log u x) (hw : w' ≤ w) :
    TInv cfg u0 lock used cap w' log u x :=
  ⟨h.own, h.jok, h.tok, h.lockd, h.last, h.bnd, h.room, fun hq => by have := h.quiet hq; omega⟩

theorem Inv.notcrit (h : Inv cfg u0 mem0 J rs ts s log) {t u : Fin T}
    (ht : (s.th t).pc.crit = true) (hu : u ≠ t) : (s.th u).pc.crit = false := by
  cases hc : (s.th u).pc.crit with
  | false => rfl
  | true =>
    have h1 := (h.thr t).lockd ht
    have h2 := (h.thr u).lockd hc
    rw [h1] at h2; cases h2; exact absurd rfl hu

theorem Inv.notcrit' (h : Inv cfg u0 mem0 J rs ts s log) (hl : s.lock = none) (u : Fin T) :
    (s.th u).pc.crit = false := by
  cases hc : (s.th u).pc.crit with
  | false => rfl
  | true =>
    have h2 := (h.thr u).lockd hc
    rw [hl] at h2; cases h2

theorem debt_pos {b : Nat} (hb : b < cfg.nb) {x : Thread}
    (hx : 0 < x.pc.resv cfg.nb ∧ x.pc.resv cfg.nb ≤ b) : x.pc.crit = true := by
  cases hp : x.pc <;> simp only [hp, Pc.resv, Pc.crit] at hx ⊢ <;> omega

theorem Inv.debt_single (h : Inv cfg u0 mem0 J rs ts s log) {b : Nat} (hb : b < cfg.nb)
    {t : Fin T} (ht : (s.th t).pc.crit = true) :
    ∑ u, (s.th u).debt cfg b = (s.th t).debt cfg b := by
  refine Finset.sum_eq_single t (fun u _ hu => ?_) (fun hn => absurd (mem_univ t) hn)
  unfold Thread.debt
  rw [if_neg]
  intro hd
  have := debt_pos hb hd
  rw [h.notcrit ht hu] at this; cases this

/-- Every logged row is either entirely reserved in buffer `b`, or belongs to the thread in the
critical section. -/
theorem Inv.reserved_or (h : Inv cfg u0 mem0 J rs ts s log) {b i : Nat} (hb : b < cfg.nb)
    (hi : i < log.length) : start u0 log b (i + 1) ≤ s.used b ∨
      ∃ t, (s.th t).act cfg i ∧ (s.th t).pc.crit = true ∧ (s.th t).pc.resv cfg.nb ≤ b := by
  have hd := h.debt b hb
  by_cases hex : ∃ t, 0 < (s.th t).pc.resv cfg.nb ∧ (s.th t).pc.resv cfg.nb ≤ b
  · obtain ⟨t, ht⟩ := hex
    have hc := debt_pos hb ht
    have hl := (h.thr t).last hc ht.1
    by_cases he : i = (s.th t).li
    · exact Or.inr ⟨t, ⟨ht.1, he.symm⟩, hc, ht.2⟩
    · left
      rw [h.debt_single hb hc] at hd
      unfold Thread.debt at hd
      rw [if_pos ht] at hd
      have h1 := ((h.thr t).own ht.1).1
      have h2 := start_succ (u0 := u0) (b := b) h1
      rw [hl] at h2
      have h3 : start u0 log b (i + 1) ≤ start u0 log b (s.th t).li := start_mono (by omega)
      omega
  · left
    have : ∑ t, (s.th t).debt cfg b = 0 := by
      refine Finset.sum_eq_zero fun t _ => ?_
      unfold Thread.debt
      rw [if_neg]
      exact fun hx => hex ⟨t, hx⟩
    have h3 : start u0 log b (i + 1) ≤ start u0 log b log.length := start_mono (by omega)
    omega

/-- Steps that leave the log, the counters and the current row of the thread unchanged. -/
theorem Inv.move (h : Inv cfg u0 mem0 J rs ts s log) {t : Fin T} {x x' : Thread} {s' : St T}
    (hx : s.th t = x)
    (hth : s'.th = Function.update s.th t x')
    (hjob : x'.job = x.job) (htodo : x'.todo = x.todo) (hli : x'.li = x.li)
    (hresv : x'.pc.resv cfg.nb = x.pc.resv cfg.nb)
    (hcr : x.pc.resv cfg.nb = 0 → x'.pc.crit = x.pc.crit)
    (hused : s'.used = s.used) (hrows : s'.rows = s.rows)
    (hT : TInv cfg u0 s'.lock s'.used s'.cap s'.writing log t x')
    (hF : ∀ u, u ≠ t → TInv cfg u0 s'.lock s'.used s'.cap s'.writing log u (s.th u))
    (hlock : ∀ k, s'.lock = some k → (s'.th k).pc.crit = true)
    (hroom : ∀ b, b < cfg.nb → s.cap b ≤ s'.cap b)
    (hptr : ∀ b c, b < cfg.nb → c < cfg.wid b → s'.ptr b c = s'.gen b ∨
      ∃ k c', (s'.th k).pc = .refresh b c' ∧ c' ≤ c)
    (hw : s'.writing + x.pc.wcount = s.writing + x'.pc.wcount)
    (hrs : s'.rowp.size = rs) (hts : s'.tags.size = ts)
    (hcont : ∀ i j w, log[i]? = some j → w ∈ j.ws →
      s.mem w.b w.c (start u0 log w.b i + w.off) = w.v ∨ (x.act cfg i ∧ w ∈ x.pend) →
      s'.mem w.b w.c (start u0 log w.b i + w.off) = w.v ∨ (x'.act cfg i ∧ w ∈ x'.pend))
    (hrowp : ∀ i, i < log.length → s.rowp.g (i + 1) = start u0 log 0 (i + 1) ∨
        (x.act cfg i ∧ x.pc.preRow = true) →
      s'.rowp.g (i + 1) = start u0 log 0 (i + 1) ∨ (x'.act cfg i ∧ x'.pc.preRow = true))
    (htags : ∀ i j, log[i]? = some j → s.tags.g i = j.tag ∨
        (x.act cfg i ∧ x.pc.preTag = true) →
      s'.tags.g i = j.tag ∨ (x'.act cfg i ∧ x'.pc.preTag = true))
    (hold : ∀ b c k, b < cfg.nb → k < u0 b → s'.mem b c k = s.mem b c k) :
    Inv cfg u0 mem0 J rs ts s' log := by
  have hact : ∀ i, x'.act cfg i ↔ x.act cfg i := by
    intro i; unfold Thread.act; rw [hresv, hli]
  have hactu : ∀ u i, (s'.th u).act cfg i ↔ (s.th u).act cfg i := by
    intro u i
    rw [hth]
    by_cases hu : u = t
    · subst hu; rw [Function.update_self, hact, hx]
    · rw [Function.update_of_ne hu]
  have hself : s'.th t = x' := by rw [hth, Function.update_self]
  have hother : ∀ u, u ≠ t → s'.th u = s.th u := fun u hu => by
    rw [hth, Function.update_of_ne hu]
  refine ⟨?_, hlock, ?_, ?_, by rw [hrows, h.rows], hptr, ?_, ?_, hrs, hts, ?_, ?_, ?_, ?_, ?_,
    h.logok, by rw [hused]; exact h.u0le⟩
  · intro u
    by_cases hu : u = t
    · subst hu; rw [hself]; exact hT
    · rw [hother u hu]; exact hF u hu
  · intro b hb
    rw [hused, hth, sum_update_eq]
    · exact h.debt b hb
    · unfold Thread.debt; rw [hx, hresv, hjob]
  · intro b hb
    rw [hused]; exact (h.room b hb).trans (hroom b hb)
  · have := sum_update' s.th t x' (fun y => y.pc.wcount)
    rw [hx] at this
    rw [hth]
    have h2 := h.wcount
    omega
  · rw [hth, sum_update_eq]
    · exact h.jobs
    · unfold Thread.unlogged
      rw [hx, hresv, hjob, htodo]
      by_cases h0 : x.pc.resv cfg.nb = 0
      · rw [hcr h0]
      · simp [h0]
  · intro a b i ha hb
    rw [hactu] at ha hb
    exact h.inj a b i ha hb
  · intro i j w hj hw
    rcases h.cont i j w hj hw with h1 | ⟨u, h1, h2⟩
    · rcases hcont i j w hj hw (Or.inl h1) with h3 | ⟨h3, h4⟩
      · exact Or.inl h3
      · exact Or.inr ⟨t, by rw [hself]; exact h3, by rw [hself]; exact h4⟩
    · by_cases hu : u = t
      · subst hu
        rw [hx] at h1 h2
        rcases hcont i j w hj hw (Or.inr ⟨h1, h2⟩) with h3 | ⟨h3, h4⟩
        · exact Or.inl h3
        · exact Or.inr ⟨u, by rw [hself]; exact h3, by rw [hself]; exact h4⟩
      · exact Or.inr ⟨u, by rw [hother u hu]; exact h1, by rw [hother u hu]; exact h2⟩
  · intro i hi
    rcases h.rowp i hi with h1 | ⟨u, h1, h2⟩
    · rcases hrowp i hi (Or.inl h1) with h3 | ⟨h3, h4⟩
      · exact Or.inl h3
      · exact Or.inr ⟨t, by rw [hself]; exact h3, by rw [hself]; exact h4⟩
    · by_cases hu : u = t
      · subst hu
        rw [hx] at h1 h2
        rcases hrowp i hi (Or.inr ⟨h1, h2⟩) with h3 | ⟨h3, h4⟩
        · exact Or.inl h3
        · exact Or.inr ⟨u, by rw [hself]; exact h3, by rw [hself]; exact h4⟩
      · exact Or.inr ⟨u, by rw [hother u hu]; exact h1, by rw [hother u hu]; exact h2⟩
  · intro i j hj
    rcases h.tags i j hj with h1 | ⟨u, h1, h2⟩
    · rcases htags i j hj (Or.inl h1) with h3 | ⟨h3, h4⟩
      · exact Or.inl h3
      · exact Or.inr ⟨t, by rw [hself]; exact h3, by rw [hself]; exact h4⟩
    · by_cases hu : u = t
      · subst hu
        rw [hx] at h1 h2
        rcases htags i j hj (Or.inr ⟨h1, h2⟩) with h3 | ⟨h3, h4⟩
        · exact Or.inl h3
        · exact Or.inr ⟨u, by rw [hself]; exact h3, by rw [hself]; exact h4⟩
      · exact Or.inr ⟨u, by rw [hother u hu]; exact h1, by rw [hother u hu]; exact h2⟩
  · intro b c k hb hk
    rw [hold b c k hb hk]; exact h.old b c k hb hk

theorem upd_self {α : Type} (f : Nat → α) (k : Nat) (v : α) : upd f k v k = v := by simp [upd]

theorem upd_ne {α : Type} (f : Nat → α) {k i : Nat} (v : α) (h : i ≠ k) : upd f k v i = f i := by
  simp [upd, h]

/-- Moves of the owner of the critical section that only change its program counter. -/
theorem Inv.local_crit (h : Inv cfg u0 mem0 J rs ts s log) {t : Fin T} {pc pc' : Pc} {job : Job}
    {todo : List Job} {li : Nat} {lo : Nat → Nat} (hx : s.th t = ⟨pc, job, todo, li, lo⟩)
    (hresv : pc'.resv cfg.nb = pc.resv cfg.nb) (hcr : pc.crit = true) (hcr' : pc'.crit = true)
    (hwc : pc'.wcount = pc.wcount)
    (hpre : pc.preTag = true) (hpre' : pc'.preTag = true)
    (hpend : Thread.pend ⟨pc', job, todo, li, lo⟩ = Thread.pend ⟨pc, job, todo, li, lo⟩)
    (hidle : pc ≠ .idle)
    (hbnd : Thread.bnd cfg ⟨pc', job, todo, li, lo⟩)
    (hroom : Thread.room s.used s.cap ⟨pc', job, todo, li, lo⟩)
    (hq : pc'.quiet = true → s.writing = 0)
    (hptr : ∀ b c, b < cfg.nb → c < cfg.wid b → s.ptr b c = s.gen b ∨
      ∃ c', pc' = .refresh b c' ∧ c' ≤ c) :
    Inv cfg u0 mem0 J rs ts (s.set t ⟨pc', job, todo, li, lo⟩) log := by
  have hT := h.thr t
  rw [hx] at hT
  have hc : (s.th t).pc.crit = true := by rw [hx]; exact hcr
  have hleave : ∀ p : Pc, p.preTag = true → p.preRow = true := by
    intro p; cases p <;> simp [Pc.preTag, Pc.preRow]
  refine h.move hx rfl rfl rfl rfl hresv (fun _ => by simp only [hcr, hcr']) rfl rfl ?_
    (fun u hu => (h.thr u).frame_in (le_refl _)) ?_ (fun _ _ => le_refl _) ?_ ?_ h.rsize h.tsize
    ?_ ?_ ?_ (fun _ _ _ _ _ => rfl)
  · refine ⟨?_, fun _ => hT.jok hidle, hT.tok, fun _ => hT.lockd hcr, fun _ h0 => ?_, hbnd, hroom,
      hq⟩
    · simp only [hresv]; exact hT.own
    · simp only [hresv] at h0; exact hT.last hcr h0
  · intro k hk
    have hk' : s.lock = some k := hk
    rw [hT.lockd hcr] at hk'
    cases hk'
    simp only [St.set, Function.update_self]; exact hcr'
  · intro b c hb hc
    rcases hptr b c hb hc with h1 | ⟨c', h1, h2⟩
    · exact Or.inl h1
    · exact Or.inr ⟨t, c', by simp only [St.set, Function.update_self]; exact h1, h2⟩
  · simp only [St.set, hwc]
  · intro i j w hj hw hh
    rw [hpend]
    unfold Thread.act at hh ⊢
    simp only [hresv]
    exact hh
  · intro i hi hh
    rcases hh with hh | ⟨hh, -⟩
    · exact Or.inl hh
    · refine Or.inr ⟨?_, hleave _ hpre'⟩
      unfold Thread.act at hh ⊢
      simp only [hresv]; exact hh
  · intro i j hj hh
    rcases hh with hh | ⟨hh, -⟩
    · exact Or.inl hh
    · refine Or.inr ⟨?_, hpre'⟩
      unfold Thread.act at hh ⊢
      simp only [hresv]; exact hh

theorem Inv.ptr_crit (h : Inv cfg u0 mem0 J rs ts s log) {t : Fin T}
    (hc : (s.th t).pc.crit = true) (hn : ∀ b c, (s.th t).pc ≠ .refresh b c) {b c : Nat}
    (hb : b < cfg.nb) (hcw : c < cfg.wid b) : s.ptr b c = s.gen b := by
  rcases h.ptrs b c hb hcw with h1 | ⟨k, c', h1, -⟩
  · exact h1
  · by_cases hk : k = t
    · subst hk; exact absurd h1 (hn b c')
    · have := h.notcrit hc hk
      rw [h1] at this; cases this

theorem Inv.wph_pos (h : Inv cfg u0 mem0 J rs ts s log) {t : Fin T}
    (ht : (s.th t).pc.wph = true) : 0 < s.writing := by
  rw [h.wcount]
  have : (s.th t).pc.wcount ≤ ∑ u, (s.th u).pc.wcount :=
    Finset.single_le_sum (f := fun u => (s.th u).pc.wcount) (fun _ _ => Nat.zero_le _) (mem_univ t)
  have h1 : (s.th t).pc.wcount = 1 := by unfold Pc.wcount; rw [if_pos ht]
  omega

theorem Inv.frame (h : Inv cfg u0 mem0 J rs ts s log) {u : Fin T} {w' : Nat} (hw : w' ≤ s.writing) :
    TInv cfg u0 s.lock s.used s.cap w' log u (s.th u) := (h.thr u).frame_in hw

variable {junk : Nat → Int}

theorem step_test (h : Inv cfg u0 mem0 J rs ts s log) {t : Fin T} {b : Nat} {job : Job}
    {todo : List Job} {li : Nat} {lo : Nat → Nat} (hx : s.th t = ⟨.test b, job, todo, li, lo⟩)
    {r : C (St T)} (hr : step cfg junk t s = some r) :
    Ok r fun s' => Inv cfg u0 mem0 J rs ts s' log := by
  have hT := h.thr t
  rw [hx] at hT
  have hc : (s.th t).pc.crit = true := by rw [hx]; rfl
  have hb : b < cfg.nb := hT.bnd
  have hp : ∀ b c, b < cfg.nb → c < cfg.wid b → s.ptr b c = s.gen b := fun b c hb hcw =>
    h.ptr_crit hc (by rw [hx]; simp) hb hcw
  unfold step at hr
  simp only [hx] at hr
  by_cases hg : s.used b + cfg.need b (job.len b) > s.cap b
  · rw [if_pos hg] at hr
    cases hr
    rw [Ok_ok]
    exact h.local_crit hx rfl rfl rfl rfl rfl rfl rfl (by simp) hb trivial (by simp [Pc.quiet])
      (fun b c hb hcw => Or.inl (hp b c hb hcw))
  · rw [if_neg hg] at hr
    cases hr
    rw [Ok_ok]
    refine h.local_crit hx rfl rfl rfl rfl rfl rfl rfl (by simp) hb ?_ (by simp [Pc.quiet])
      (fun b c hb hcw => Or.inl (hp b c hb hcw))
    show s.used b + job.len b ≤ s.cap b
    have := (hT.jok (by simp)).need b hb
    simp only at this
    omega

theorem step_wait (h : Inv cfg u0 mem0 J rs ts s log) {t : Fin T} {b : Nat} {job : Job}
    {todo : List Job} {li : Nat} {lo : Nat → Nat} (hx : s.th t = ⟨.wait b, job, todo, li, lo⟩)
    {r : C (St T)} (hr : step cfg junk t s = some r) :
    Ok r fun s' => Inv cfg u0 mem0 J rs ts s' log := by
  have hT := h.thr t
  rw [hx] at hT
  have hc : (s.th t).pc.crit = true := by rw [hx]; rfl
  unfold step at hr
  simp only [hx] at hr
  by_cases hg : s.writing > 0
  · rw [if_pos hg] at hr; cases hr; exact h
  · rw [if_neg hg] at hr
    cases hr
    rw [Ok_ok]
    exact h.local_crit hx rfl rfl rfl rfl rfl rfl rfl (by simp) hT.bnd trivial
      (fun _ => by omega)
      (fun b c hb hcw => Or.inl (h.ptr_crit hc (by rw [hx]; simp) hb hcw))

theorem step_realloc (h : Inv cfg u0 mem0 J rs ts s log) {t : Fin T} {b : Nat} {job : Job}
    {todo : List Job} {li : Nat} {lo : Nat → Nat} (hx : s.th t = ⟨.realloc b, job, todo, li, lo⟩)
    {r : C (St T)} (hr : step cfg junk t s = some r) :
    Ok r fun s' => Inv cfg u0 mem0 J rs ts s' log := by
  have hT := h.thr t
  rw [hx] at hT
  have hc : (s.th t).pc.crit = true := by rw [hx]; rfl
  have hb : b < cfg.nb := hT.bnd
  have hgrow := (hT.jok (by simp)).grow b hb (s.cap b)
  simp only at hgrow
  have hu := h.room b hb
  unfold step at hr
  simp only [hx] at hr
  cases hr
  rw [Ok_ok]
  refine h.move (x' := ⟨.refresh b 0, job, todo, li, lo⟩) hx rfl rfl rfl rfl rfl (fun _ => rfl)
    rfl rfl ?_ (fun u hu => (h.thr u).frame_out (h.notcrit hc hu) (Or.inl rfl)) ?_ ?_ ?_ rfl
    h.rsize h.tsize ?_ (fun _ _ hh => hh) (fun _ _ _ hh => hh) ?_
  · refine ⟨hT.own, fun _ => hT.jok (by simp), hT.tok, hT.lockd, hT.last, ⟨hb, Nat.zero_le _⟩, ?_,
      fun _ => hT.quiet rfl⟩
    show s.used b + job.len b ≤ upd s.cap b _ b
    rw [upd_self]; omega
  · intro k hk
    have hk' : s.lock = some k := hk
    rw [hT.lockd rfl] at hk'
    cases hk'
    simp only [St.set, Function.update_self]; rfl
  · intro b' hb'
    show s.cap b' ≤ upd s.cap b _ b'
    by_cases hbb : b' = b
    · subst hbb; rw [upd_self]; omega
    · rw [upd_ne _ _ hbb]
  · intro b' c hb' hcw
    by_cases hbb : b' = b
    · subst hbb
      exact Or.inr ⟨t, 0, by simp only [St.set, Function.update_self], Nat.zero_le _⟩
    · left
      show s.ptr b' c = upd s.gen b _ b'
      rw [upd_ne _ _ hbb]
      exact h.ptr_crit hc (by rw [hx]; simp) hb' hcw
  · intro i j w hj hw hh
    rcases hh with hh | ⟨hh, hh'⟩
    · by_cases hbb : w.b = b
      · have hi : i < log.length := by
          rw [List.getElem?_eq_some_iff] at hj; exact hj.1
        rcases h.reserved_or (b := b) (i := i) hb hi with h1 | ⟨u, hu1, hu2, hu3⟩
        · left
          show upd s.mem b _ w.b w.c _ = w.v
          rw [hbb, upd_self]
          rw [start_succ hj] at h1
          -- the slot is below the old size
          have hlt : w.off < j.len b := by
            have : JobOk cfg j := h.logok j (List.mem_of_getElem? hj)
            rw [← hbb]; exact (this.rng w hw).2.2
          rw [if_pos (by omega), ← hbb]; exact hh
        · right
          have hut : u = t := by
            by_contra hne
            rw [h.notcrit hc hne] at hu2; cases hu2
          subst hut
          rw [hx] at hu1
          refine ⟨hu1, ?_⟩
          have := (hT.own hu1.1).1
          have hli : li = i := hu1.2
          simp only [hli] at this
          rw [hj] at this
          cases this
          exact hw
      · left
        show upd s.mem b _ w.b w.c _ = w.v
        rw [upd_ne _ _ hbb]; exact hh
    · exact Or.inr ⟨hh, hh'⟩
  · intro b' c k hb' hk
    show upd s.mem b _ b' c k = _
    by_cases hbb : b' = b
    · subst hbb
      rw [upd_self, if_pos]
      have := h.u0le b' hb'
      omega
    · rw [upd_ne _ _ hbb]

theorem step_refresh (h : Inv cfg u0 mem0 J rs ts s log) {t : Fin T} {b c : Nat} {job : Job}
    {todo : List Job} {li : Nat} {lo : Nat → Nat} (hx : s.th t = ⟨.refresh b c, job, todo, li, lo⟩)
    {r : C (St T)} (hr : step cfg junk t s = some r) :
    Ok r fun s' => Inv cfg u0 mem0 J rs ts s' log := by
  have hT := h.thr t
  rw [hx] at hT
  have hc : (s.th t).pc.crit = true := by rw [hx]; rfl
  have hb : b < cfg.nb := hT.bnd.1
  have hptr : ∀ b' c', b' < cfg.nb → c' < cfg.wid b' → (b' ≠ b ∨ c' < c) →
      s.ptr b' c' = s.gen b' := by
    intro b' c' hb' hc' hne
    rcases h.ptrs b' c' hb' hc' with h1 | ⟨k, c'', h1, h2⟩
    · exact h1
    · exfalso
      by_cases hk : k = t
      · subst hk
        rw [hx] at h1
        simp only [Pc.refresh.injEq] at h1
        omega
      · have := h.notcrit hc hk
        rw [h1] at this; cases this
  unfold step at hr
  simp only [hx] at hr
  by_cases hg : c < cfg.wid b
  · rw [if_pos hg] at hr
    cases hr
    rw [Ok_ok]
    refine h.move (x' := ⟨.refresh b (c + 1), job, todo, li, lo⟩) hx rfl rfl rfl rfl rfl
      (fun _ => rfl) rfl rfl ?_ (fun u hu => h.frame (le_refl _)) ?_ (fun _ _ => le_refl _) ?_ rfl
      h.rsize h.tsize (fun _ _ _ _ _ hh => hh) (fun _ _ hh => hh) (fun _ _ _ hh => hh)
      (fun _ _ _ _ _ => rfl)
    · exact ⟨hT.own, fun _ => hT.jok (by simp), hT.tok, hT.lockd, hT.last, ⟨hb, hg⟩, hT.room,
        fun _ => hT.quiet rfl⟩
    · intro k hk
      have hk' : s.lock = some k := hk
      rw [hT.lockd rfl] at hk'
      cases hk'
      simp only [St.set, Function.update_self]; rfl
    · intro b' c' hb' hc'
      simp only [St.set]
      by_cases hbb : b' = b
      · subst hbb
        by_cases hcc : c' = c
        · left; subst hcc; rw [upd_self, upd_self]
        · by_cases hlt : c' < c
          · left; rw [upd_self, upd_ne _ _ hcc]; exact hptr b' c' hb' hc' (Or.inr hlt)
          · right
            exact ⟨t, c + 1, by simp only [Function.update_self], by omega⟩
      · left; rw [upd_ne _ _ hbb]; exact hptr b' c' hb' hc' (Or.inl hbb)
  · rw [if_neg hg] at hr
    cases hr
    rw [Ok_ok]
    refine h.local_crit hx rfl rfl rfl rfl rfl rfl rfl (by simp) hb hT.room (by simp [Pc.quiet])
      (fun b' c' hb' hcw => Or.inl (hptr b' c' hb' hcw ?_))
    by_cases hbb : b' = b
    · right; subst hbb; omega
    · exact Or.inl hbb

theorem step_enter (hnb : 0 < cfg.nb) (h : Inv cfg u0 mem0 J rs ts s log) {t : Fin T} {job : Job}
    {todo : List Job} {li : Nat} {lo : Nat → Nat} (hx : s.th t = ⟨.enter, job, todo, li, lo⟩)
    {r : C (St T)} (hr : step cfg junk t s = some r) :
    Ok r fun s' => Inv cfg u0 mem0 J rs ts s' log := by
  have hT := h.thr t
  rw [hx] at hT
  have hc : (s.th t).pc.crit = true := by rw [hx]; rfl
  unfold step at hr
  simp only [hx] at hr
  cases hr
  rw [Ok_ok]
  refine h.move (x' := ⟨.unlock, job, todo, li, lo⟩) hx rfl rfl rfl rfl rfl
    (fun _ => rfl) rfl rfl ?_ (fun u hu => (h.thr u).frame_out (h.notcrit hc hu) (Or.inl rfl))
    ?_ (fun _ _ => le_refl _) ?_ rfl
    h.rsize h.tsize (fun _ _ _ _ _ hh => hh) (fun _ _ hh => hh) (fun _ _ _ hh => hh)
    (fun _ _ _ _ _ => rfl)
  · exact ⟨hT.own, fun _ => hT.jok (by simp), hT.tok, hT.lockd, hT.last, trivial, trivial,
      by simp [Pc.quiet]⟩
  · intro k hk
    have hk' : s.lock = some k := hk
    rw [hT.lockd rfl] at hk'
    cases hk'
    simp only [St.set, Function.update_self]; rfl
  · exact fun b c hb hcw => Or.inl (h.ptr_crit hc (by rw [hx]; simp) hb hcw)

theorem step_unlock (hnb : 0 < cfg.nb) (h : Inv cfg u0 mem0 J rs ts s log) {t : Fin T} {job : Job}
    {todo : List Job} {li : Nat} {lo : Nat → Nat} (hx : s.th t = ⟨.unlock, job, todo, li, lo⟩)
    {r : C (St T)} (hr : step cfg junk t s = some r) :
    Ok r fun s' => Inv cfg u0 mem0 J rs ts s' log := by
  have hT := h.thr t
  rw [hx] at hT
  have hc : (s.th t).pc.crit = true := by rw [hx]; rfl
  unfold step at hr
  simp only [hx] at hr
  cases hr
  rw [Ok_ok]
  refine h.move (x' := ⟨.tag, job, todo, li, lo⟩) hx rfl rfl rfl rfl rfl
    (fun h0 => absurd h0 (by simp [Pc.resv]; omega)) rfl rfl ?_
    (fun u hu => (h.thr u).frame_out (h.notcrit hc hu) (Or.inl rfl))
    ?_ (fun _ _ => le_refl _) ?_ rfl
    h.rsize h.tsize (fun _ _ _ _ _ hh => hh) (fun _ _ hh => hh) (fun _ _ _ hh => hh)
    (fun _ _ _ _ _ => rfl)
  · exact ⟨hT.own, fun _ => hT.jok (by simp), hT.tok, by simp [Pc.crit], by simp [Pc.crit],
      trivial, trivial, by simp [Pc.quiet]⟩
  · intro k hk; cases hk
  · exact fun b c hb hcw => Or.inl (h.ptr_crit hc (by rw [hx]; simp) hb hcw)

/-- Pointers are valid while a thread is writing. -/
theorem Inv.ptr_wph (h : Inv cfg u0 mem0 J rs ts s log) {t : Fin T}
    (ht : (s.th t).pc.wph = true) {b c : Nat} (hb : b < cfg.nb) (hcw : c < cfg.wid b) :
    s.ptr b c = s.gen b := by
  rcases h.ptrs b c hb hcw with h1 | ⟨k, c', h1, -⟩
  · exact h1
  · have h2 := (h.thr k).quiet (by rw [h1]; rfl)
    have h3 := h.wph_pos ht
    omega

theorem Inv.lock_out (h : Inv cfg u0 mem0 J rs ts s log) {t : Fin T} {x' : Thread}
    (ht : (s.th t).pc.crit = false) {k : Fin T} (hk : s.lock = some k) :
    (Function.update s.th t x' k).pc.crit = true := by
  have hkt : k ≠ t := by
    rintro rfl
    rw [h.lockc k hk] at ht; cases ht
  rw [Function.update_of_ne hkt]; exact h.lockc k hk

theorem Inv.reserved (h : Inv cfg u0 mem0 J rs ts s log) {t : Fin T}
    (ht : (s.th t).pc.wph = true) (hnb : 0 < cfg.nb) {b : Nat} (hb : b < cfg.nb) :
    start u0 log b ((s.th t).li + 1) ≤ s.used b := by
  have hr : (s.th t).pc.resv cfg.nb = cfg.nb := by
    cases hp : (s.th t).pc <;> rw [hp] at ht <;> first | rfl | cases ht
  have h0 : 0 < (s.th t).pc.resv cfg.nb := by omega
  have h1 := ((h.thr t).own h0).1
  rcases h.reserved_or hb (i := (s.th t).li) (by rw [List.getElem?_eq_some_iff] at h1; exact h1.1)
    with h2 | ⟨u, hu1, hu2, hu3⟩
  · exact h2
  · have := h.inj u t _ hu1 ⟨h0, rfl⟩
    subst this
    omega

theorem Inv.length_le (h : Inv cfg u0 mem0 J rs ts s log) : log.length ≤ Multiset.card J := by
  rw [← h.jobs, Multiset.card_add, Multiset.coe_card]; omega

theorem step_tag (hnb : 0 < cfg.nb) (hts : Multiset.card J ≤ ts)
    (h : Inv cfg u0 mem0 J rs ts s log) {t : Fin T} {job : Job}
    {todo : List Job} {li : Nat} {lo : Nat → Nat} (hx : s.th t = ⟨.tag, job, todo, li, lo⟩)
    {r : C (St T)} (hr : step cfg junk t s = some r) :
    Ok r fun s' => Inv cfg u0 mem0 J rs ts s' log := by
  have hT := h.thr t
  rw [hx] at hT
  have hc : (s.th t).pc.crit = false := by rw [hx]; rfl
  have hown := (hT.own hnb).1
  simp only at hown
  have hlt : li < log.length := by rw [List.getElem?_eq_some_iff] at hown; exact hown.1
  have hsz : li < s.tags.size := by have := h.length_le; rw [h.tsize]; omega
  unfold step at hr
  simp only [hx] at hr
  cases hr
  rw [Ok_bind, Ok_wr]
  refine ⟨hsz, ?_⟩
  rw [Ok_ok]
  refine h.move (x' := ⟨.write job.ws, job, todo, li, lo⟩) hx rfl rfl rfl rfl rfl
    (fun h0 => absurd h0 (by simp [Pc.resv]; omega)) rfl rfl ?_
    (fun u hu => h.frame (le_refl _))
    (fun k hk => h.lock_out hc hk) (fun _ _ => le_refl _) ?_ rfl
    h.rsize (by simp only [size_upd]; exact h.tsize) (fun _ _ _ _ _ hh => hh) (fun _ _ hh => hh) ?_
    (fun _ _ _ _ _ => rfl)
  · exact ⟨hT.own, fun _ => hT.jok (by simp), hT.tok, by simp [Pc.crit], by simp [Pc.crit],
      List.suffix_refl _, trivial, by simp [Pc.quiet]⟩
  · exact fun b c hb hcw => Or.inl (h.ptr_wph (t := t) (by rw [hx]; rfl) hb hcw)
  · intro i j hj hh
    left
    show (s.tags.upd li job.tag).g i = j.tag
    by_cases hi : i = li
    · subst hi
      rw [g_upd_eq _ _ _ hsz]
      rw [hj] at hown; cases hown; rfl
    · rw [g_upd_ne _ _ _ _ hi]
      rcases hh with hh | ⟨hh, -⟩
      · exact hh
      · exact absurd hh.2.symm hi

theorem step_write_nil (hnb : 0 < cfg.nb) (h : Inv cfg u0 mem0 J rs ts s log) {t : Fin T}
    {job : Job} {todo : List Job} {li : Nat} {lo : Nat → Nat}
    (hx : s.th t = ⟨.write [], job, todo, li, lo⟩)
    {r : C (St T)} (hr : step cfg junk t s = some r) :
    Ok r fun s' => Inv cfg u0 mem0 J rs ts s' log := by
  have hT := h.thr t
  rw [hx] at hT
  have hc : (s.th t).pc.crit = false := by rw [hx]; rfl
  unfold step at hr
  simp only [hx] at hr
  cases hr
  rw [Ok_ok]
  refine h.move (x' := ⟨.rowptr, job, todo, li, lo⟩) hx rfl rfl rfl rfl rfl
    (fun h0 => absurd h0 (by simp [Pc.resv]; omega)) rfl rfl ?_
    (fun u hu => h.frame (le_refl _))
    (fun k hk => h.lock_out hc hk) (fun _ _ => le_refl _) ?_ rfl
    h.rsize h.tsize (fun _ _ _ _ _ hh => hh) (fun _ _ hh => hh) (fun _ _ _ hh => hh)
    (fun _ _ _ _ _ => rfl)
  · exact ⟨hT.own, fun _ => hT.jok (by simp), hT.tok, by simp [Pc.crit], by simp [Pc.crit],
      trivial, trivial, by simp [Pc.quiet]⟩
  · exact fun b c hb hcw => Or.inl (h.ptr_wph (t := t) (by rw [hx]; rfl) hb hcw)

theorem step_write_cons (hnb : 0 < cfg.nb) (h : Inv cfg u0 mem0 J rs ts s log) {t : Fin T}
    {w : Wr} {ws : List Wr} {job : Job} {todo : List Job} {li : Nat} {lo : Nat → Nat}
    (hx : s.th t = ⟨.write (w :: ws), job, todo, li, lo⟩)
    {r : C (St T)} (hr : step cfg junk t s = some r) :
    Ok r fun s' => Inv cfg u0 mem0 J rs ts s' log := by
  have hT := h.thr t
  rw [hx] at hT
  have hc : (s.th t).pc.crit = false := by rw [hx]; rfl
  have hwph : (s.th t).pc.wph = true := by rw [hx]; rfl
  have hjok := hT.jok (by simp)
  have hsuf : w :: ws <:+ job.ws := hT.bnd
  have hwm : w ∈ job.ws := hsuf.subset List.mem_cons_self
  obtain ⟨hwb, hwc, hwo⟩ := hjok.rng w hwm
  simp only at hwo
  have hlo : lo w.b = start u0 log w.b li := (hT.own hnb).2 w.b hwb
  have hown := (hT.own hnb).1
  simp only at hown
  have hres := h.reserved hwph hnb hwb
  rw [hx] at hres
  simp only at hres
  rw [start_succ hown] at hres
  have hroom := h.room w.b hwb
  unfold step at hr
  simp only [hx] at hr
  rw [if_pos ⟨h.ptr_wph hwph hwb hwc, by omega⟩] at hr
  cases hr
  rw [Ok_ok]
  refine h.move (x' := ⟨.write ws, job, todo, li, lo⟩) hx rfl rfl rfl rfl rfl
    (fun h0 => absurd h0 (by simp [Pc.resv]; omega)) rfl rfl ?_
    (fun u hu => h.frame (le_refl _))
    (fun k hk => h.lock_out hc hk) (fun _ _ => le_refl _) ?_ rfl
    h.rsize h.tsize ?_ (fun _ _ hh => hh) (fun _ _ _ hh => hh) ?_
  · exact ⟨hT.own, fun _ => hT.jok (by simp), hT.tok, by simp [Pc.crit], by simp [Pc.crit],
      (List.suffix_cons w ws).trans hsuf, trivial, by simp [Pc.quiet]⟩
  · exact fun b c hb hcw => Or.inl (h.ptr_wph hwph hb hcw)
  · intro i j v hj hv hh
    show upd s.mem w.b _ v.b v.c _ = v.v ∨ _
    have hjv := h.logok j (List.mem_of_getElem? hj)
    obtain ⟨hvb, hvc, hvo⟩ := hjv.rng v hv
    by_cases hslot : v.b = w.b ∧ v.c = w.c ∧ start u0 log v.b i + v.off = lo w.b + w.off
    · -- same slot: same row, same write
      obtain ⟨e1, e2, e3⟩ := hslot
      have hii : i = li := by
        by_contra hne
        rw [hlo, e1] at e3
        rw [e1] at hvo
        rcases Nat.lt_or_gt_of_ne hne with hlt | hlt
        · have h1 := start_mono (u0 := u0) (log := log) (b := w.b) (show i + 1 ≤ li from hlt)
          rw [start_succ hj] at h1; omega
        · have h1 := start_mono (u0 := u0) (log := log) (b := w.b) (show li + 1 ≤ i from hlt)
          rw [start_succ hown] at h1; omega
      subst hii
      rw [hj] at hown; cases hown
      have hoff : v.off = w.off := by rw [hlo, e1] at e3; omega
      have hkey : v = w := by
        have hnd := hjok.nodup
        have := List.inj_on_of_nodup_map hnd hv hwm
          (by simp only [e1, hoff, e2])
        exact this
      left
      subst hkey
      rw [upd_self, upd_self, hlo, upd_self]
    · have hmem : upd s.mem w.b (upd (s.mem w.b) w.c (upd (s.mem w.b w.c) (lo w.b + w.off) w.v))
          v.b v.c (start u0 log v.b i + v.off) = s.mem v.b v.c (start u0 log v.b i + v.off) := by
        by_cases e1 : v.b = w.b
        · rw [e1, upd_self]
          by_cases e2 : v.c = w.c
          · rw [e2, upd_self, upd_ne]
            intro e3
            exact hslot ⟨e1, e2, by rw [e1]; exact e3⟩
          · rw [upd_ne _ _ e2]
        · rw [upd_ne _ _ e1]
      rw [hmem]
      rcases hh with hh | ⟨hh, hh'⟩
      · exact Or.inl hh
      · have hh2 : v ∈ w :: ws := hh'
        rcases List.mem_cons.mp hh2 with rfl | hh2
        · exfalso
          refine hslot ⟨rfl, rfl, ?_⟩
          have : li = i := hh.2
          rw [hlo, this]
        · exact Or.inr ⟨hh, hh2⟩
  · intro b c k hb hk
    show upd s.mem w.b _ b c k = _
    by_cases e1 : b = w.b
    · subst e1
      rw [upd_self]
      by_cases e2 : c = w.c
      · subst e2
        rw [upd_self, upd_ne]
        have := le_start (u0 := u0) (log := log) (b := w.b) (i := li)
        omega
      · rw [upd_ne _ _ e2]
    · rw [upd_ne _ _ e1]

theorem step_rowptr (hnb : 0 < cfg.nb) (hrs : Multiset.card J < rs)
    (h : Inv cfg u0 mem0 J rs ts s log) {t : Fin T} {job : Job}
    {todo : List Job} {li : Nat} {lo : Nat → Nat} (hx : s.th t = ⟨.rowptr, job, todo, li, lo⟩)
    {r : C (St T)} (hr : step cfg junk t s = some r) :
    Ok r fun s' => Inv cfg u0 mem0 J rs ts s' log := by
  have hT := h.thr t
  rw [hx] at hT
  have hc : (s.th t).pc.crit = false := by rw [hx]; rfl
  have hown := (hT.own hnb).1
  simp only at hown
  have hlt : li < log.length := by rw [List.getElem?_eq_some_iff] at hown; exact hown.1
  have hsz : li + 1 < s.rowp.size := by have := h.length_le; rw [h.rsize]; omega
  have hlo : lo 0 = start u0 log 0 li := (hT.own hnb).2 0 hnb
  have hem := (hT.jok (by simp)).cnt
  simp only at hem
  unfold step at hr
  simp only [hx] at hr
  cases hr
  rw [Ok_bind, Ok_wr]
  refine ⟨hsz, ?_⟩
  rw [Ok_ok]
  refine h.move (x' := ⟨.leave, job, todo, li, lo⟩) hx rfl rfl rfl rfl rfl
    (fun h0 => absurd h0 (by simp [Pc.resv]; omega)) rfl rfl ?_
    (fun u hu => h.frame (le_refl _))
    (fun k hk => h.lock_out hc hk) (fun _ _ => le_refl _) ?_ rfl
    (by simp only [size_upd]; exact h.rsize) h.tsize (fun _ _ _ _ _ hh => hh) ?_
    (fun _ _ _ hh => hh) (fun _ _ _ _ _ => rfl)
  · exact ⟨hT.own, fun _ => hT.jok (by simp), hT.tok, by simp [Pc.crit], by simp [Pc.crit],
      trivial, trivial, by simp [Pc.quiet]⟩
  · exact fun b c hb hcw => Or.inl (h.ptr_wph (t := t) (by rw [hx]; rfl) hb hcw)
  · intro i hi hh
    left
    show (s.rowp.upd (li + 1) (lo 0 + job.emitted)).g (i + 1) = _
    by_cases hii : i = li
    · subst hii
      rw [g_upd_eq _ _ _ hsz, start_succ hown, hlo, hem]
    · rw [g_upd_ne _ _ _ _ (by omega)]
      rcases hh with hh | ⟨hh, -⟩
      · exact hh
      · exact absurd hh.2.symm hii

theorem step_leave (hnb : 0 < cfg.nb) (h : Inv cfg u0 mem0 J rs ts s log) {t : Fin T} {job : Job}
    {todo : List Job} {li : Nat} {lo : Nat → Nat} (hx : s.th t = ⟨.leave, job, todo, li, lo⟩)
    {r : C (St T)} (hr : step cfg junk t s = some r) :
    Ok r fun s' => Inv cfg u0 mem0 J rs ts s' log := by
  have hT := h.thr t
  rw [hx] at hT
  have hc : (s.th t).pc.crit = false := by rw [hx]; rfl
  have hwph : (s.th t).pc.wph = true := by rw [hx]; rfl
  have hpos := h.wph_pos hwph
  unfold step at hr
  simp only [hx] at hr
  cases hr
  rw [Ok_ok]
  have hact : ∀ u i, (Function.update s.th t ⟨.idle, job, todo, li, lo⟩ u).act cfg i →
      u ≠ t ∧ (s.th u).act cfg i := by
    intro u i hu
    by_cases hut : u = t
    · subst hut; rw [Function.update_self] at hu
      exact absurd hu.1 (by simp [Pc.resv])
    · rw [Function.update_of_ne hut] at hu; exact ⟨hut, hu⟩
  refine ⟨?_, fun k hk => h.lock_out hc hk, ?_, h.room, h.rows, ?_, ?_, ?_, h.rsize, h.tsize,
    ?_, ?_, ?_, ?_, h.old, h.logok, h.u0le⟩
  · intro u
    simp only [St.set]
    by_cases hut : u = t
    · subst hut; rw [Function.update_self]
      exact ⟨by simp [Pc.resv], by simp, hT.tok, by simp [Pc.crit], by simp [Pc.crit], trivial,
        trivial, by simp [Pc.quiet]⟩
    · rw [Function.update_of_ne hut]; exact h.frame (by omega)
  · intro b hb
    simp only [St.set]
    rw [sum_update_eq _ _ _ (Thread.debt cfg b)]
    · exact h.debt b hb
    · rw [hx]
      unfold Thread.debt
      simp only [Pc.resv]
      have : ¬ (0 < cfg.nb ∧ cfg.nb ≤ b) := by omega
      simp [this]
  · exact fun b c hb hcw => Or.inl (h.ptr_wph hwph hb hcw)
  · simp only [St.set]
    have h1 := sum_update' s.th t ⟨.idle, job, todo, li, lo⟩ (fun y => y.pc.wcount)
    rw [hx] at h1
    have h2 := h.wcount
    simp only [Pc.wcount, Pc.wph] at h1 h2 ⊢
    simp only [if_true, Bool.false_eq_true, if_false] at h1
    omega
  · simp only [St.set]
    rw [sum_update_eq _ _ _ (Thread.unlogged cfg)]
    · exact h.jobs
    · rw [hx]; unfold Thread.unlogged; simp [Pc.crit]
  · intro a b i ha hb
    exact h.inj a b i (hact a i ha).2 (hact b i hb).2
  · intro i j w hj hw
    rcases h.cont i j w hj hw with h1 | ⟨u, h1, h2⟩
    · exact Or.inl h1
    · right
      have hut : u ≠ t := by rintro rfl; rw [hx] at h2; simp [Thread.pend] at h2
      exact ⟨u, by simp only [St.set]; rw [Function.update_of_ne hut]; exact h1,
        by simp only [St.set]; rw [Function.update_of_ne hut]; exact h2⟩
  · intro i hi
    rcases h.rowp i hi with h1 | ⟨u, h1, h2⟩
    · exact Or.inl h1
    · right
      have hut : u ≠ t := by rintro rfl; rw [hx] at h2; simp [Pc.preRow] at h2
      exact ⟨u, by simp only [St.set]; rw [Function.update_of_ne hut]; exact h1,
        by simp only [St.set]; rw [Function.update_of_ne hut]; exact h2⟩
  · intro i j hj
    rcases h.tags i j hj with h1 | ⟨u, h1, h2⟩
    · exact Or.inl h1
    · right
      have hut : u ≠ t := by rintro rfl; rw [hx] at h2; simp [Pc.preTag] at h2
      exact ⟨u, by simp only [St.set]; rw [Function.update_of_ne hut]; exact h1,
        by simp only [St.set]; rw [Function.update_of_ne hut]; exact h2⟩

theorem step_idle (hnb : 0 < cfg.nb) (h : Inv cfg u0 mem0 J rs ts s log) {t : Fin T} {job : Job}
    {todo : List Job} {li : Nat} {lo : Nat → Nat} (hx : s.th t = ⟨.idle, job, todo, li, lo⟩)
    {r : C (St T)} (hr : step cfg junk t s = some r) :
    Ok r fun s' => Inv cfg u0 mem0 J rs ts s' log := by
  have hT := h.thr t
  rw [hx] at hT
  have hc : (s.th t).pc.crit = false := by rw [hx]; rfl
  unfold step at hr
  simp only [hx] at hr
  cases todo with
  | nil => cases hr
  | cons j js =>
    simp only at hr
    cases hl : s.lock with
    | some k => rw [hl] at hr; cases hr
    | none =>
      rw [hl] at hr
      cases hr
      rw [Ok_ok]
      have hout := h.notcrit' hl
      have hact : ∀ u i, (Function.update s.th t ⟨.test 0, j, js, li, lo⟩ u).act cfg i →
          u ≠ t ∧ (s.th u).act cfg i := by
        intro u i hu
        by_cases hut : u = t
        · subst hut; rw [Function.update_self] at hu
          exact absurd hu.1 (by simp [Pc.resv])
        · rw [Function.update_of_ne hut] at hu; exact ⟨hut, hu⟩
      have hnact : ∀ u i, (s.th u).act cfg i → u ≠ t := by
        rintro u i hu rfl
        rw [hx] at hu
        exact absurd hu.1 (by simp [Pc.resv])
      refine ⟨?_, ?_, ?_, h.room, h.rows, ?_, ?_, ?_, h.rsize, h.tsize,
        ?_, ?_, ?_, ?_, h.old, h.logok, h.u0le⟩
      · intro u
        simp only [St.set]
        by_cases hut : u = t
        · subst hut; rw [Function.update_self]
          exact ⟨by simp [Pc.resv], fun _ => hT.tok j List.mem_cons_self,
            fun j' hj' => hT.tok j' (List.mem_cons_of_mem _ hj'), fun _ => rfl, by simp [Pc.resv],
            hnb, trivial, by simp [Pc.quiet]⟩
        · rw [Function.update_of_ne hut]; exact (h.thr u).frame_out (hout u) (Or.inl rfl)
      · intro k hk
        simp only [Option.some.injEq] at hk
        subst hk
        simp only [St.set, Function.update_self]; rfl
      · intro b hb
        simp only [St.set]
        rw [sum_update_eq _ _ _ (Thread.debt cfg b)]
        · exact h.debt b hb
        · rw [hx]
          unfold Thread.debt
          simp [Pc.resv]
      · intro b c hb hcw
        rcases h.ptrs b c hb hcw with h1 | ⟨k, c', h1, -⟩
        · exact Or.inl h1
        · have := hout k
          rw [h1] at this; cases this
      · simp only [St.set]
        rw [sum_update_eq _ _ _ (fun y => y.pc.wcount)]
        · exact h.wcount
        · rw [hx]; rfl
      · have h1 := h.jobs
        simp only [St.set]
        rw [sum_update_eq _ _ _ (Thread.unlogged cfg)]
        · exact h.jobs
        · rw [hx]; unfold Thread.unlogged; simp [Pc.crit, Pc.resv]
      · intro a b i ha hb
        exact h.inj a b i (hact a i ha).2 (hact b i hb).2
      · intro i j w hj hw
        rcases h.cont i j w hj hw with h1 | ⟨u, h1, h2⟩
        · exact Or.inl h1
        · right
          have hut := hnact u i h1
          exact ⟨u, by simp only [St.set]; rw [Function.update_of_ne hut]; exact h1,
            by simp only [St.set]; rw [Function.update_of_ne hut]; exact h2⟩
      · intro i hi
        rcases h.rowp i hi with h1 | ⟨u, h1, h2⟩
        · exact Or.inl h1
        · right
          have hut := hnact u i h1
          exact ⟨u, by simp only [St.set]; rw [Function.update_of_ne hut]; exact h1,
            by simp only [St.set]; rw [Function.update_of_ne hut]; exact h2⟩
      · intro i j hj
        rcases h.tags i j hj with h1 | ⟨u, h1, h2⟩
        · exact Or.inl h1
        · right
          have hut := hnact u i h1
          exact ⟨u, by simp only [St.set]; rw [Function.update_of_ne hut]; exact h1,
            by simp only [St.set]; rw [Function.update_of_ne hut]; exact h2⟩

theorem nextBuf_facts (cfg : Cfg) {b : Nat} (hb : b < cfg.nb) :
    (nextBuf cfg b).resv cfg.nb = b + 1 ∧ (nextBuf cfg b).crit = true ∧
    (nextBuf cfg b).wcount = 0 ∧ (nextBuf cfg b).preTag = true ∧ (nextBuf cfg b).preRow = true ∧
    (nextBuf cfg b).quiet = false ∧ nextBuf cfg b ≠ .idle ∧
    (∀ job todo li lo, Thread.pend ⟨nextBuf cfg b, job, todo, li, lo⟩ = job.ws) ∧
    (∀ job todo li lo, Thread.bnd cfg ⟨nextBuf cfg b, job, todo, li, lo⟩) ∧
    (∀ used cap job todo li lo, Thread.room used cap ⟨nextBuf cfg b, job, todo, li, lo⟩) := by
  unfold nextBuf
  by_cases h : b + 1 < cfg.nb
  · simp [h, Pc.resv, Pc.crit, Pc.wcount, Pc.wph, Pc.preTag, Pc.preRow, Pc.quiet, Thread.pend,
      Thread.bnd, Thread.room]
  · simp [h, Pc.resv, Pc.crit, Pc.wcount, Pc.wph, Pc.preTag, Pc.preRow, Pc.quiet, Thread.pend,
      Thread.bnd, Thread.room]; omega

theorem step_reserve_zero (h : Inv cfg u0 mem0 J rs ts s log) {t : Fin T}
    {job : Job} {todo : List Job} {li : Nat} {lo : Nat → Nat}
    (hx : s.th t = ⟨.reserve 0, job, todo, li, lo⟩)
    {r : C (St T)} (hr : step cfg junk t s = some r) :
    Ok r fun s' => Inv cfg u0 mem0 J rs ts s' (log ++ [job]) := by
  have hT := h.thr t
  rw [hx] at hT
  have hc : (s.th t).pc.crit = true := by rw [hx]; rfl
  have hb : 0 < cfg.nb := hT.bnd
  obtain ⟨f1, f2, f3, f4, f5, f6, f7, f8, f9, f10⟩ := nextBuf_facts cfg hb
  have hroom : s.used 0 + job.len 0 ≤ s.cap 0 := hT.room
  have hd0 := h.debt 0 hb
  have hz : ∑ u, (s.th u).debt cfg 0 = 0 := by
    refine Finset.sum_eq_zero fun u _ => ?_
    unfold Thread.debt; rw [if_neg (by omega)]
  unfold step at hr
  simp only [hx] at hr
  rw [if_pos trivial] at hr
  cases hr
  rw [Ok_ok]
  generalize hnp : nextBuf cfg 0 = np at *
  have hli : ∀ u i, (s.th u).act cfg i → i < log.length := by
    intro u i hu
    have := ((h.thr u).own hu.1).1
    rw [hu.2, List.getElem?_eq_some_iff] at this
    exact this.1
  have hnact : ∀ u i, (s.th u).act cfg i → u ≠ t := by
    rintro u i hu rfl
    rw [hx] at hu
    exact absurd hu.1 (by simp [Pc.resv])
  have hself : ∀ i, (Thread.mk np job todo s.rows (upd lo 0 (s.used 0))).act cfg i ↔
      i = log.length := by
    intro i
    unfold Thread.act
    simp only [f1, h.rows]
    omega
  have hnew : ∀ i j, (log ++ [job])[i]? = some j → (i < log.length ∧ log[i]? = some j) ∨
      (i = log.length ∧ j = job) := by
    intro i j hj
    by_cases hi : i < log.length
    · rw [List.getElem?_append_left hi] at hj; exact Or.inl ⟨hi, hj⟩
    · rw [List.getElem?_append_right (by omega)] at hj
      right
      have : i - log.length = 0 := by
        rw [List.getElem?_eq_some_iff] at hj
        obtain ⟨h1, -⟩ := hj
        simp at h1; omega
      rw [this] at hj
      simp at hj
      exact ⟨by omega, hj.symm⟩
  refine ⟨?_, ?_, ?_, ?_, ?_, ?_, ?_, ?_, h.rsize, h.tsize, ?_, ?_, ?_, ?_, h.old, ?_, ?_⟩
  · intro u
    simp only [St.set]
    by_cases hut : u = t
    · subst hut; rw [Function.update_self]
      refine ⟨?_, fun _ => hT.jok (by simp), hT.tok, fun _ => hT.lockd rfl, ?_, f9 _ _ _ _,
        f10 _ _ _ _ _ _, by simp [f6]⟩
      · intro _
        simp only [f1, h.rows]
        refine ⟨by simp, fun b hb' => ?_⟩
        have : b = 0 := by omega
        subst this
        rw [upd_self, start_append (le_refl _)]
        omega
      · intro _ _
        simp only [h.rows, List.length_append, List.length_singleton]
    · rw [Function.update_of_ne hut]
      exact (h.thr u).frame_out (h.notcrit hc hut) (Or.inr ⟨job, rfl⟩)
  · intro k hk
    have hk' : s.lock = some k := hk
    rw [hT.lockd rfl] at hk'
    cases hk'
    simp only [St.set, Function.update_self]; exact f2
  · intro b hb'
    simp only [St.set, List.length_append, List.length_singleton]
    rw [start_append_last]
    have h1 := sum_update' s.th t ⟨np, job, todo, s.rows, upd lo 0 (s.used 0)⟩
      (Thread.debt cfg b)
    rw [hx] at h1
    have h2 := h.debt b hb'
    have e1 : Thread.debt cfg b ⟨.reserve 0, job, todo, li, lo⟩ = 0 := by
      unfold Thread.debt; simp [Pc.resv]
    have e2 : Thread.debt cfg b ⟨np, job, todo, s.rows, upd lo 0 (s.used 0)⟩ =
        if 1 ≤ b then job.len b else 0 := by
      unfold Thread.debt; simp only [f1]; simp
    rw [e1, e2] at h1
    by_cases hbz : b = 0
    · subst hbz
      rw [upd_self]
      rw [if_neg (by omega)] at h1
      omega
    · rw [upd_ne _ _ hbz]
      rw [if_pos (by omega)] at h1
      omega
  · intro b hb'
    show upd s.used 0 _ b ≤ s.cap b
    by_cases hbz : b = 0
    · subst hbz; rw [upd_self]; exact hroom
    · rw [upd_ne _ _ hbz]; exact h.room b hb'
  · simp only [St.set, h.rows, List.length_append, List.length_singleton]
  · exact fun b c hb hcw => Or.inl (h.ptr_crit hc (by rw [hx]; simp) hb hcw)
  · simp only [St.set]
    rw [sum_update_eq _ _ _ (fun y => y.pc.wcount)]
    · exact h.wcount
    · rw [hx]; exact f3
  · have h1 := h.jobs
    simp only [St.set]
    have h2 := sum_update' s.th t ⟨np, job, todo, s.rows, upd lo 0 (s.used 0)⟩
      (Thread.unlogged cfg)
    rw [hx] at h2
    have e1 : Thread.unlogged cfg ⟨.reserve 0, job, todo, li, lo⟩ = {job} + (todo : Multiset Job) := by
      unfold Thread.unlogged; simp [Pc.crit, Pc.resv]
    have e2 : Thread.unlogged cfg ⟨np, job, todo, s.rows, upd lo 0 (s.used 0)⟩ =
        (todo : Multiset Job) := by
      unfold Thread.unlogged; simp [f1]
    rw [e1, e2, ← add_assoc] at h2
    have h3 := add_right_cancel h2
    rw [← h1, ← h3, ← Multiset.coe_add, Multiset.coe_singleton]
    abel
  · intro a b i ha hb'
    simp only [St.set] at ha hb'
    by_cases h1 : a = t <;> by_cases h2 : b = t
    · rw [h1, h2]
    · subst h1
      rw [Function.update_self, hself] at ha
      rw [Function.update_of_ne h2] at hb'
      have := hli b i hb'; omega
    · subst h2
      rw [Function.update_self, hself] at hb'
      rw [Function.update_of_ne h1] at ha
      have := hli a i ha; omega
    · rw [Function.update_of_ne h1] at ha
      rw [Function.update_of_ne h2] at hb'
      exact h.inj a b i ha hb'
  · intro i j w hj hw
    rcases hnew i j hj with ⟨hi, hj'⟩ | ⟨hi, rfl⟩
    · rw [start_append (by omega)]
      rcases h.cont i j w hj' hw with h1 | ⟨u, h1, h2⟩
      · exact Or.inl h1
      · right
        have hut := hnact u i h1
        exact ⟨u, by simp only [St.set]; rw [Function.update_of_ne hut]; exact h1,
          by simp only [St.set]; rw [Function.update_of_ne hut]; exact h2⟩
    · right
      refine ⟨t, ?_, ?_⟩
      · simp only [St.set, Function.update_self]; rw [hself]; exact hi
      · simp only [St.set, Function.update_self]; rw [f8]; exact hw
  · intro i hi
    simp only [List.length_append, List.length_singleton] at hi
    by_cases hi' : i < log.length
    · rw [start_append (by omega)]
      rcases h.rowp i hi' with h1 | ⟨u, h1, h2⟩
      · exact Or.inl h1
      · right
        have hut := hnact u i h1
        exact ⟨u, by simp only [St.set]; rw [Function.update_of_ne hut]; exact h1,
          by simp only [St.set]; rw [Function.update_of_ne hut]; exact h2⟩
    · right
      refine ⟨t, ?_, ?_⟩
      · simp only [St.set, Function.update_self]; rw [hself]; omega
      · simp only [St.set, Function.update_self]; exact f5
  · intro i j hj
    rcases hnew i j hj with ⟨hi, hj'⟩ | ⟨hi, rfl⟩
    · rcases h.tags i j hj' with h1 | ⟨u, h1, h2⟩
      · exact Or.inl h1
      · right
        have hut := hnact u i h1
        exact ⟨u, by simp only [St.set]; rw [Function.update_of_ne hut]; exact h1,
          by simp only [St.set]; rw [Function.update_of_ne hut]; exact h2⟩
    · right
      refine ⟨t, ?_, ?_⟩
      · simp only [St.set, Function.update_self]; rw [hself]; exact hi
      · simp only [St.set, Function.update_self]; exact f4
  · intro j hj
    rcases List.mem_append.mp hj with hj | hj
    · exact h.logok j hj
    · rw [List.mem_singleton] at hj
      rw [hj]; exact hT.jok (by simp)
  · intro b hb'
    show u0 b ≤ upd s.used 0 _ b
    have := h.u0le b hb'
    by_cases hbz : b = 0
    · subst hbz; rw [upd_self]; omega
    · rw [upd_ne _ _ hbz]; exact this

theorem step_reserve_succ (h : Inv cfg u0 mem0 J rs ts s log) {t : Fin T} {b0 : Nat}
    {job : Job} {todo : List Job} {li : Nat} {lo : Nat → Nat} (h0 : b0 ≠ 0)
    (hx : s.th t = ⟨.reserve b0, job, todo, li, lo⟩)
    {r : C (St T)} (hr : step cfg junk t s = some r) :
    Ok r fun s' => Inv cfg u0 mem0 J rs ts s' log := by
  have hT := h.thr t
  rw [hx] at hT
  have hc : (s.th t).pc.crit = true := by rw [hx]; rfl
  have hb : b0 < cfg.nb := hT.bnd
  obtain ⟨f1, f2, f3, f4, f5, f6, f7, f8, f9, f10⟩ := nextBuf_facts cfg hb
  have hroom : s.used b0 + job.len b0 ≤ s.cap b0 := hT.room
  have hown := hT.own (by simp only [Pc.resv]; omega)
  have hlast := hT.last rfl (by simp only [Pc.resv]; omega)
  simp only [Pc.resv] at hown hlast
  unfold step at hr
  simp only [hx] at hr
  rw [if_neg h0] at hr
  cases hr
  rw [Ok_ok]
  generalize hnp : nextBuf cfg b0 = np at *
  have hsd : ∀ b, b < cfg.nb → s.used b + (if b0 ≤ b then job.len b else 0) =
      start u0 log b log.length := by
    intro b hb'
    have h1 := h.debt b hb'
    rw [h.debt_single hb' hc, hx] at h1
    unfold Thread.debt at h1
    simp only [Pc.resv] at h1
    have hiff : (0 < b0 ∧ b0 ≤ b) ↔ b0 ≤ b := by omega
    simp only [hiff] at h1
    exact h1
  have hact : ∀ u i, (Function.update s.th t ⟨np, job, todo, li, upd lo b0 (s.used b0)⟩ u).act cfg i
      ↔ (s.th u).act cfg i := by
    intro u i
    by_cases hut : u = t
    · subst hut; rw [Function.update_self, hx]
      unfold Thread.act
      have e : Pc.resv cfg.nb (.reserve b0) = b0 := rfl
      simp only [f1, e]
      constructor <;> rintro ⟨-, h2⟩ <;> exact ⟨by omega, h2⟩
    · rw [Function.update_of_ne hut]
  refine ⟨?_, ?_, ?_, ?_, h.rows, ?_, ?_, ?_, h.rsize, h.tsize, ?_, ?_, ?_, ?_, h.old, h.logok, ?_⟩
  · intro u
    simp only [St.set]
    by_cases hut : u = t
    · subst hut; rw [Function.update_self]
      refine ⟨?_, fun _ => hT.jok (by simp), hT.tok, fun _ => hT.lockd rfl, fun _ _ => hlast,
        f9 _ _ _ _, f10 _ _ _ _ _ _, by simp [f6]⟩
      intro _
      simp only [f1]
      refine ⟨hown.1, fun b hb' => ?_⟩
      by_cases hbb : b = b0
      · subst hbb
        rw [upd_self]
        have h1 := hsd b hb
        rw [if_pos (le_refl _), ← hlast, start_succ hown.1] at h1
        omega
      · rw [upd_ne _ _ hbb]; exact hown.2 b (by omega)
    · rw [Function.update_of_ne hut]
      exact (h.thr u).frame_out (h.notcrit hc hut) (Or.inl rfl)
  · intro k hk
    have hk' : s.lock = some k := hk
    rw [hT.lockd rfl] at hk'
    cases hk'
    simp only [St.set, Function.update_self]; exact f2
  · intro b hb'
    simp only [St.set]
    have h1 := sum_update' s.th t ⟨np, job, todo, li, upd lo b0 (s.used b0)⟩ (Thread.debt cfg b)
    rw [hx] at h1
    have h2 := h.debt b hb'
    have e1 : Thread.debt cfg b ⟨.reserve b0, job, todo, li, lo⟩ =
        if b0 ≤ b then job.len b else 0 := by
      unfold Thread.debt
      have hiff : (0 < b0 ∧ b0 ≤ b) ↔ b0 ≤ b := by omega
      simp only [Pc.resv, hiff]
    have e2 : Thread.debt cfg b ⟨np, job, todo, li, upd lo b0 (s.used b0)⟩ =
        if b0 + 1 ≤ b then job.len b else 0 := by
      unfold Thread.debt; simp only [f1]; simp
    rw [e1, e2] at h1
    by_cases hbz : b = b0
    · subst hbz
      rw [upd_self]
      rw [if_pos (le_refl _), if_neg (by omega)] at h1
      omega
    · rw [upd_ne _ _ hbz]
      by_cases hbb : b0 ≤ b
      · rw [if_pos hbb, if_pos (by omega)] at h1; omega
      · rw [if_neg hbb, if_neg (by omega)] at h1; omega
  · intro b hb'
    show upd s.used b0 _ b ≤ s.cap b
    by_cases hbz : b = b0
    · subst hbz; rw [upd_self]; exact hroom
    · rw [upd_ne _ _ hbz]; exact h.room b hb'
  · exact fun b c hb hcw => Or.inl (h.ptr_crit hc (by rw [hx]; simp) hb hcw)
  · simp only [St.set]
    rw [sum_update_eq _ _ _ (fun y => y.pc.wcount)]
    · exact h.wcount
    · rw [hx]; exact f3
  · simp only [St.set]
    rw [sum_update_eq _ _ _ (Thread.unlogged cfg)]
    · exact h.jobs
    · rw [hx]; unfold Thread.unlogged
      have e : Pc.resv cfg.nb (.reserve b0) = b0 := rfl
      simp only [f1, e]
      rw [if_neg (by simp), if_neg (by simp [h0])]
  · intro a b i ha hb'
    simp only [St.set] at ha hb'
    rw [hact] at ha hb'
    exact h.inj a b i ha hb'
  · intro i j w hj hw
    rcases h.cont i j w hj hw with h1 | ⟨u, h1, h2⟩
    · exact Or.inl h1
    · right
      refine ⟨u, by simp only [St.set]; rw [hact]; exact h1, ?_⟩
      simp only [St.set]
      by_cases hut : u = t
      · subst hut; rw [Function.update_self, f8]; rw [hx] at h2; exact h2
      · rw [Function.update_of_ne hut]; exact h2
  · intro i hi
    rcases h.rowp i hi with h1 | ⟨u, h1, h2⟩
    · exact Or.inl h1
    · right
      refine ⟨u, by simp only [St.set]; rw [hact]; exact h1, ?_⟩
      simp only [St.set]
      by_cases hut : u = t
      · subst hut; rw [Function.update_self]; exact f5
      · rw [Function.update_of_ne hut]; exact h2
  · intro i j hj
    rcases h.tags i j hj with h1 | ⟨u, h1, h2⟩
    · exact Or.inl h1
    · right
      refine ⟨u, by simp only [St.set]; rw [hact]; exact h1, ?_⟩
      simp only [St.set]
      by_cases hut : u = t
      · subst hut; rw [Function.update_self]; exact f4
      · rw [Function.update_of_ne hut]; exact h2
  · intro b hb'
    show u0 b ≤ upd s.used b0 _ b
    have := h.u0le b hb'
    by_cases hbz : b = b0
    · subst hbz; rw [upd_self]; omega
    · rw [upd_ne _ _ hbz]; exact this

theorem inv_step (hnb : 0 < cfg.nb) (hrs : Multiset.card J < rs) (hts : Multiset.card J ≤ ts)
    (h : Inv cfg u0 mem0 J rs ts s log) {t : Fin T}
    {r : C (St T)} (hr : step cfg junk t s = some r) :
    Ok r fun s' => ∃ log', Inv cfg u0 mem0 J rs ts s' log' := by
  obtain ⟨x, hx⟩ : ∃ x, s.th t = x := ⟨_, rfl⟩
  obtain ⟨pc, job, todo, li, lo⟩ := x
  have mk : Ok r (fun s' => Inv cfg u0 mem0 J rs ts s' log) →
      Ok r fun s' => ∃ log', Inv cfg u0 mem0 J rs ts s' log' :=
    fun hh => hh.mono fun _ hs => ⟨log, hs⟩
  cases pc with
  | idle => exact mk (step_idle hnb h hx hr)
  | test b => exact mk (step_test h hx hr)
  | wait b => exact mk (step_wait h hx hr)
  | realloc b => exact mk (step_realloc h hx hr)
  | refresh b c => exact mk (step_refresh h hx hr)
  | reserve b =>
    by_cases h0 : b = 0
    · subst h0; exact (step_reserve_zero h hx hr).mono fun _ hs => ⟨_, hs⟩
    · exact mk (step_reserve_succ h h0 hx hr)
  | enter => exact mk (step_enter hnb h hx hr)
  | unlock => exact mk (step_unlock hnb h hx hr)
  | tag => exact mk (step_tag hnb hts h hx hr)
  | write ws =>
    cases ws with
    | nil => exact mk (step_write_nil hnb h hx hr)
    | cons w ws => exact mk (step_write_cons hnb h hx hr)
  | rowptr => exact mk (step_rowptr hnb hrs h hx hr)
  | leave => exact mk (step_leave hnb h hx hr)

theorem inv_init (cap used : Nat → Nat) (mem : Nat → Nat → Nat → Int) (rowp tags : Array Nat)
    (jj : Job) (jobs : Fin T → List Job) (hcap : ∀ b, b < cfg.nb → used b ≤ cap b)
    (hjobs : ∀ t, ∀ j ∈ jobs t, JobOk cfg j) :
    Inv cfg used mem (∑ t, (jobs t : Multiset Job)) rowp.size tags.size
      (St.init cap used mem rowp tags jj jobs) [] := by
  unfold St.init
  refine ⟨?_, by simp, ?_, hcap, rfl, by simp, ?_, ?_, rfl, rfl, ?_, by simp, by simp, by simp,
    by simp, by simp, by simp⟩
  · intro t
    exact ⟨by simp [Pc.resv], by simp, hjobs t, by simp [Pc.crit], by simp [Pc.crit], trivial,
      trivial, by simp [Pc.quiet]⟩
  · intro b hb
    simp [Thread.debt, Pc.resv, start]
  · simp [Pc.wcount, Pc.wph]
  · simp [Thread.unlogged, Pc.crit]
  · intro t u i ht
    exact absurd ht.1 (by simp [Pc.resv])

theorem Inv.laid (h : Inv cfg u0 mem0 J rs ts s log) (hf : s.Finished) :
    (log : Multiset Job) = J ∧ Laid cfg u0 mem0 log s := by
  have hna : ∀ t i, ¬ (s.th t).act cfg i := by
    intro t i ht
    have := ht.1
    rw [(hf t).1] at this
    simp [Pc.resv] at this
  refine ⟨?_, h.rows, ?_, h.room, ?_, ?_, ?_, ?_, h.old⟩
  · rw [← h.jobs, Finset.sum_eq_zero, add_zero]
    intro t _
    unfold Thread.unlogged
    rw [(hf t).1, (hf t).2]
    simp [Pc.crit]
  · intro b hb
    have := h.debt b hb
    rw [Finset.sum_eq_zero, add_zero] at this
    · exact this
    · intro t _
      unfold Thread.debt
      rw [(hf t).1]; simp [Pc.resv]
  · intro b c hb hc
    rcases h.ptrs b c hb hc with h1 | ⟨k, c', h1, -⟩
    · exact h1
    · rw [(hf k).1] at h1; cases h1
  · intro i hi
    rcases h.rowp i hi with h1 | ⟨t, h1, -⟩
    · exact h1
    · exact absurd h1 (hna t i)
  · intro i j hj
    rcases h.tags i j hj with h1 | ⟨t, h1, -⟩
    · exact h1
    · exact absurd h1 (hna t i)
  · intro i j w hj hw
    rcases h.cont i j w hj hw with h1 | ⟨t, h1, -⟩
    · exact h1
    · exact absurd h1 (hna t i)

theorem row0_step {t : Fin T} {s' : St T} (hr : step cfg junk t s = some (.ok s')) :
    s'.rowp.g 0 = s.rowp.g 0 := by
  unfold step at hr
  obtain ⟨x, hx⟩ : ∃ x, s.th t = x := ⟨_, rfl⟩
  obtain ⟨pc, job, todo, li, lo⟩ := x
  simp only [hx] at hr
  cases pc <;> try simp only at hr
  case idle =>
    split at hr
    · cases hr
    · split at hr <;> cases hr; rfl
  case test => split at hr <;> (cases hr; rfl)
  case wait => split at hr <;> (cases hr; rfl)
  case realloc => cases hr; rfl
  case refresh => split at hr <;> (cases hr; rfl)
  case reserve => split at hr <;> (cases hr; rfl)
  case enter => cases hr; rfl
  case unlock => cases hr; rfl
  case tag =>
    unfold wr at hr
    split at hr
    · cases hr; rfl
    · cases hr
  case write ws =>
    cases ws with
    | nil => simp only at hr; cases hr; rfl
    | cons w ws =>
      simp only at hr
      split at hr <;> cases hr; rfl
  case rowptr =>
    unfold wr at hr
    split at hr
    · cases hr
      exact g_upd_ne _ _ _ _ (by omega)
    · cases hr
  case leave => cases hr; rfl

/-! ### Termination -/

def K (cfg : Cfg) : Nat := ∑ b ∈ range cfg.nb, cfg.wid b + 10

/-- Steps left for the current row. -/
def Thread.wt (cfg : Cfg) (x : Thread) : Nat :=
  match x.pc with
  | .idle => 0
  | .leave => 1
  | .rowptr => 2
  | .write ws => 3 + ws.length
  | .tag => 4 + x.job.ws.length
  | .unlock => 5 + x.job.ws.length
  | .enter => 6 + x.job.ws.length
  | .reserve b => 7 + x.job.ws.length + (cfg.nb - 1 - b) * K cfg
  | .refresh b c => 8 + x.job.ws.length + (cfg.nb - 1 - b) * K cfg + (cfg.wid b - c)
  | .realloc b => 9 + x.job.ws.length + (cfg.nb - 1 - b) * K cfg + cfg.wid b
  | .wait b => 10 + x.job.ws.length + (cfg.nb - 1 - b) * K cfg + cfg.wid b
  | .test b => 11 + x.job.ws.length + (cfg.nb - 1 - b) * K cfg + cfg.wid b

def Thread.mu (cfg : Cfg) (x : Thread) : Nat :=
  x.wt cfg + (x.todo.map fun j => 12 + j.ws.length + cfg.nb * K cfg).sum

/-- Total number of steps left (upper bound), not counting the spinning of a waiting thread. -/
def St.mu (cfg : Cfg) (s : St T) : Nat := ∑ t, (s.th t).mu cfg

theorem wid_le {b : Nat} (hb : b < cfg.nb) : cfg.wid b + 10 ≤ K cfg := by
  unfold K
  have := Finset.single_le_sum (f := cfg.wid) (fun _ _ => Nat.zero_le _) (mem_range.mpr hb)
  omega

theorem mu_set {t : Fin T} {x' : Thread} {s' : St T} (hth : s'.th = Function.update s.th t x')
    (hlt : x'.mu cfg < (s.th t).mu cfg) : s'.mu cfg < s.mu cfg := by
  have h1 := sum_update' s.th t x' (Thread.mu cfg)
  unfold St.mu
  rw [hth]
  omega

theorem mu_step (hnb : 0 < cfg.nb) (h : Inv cfg u0 mem0 J rs ts s log) {t : Fin T} {s' : St T}
    (hr : step cfg junk t s = some (.ok s')) :
    s'.mu cfg < s.mu cfg ∨ (s' = s ∧ 0 < s.writing ∧ ∃ b, (s.th t).pc = .wait b) := by
  have hT := h.thr t
  unfold step at hr
  obtain ⟨x, hx⟩ : ∃ x, s.th t = x := ⟨_, rfl⟩
  obtain ⟨pc, job, todo, li, lo⟩ := x
  rw [hx] at hT
  have hbnd := hT.bnd
  unfold Thread.bnd at hbnd
  simp only [hx] at hr
  cases pc <;> (try simp only at hr) <;> (try simp only at hbnd)
  case idle =>
    split at hr
    · cases hr
    · rename_i j js
      split at hr <;> cases hr
      left
      refine mu_set rfl ?_
      rw [hx]
      simp only [Thread.mu, Thread.wt, List.map_cons, List.sum_cons]
      have h2 := wid_le (cfg := cfg) hnb
      have h3 : cfg.nb * K cfg = (cfg.nb - 1 - 0) * K cfg + K cfg := by
        rw [← Nat.succ_mul]; congr 1; omega
      omega
  case test b =>
    split at hr <;> cases hr <;> left <;> refine mu_set rfl ?_ <;> rw [hx] <;>
      simp only [Thread.mu, Thread.wt] <;> omega
  case wait b =>
    split at hr <;> cases hr
    · rename_i hw
      right; exact ⟨rfl, hw, b, by rw [hx]⟩
    · left; refine mu_set rfl ?_; rw [hx]; simp only [Thread.mu, Thread.wt]; omega
  case realloc =>
    cases hr
    left; refine mu_set rfl ?_; rw [hx]; simp only [Thread.mu, Thread.wt]; omega
  case refresh =>
    split at hr <;> cases hr <;> left <;> refine mu_set rfl ?_ <;> rw [hx] <;>
      simp only [Thread.mu, Thread.wt] <;> omega
  case reserve b =>
    have hn : ∀ l', Thread.wt cfg ⟨nextBuf cfg b, job, todo, l', upd lo b (s.used b)⟩ <
        Thread.wt cfg ⟨.reserve b, job, todo, li, lo⟩ := by
      intro l'
      unfold nextBuf
      by_cases hlt : b + 1 < cfg.nb
      · rw [if_pos hlt]
        simp only [Thread.wt]
        have h2 := wid_le hlt
        have h3 : (cfg.nb - 1 - b) * K cfg = (cfg.nb - 1 - (b + 1)) * K cfg + K cfg := by
          rw [← Nat.succ_mul]; congr 1; omega
        omega
      · rw [if_neg hlt]
        simp only [Thread.wt]; omega
    split at hr <;> cases hr
    · left; refine mu_set rfl ?_; rw [hx]; simp only [Thread.mu]
      have := hn s.rows; omega
    · left; refine mu_set rfl ?_; rw [hx]; simp only [Thread.mu]
      have := hn li; omega
  case enter =>
    cases hr; left; refine mu_set rfl ?_; rw [hx]; simp only [Thread.mu, Thread.wt]; omega
  case unlock =>
    cases hr; left; refine mu_set rfl ?_; rw [hx]; simp only [Thread.mu, Thread.wt]; omega
  case tag =>
    unfold wr at hr
    split at hr
    · cases hr; left; refine mu_set rfl ?_; rw [hx]; simp only [Thread.mu, Thread.wt]; omega
    · cases hr
  case write ws =>
    cases ws with
    | nil =>
      simp only at hr; cases hr
      left; refine mu_set rfl ?_; rw [hx]; simp only [Thread.mu, Thread.wt]; omega
    | cons w ws =>
      simp only at hr
      split at hr <;> cases hr
      left; refine mu_set rfl ?_; rw [hx]
      simp only [Thread.mu, Thread.wt, List.length_cons]; omega
  case rowptr =>
    unfold wr at hr
    split at hr
    · cases hr; left; refine mu_set rfl ?_; rw [hx]; simp only [Thread.mu, Thread.wt]; omega
    · cases hr
  case leave =>
    cases hr; left; refine mu_set rfl ?_; rw [hx]; simp only [Thread.mu, Thread.wt]; omega

/-- Outside of the critical section a thread that has started a row can always move, and so can the
owner of the critical section unless it waits for writers. -/
theorem enabled {t : Fin T} (hp : (s.th t).pc ≠ .idle) : (step cfg junk t s).isSome = true := by
  obtain ⟨x, hx⟩ : ∃ x, s.th t = x := ⟨_, rfl⟩
  obtain ⟨pc, job, todo, li, lo⟩ := x
  rw [hx] at hp
  unfold step
  simp only [hx]
  cases pc <;> simp only at hp ⊢
  case idle => exact absurd rfl hp
  case write ws => cases ws <;> simp only <;> first | rfl | (split <;> rfl)
  all_goals first | rfl | (split <;> rfl)

theorem progress (hnb : 0 < cfg.nb) (hrs : Multiset.card J < rs) (hts : Multiset.card J ≤ ts)
    (h : Inv cfg u0 mem0 J rs ts s log) (hf : ¬ s.Finished) :
    ∃ t s', step cfg junk t s = some (.ok s') ∧ s'.mu cfg < s.mu cfg := by
  -- a thread that may move without spinning
  have key : ∃ t, (step cfg junk t s).isSome = true ∧
      ¬ (0 < s.writing ∧ ∃ b, (s.th t).pc = .wait b) := by
    by_cases hw : ∃ t, (s.th t).pc.wph = true
    · obtain ⟨t, ht⟩ := hw
      refine ⟨t, enabled (by intro h0; rw [h0] at ht; cases ht), ?_⟩
      rintro ⟨-, b, hb⟩
      rw [hb] at ht; cases ht
    · have hw0 : s.writing = 0 := by
        rw [h.wcount]
        refine Finset.sum_eq_zero fun t _ => ?_
        unfold Pc.wcount
        rw [if_neg]
        exact fun hh => hw ⟨t, hh⟩
      by_cases hni : ∃ t, (s.th t).pc ≠ .idle
      · obtain ⟨t, ht⟩ := hni
        exact ⟨t, enabled ht, by omega⟩
      · have hall : ∀ t, (s.th t).pc = .idle := by
          intro t; by_contra hn; exact hni ⟨t, hn⟩
        have hl : s.lock = none := by
          cases hl : s.lock with
          | none => rfl
          | some k =>
            have := h.lockc k hl
            rw [hall k] at this; cases this
        have : ∃ t, (s.th t).todo ≠ [] := by
          by_contra hn
          refine hf fun t => ⟨hall t, ?_⟩
          by_contra hnt
          exact hn ⟨t, hnt⟩
        obtain ⟨t, ht⟩ := this
        refine ⟨t, ?_, by omega⟩
        unfold step
        simp only [hall t, hl]
        cases htd : (s.th t).todo with
        | nil => exact absurd htd ht
        | cons j js => rfl
  obtain ⟨t, ht, hns⟩ := key
  obtain ⟨r, hr⟩ := Option.isSome_iff_exists.mp ht
  have hok := inv_step hnb hrs hts h hr
  rw [Ok_iff] at hok
  obtain ⟨s', rfl, -⟩ := hok
  refine ⟨t, s', hr, ?_⟩
  rcases mu_step hnb h hr with h1 | ⟨-, h2, h3⟩
  · exact h1
  · exact absurd ⟨h2, h3⟩ hns

theorem reach_inv (hnb : 0 < cfg.nb) {cap used : Nat → Nat} {mem : Nat → Nat → Nat → Int}
    {rowp tags : Array Nat} {jj : Job} {jobs : Fin T → List Job}
    (hcap : ∀ b, b < cfg.nb → used b ≤ cap b) (hjobs : ∀ t, ∀ j ∈ jobs t, JobOk cfg j)
    (hrs : Multiset.card (∑ t, (jobs t : Multiset Job)) < rowp.size)
    (hts : Multiset.card (∑ t, (jobs t : Multiset Job)) ≤ tags.size)
    (hr : Reach cfg junk (St.init cap used mem rowp tags jj jobs) s) :
    (∃ log, Inv cfg used mem (∑ t, (jobs t : Multiset Job)) rowp.size tags.size s log) ∧
      s.rowp.g 0 = rowp.g 0 := by
  induction hr with
  | init => exact ⟨⟨[], inv_init cap used mem rowp tags jj jobs hcap hjobs⟩, rfl⟩
  | step _ hst ih =>
    obtain ⟨⟨log, ih1⟩, ih2⟩ := ih
    refine ⟨?_, by rw [row0_step hst]; exact ih2⟩
    have := inv_step hnb hrs hts ih1 hst
    rwa [Ok_ok] at this

theorem Inv.norace (hnb : 0 < cfg.nb) (h : Inv cfg u0 mem0 J rs ts s log) {t u : Fin T}
    (htu : t ≠ u) {w v : Wr} {ws vs : List Wr} (ht : (s.th t).pc = .write (w :: ws))
    (hu : (s.th u).pc = .write (v :: vs)) (hb : w.b = v.b) :
    (s.th t).lo w.b + w.off ≠ (s.th u).lo v.b + v.off := by
  have key : ∀ (t : Fin T) (w : Wr) (ws : List Wr), (s.th t).pc = .write (w :: ws) →
      0 < (s.th t).pc.resv cfg.nb ∧ log[(s.th t).li]? = some (s.th t).job ∧
      w.off < (s.th t).job.len w.b ∧ (s.th t).lo w.b = start u0 log w.b (s.th t).li := by
    intro t w ws ht
    have hT := h.thr t
    have h0 : 0 < (s.th t).pc.resv cfg.nb := by rw [ht]; exact hnb
    have hsuf : w :: ws <:+ (s.th t).job.ws := by
      have := hT.bnd; unfold Thread.bnd at this; rw [ht] at this; exact this
    have hwm := hsuf.subset List.mem_cons_self
    obtain ⟨a1, a2, a3⟩ := (hT.jok (by rw [ht]; simp)).rng w hwm
    exact ⟨h0, (hT.own h0).1, a3, (hT.own h0).2 w.b (by rw [ht]; exact a1)⟩
  obtain ⟨a1, a2, a3, a4⟩ := key t w ws ht
  obtain ⟨b1, b2, b3, b4⟩ := key u v vs hu
  have hne : (s.th t).li ≠ (s.th u).li := fun he =>
    htu (h.inj t u _ ⟨a1, rfl⟩ ⟨b1, he.symm⟩)
  rw [a4, b4, ← hb]
  rw [← hb] at b3
  rcases Nat.lt_or_gt_of_ne hne with hlt | hlt
  · have h1 := start_mono (u0 := u0) (log := log) (b := w.b)
      (show (s.th t).li + 1 ≤ (s.th u).li from hlt)
    rw [start_succ a2] at h1; omega
  · have h1 := start_mono (u0 := u0) (log := log) (b := w.b)
      (show (s.th u).li + 1 ≤ (s.th t).li from hlt)
    rw [start_succ b2] at h1; omega

theorem Reach.trans {s0 s1 s2 : St T} (h1 : Reach cfg junk s0 s1) (h2 : Reach cfg junk s1 s2) :
    Reach cfg junk s0 s2 := by
  induction h2 with
  | init => exact h1
  | step _ hst ih => exact ih.step hst

theorem completes (hnb : 0 < cfg.nb) (hrs : Multiset.card J < rs) (hts : Multiset.card J ≤ ts)
    (h : ∃ log, Inv cfg u0 mem0 J rs ts s log) :
    ∃ s', Reach cfg junk s s' ∧ s'.Finished := by
  generalize hm : s.mu cfg = m
  induction m using Nat.strong_induction_on generalizing s with
  | _ m ih =>
    by_cases hf : s.Finished
    · exact ⟨s, .init, hf⟩
    · obtain ⟨log, hI⟩ := h
      obtain ⟨t, s1, hst, hlt⟩ := progress (junk := junk) hnb hrs hts hI hf
      have h1 := inv_step hnb hrs hts hI hst
      rw [Ok_ok] at h1
      obtain ⟨s2, h2, h3⟩ := ih _ (by omega) h1 rfl
      exact ⟨s2, (Reach.init.step hst).trans h2, h3⟩

end

end Spasm.Commit
