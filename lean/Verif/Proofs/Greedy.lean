import Verif.Proofs.GreedySearch
import Mathlib.Data.List.Nodup

namespace Spasm.Greedy

open Finset Relation

variable {T : Nat} {A : Csr} {q0 : Array Int}

/-- Column `j` was pivotal at the beginning, or is the column of one of the first `k` new pivots. -/
def Known (q0 : Array Int) (journal : Array Nat) (k j : Nat) : Prop :=
  0 ≤ q0.g j ∨ ∃ l, l < k ∧ journal.g l = j

theorem Known.mono {journal : Array Nat} {k k' j : Nat} (h : Known q0 journal k j) (hk : k ≤ k') :
    Known q0 journal k' j := by
  rcases h with h | ⟨l, h1, h2⟩
  · exact Or.inl h
  · exact Or.inr ⟨l, by omega, h2⟩

theorem Known.congr {J J' : Array Nat} {k j : Nat} (hJ : ∀ l, l < k → J'.g l = J.g l) :
    Known q0 J' k j ↔ Known q0 J k j := by
  unfold Known
  constructor
  · rintro (h | ⟨l, h1, h2⟩)
    · exact Or.inl h
    · exact Or.inr ⟨l, h1, by rw [← hJ l h1]; exact h2⟩
  · rintro (h | ⟨l, h1, h2⟩)
    · exact Or.inl h
    · exact Or.inr ⟨l, h1, by rw [hJ l h1]; exact h2⟩

/-- Before the search. -/
structure Zero (A : Csr) (x : Srch) : Prop where
  wsize : x.w.size = A.m
  qsize : x.queue.size = A.m
  zero : ∀ j, j < A.m → x.w.g j = 0

/-- While row `i` is scattered. -/
structure Sca (A : Csr) (q0 : Array Int) (s : St T) (y : Thread) (px : Nat) : Prop where
  si : SInv A.m y.x
  i_lt : y.i < A.n
  pi : s.pinv.g y.i = -1
  kle : y.k ≤ s.npiv
  one : ∀ j, j < A.m → y.x.w.g j = 1 → ¬ Known q0 s.journal y.k j
  head : y.x.head = 0
  lo : A.p.g y.i ≤ px
  hi : px ≤ A.p.g (y.i + 1)
  done : ∀ l, A.p.g y.i ≤ l → l < px → y.x.w.g (A.j.g l) ≠ 0
  only : ∀ c, c < A.m → y.x.w.g c ≠ 0 → ∃ l, A.p.g y.i ≤ l ∧ l < px ∧ A.j.g l = c

/-- During the search. -/
structure Act (A : Csr) (q0 : Array Int) (s : St T) (y : Thread) : Prop where
  si : SInv A.m y.x
  i_lt : y.i < A.n
  pi : s.pinv.g y.i = -1
  kle : y.k ≤ s.npiv
  one : ∀ j, j < A.m → y.x.w.g j = 1 → A.InRow y.i j ∧ ¬ Known q0 s.journal y.k j
  row : ∀ c, A.InRow y.i c → y.x.w.g c ≠ 0
  closed : ∀ l, l < y.x.head → Known q0 s.journal y.k (y.x.queue.g l) →
    ∀ c, A.InRow (s.qinv.g (y.x.queue.g l)).toNat c → y.x.w.g c = -1

/-- After the search. -/
structure Cln (A : Csr) (y : Thread) : Prop where
  wsize : y.x.w.size = A.m
  qsize : y.x.queue.size = A.m
  i_lt : y.i < A.n
  tail : y.x.tail ≤ A.m
  qlt : ∀ l, l < y.x.tail → y.x.queue.g l < A.m
  nz : ∀ c, c < A.m → y.x.w.g c ≠ 0 → A.InRow y.i c ∨ ∃ l, l < y.x.tail ∧ y.x.queue.g l = c

/-- Invariant of a thread. `pd` is the pivot that is registered but not published, if any. -/
def TInv (A : Csr) (q0 : Array Int) (pd : Option Nat) (s : St T) (y : Thread) : Prop :=
  match y.pc with
  | .idle => Zero A y.x
  | .start => Zero A y.x ∧ y.i < A.n ∧ s.pinv.g y.i = -1
  | .scatter px => Sca A q0 s y px
  | .bfs => Act A q0 s y
  | .commit j => Act A q0 s y ∧ y.x.head = y.x.tail ∧ j < A.m ∧ y.x.w.g j = 1
  | .register j => (Act A q0 s y ∧ y.x.head = y.x.tail ∧ j < A.m ∧ y.x.w.g j = 1) ∧ s.npiv = y.k ∧
      pd = none
  | .journal j r => Cln A y ∧ r = 1 ∧ pd = some j
  | .publish j r => Cln A y ∧ r = 1 ∧ pd = some j ∧ s.journal.g s.npiv = j
  | .examine tgt => Act A q0 s y ∧ y.k ≤ tgt ∧ tgt ≤ s.npiv
  | .clean => Cln A y

/-- Inside the critical section. -/
def Pc.crit : Pc → Bool
  | .register _ => true
  | .journal _ _ => true
  | .publish _ _ => true
  | _ => false

/-- Rows that belong to the thread. -/
def Thread.owned (y : Thread) : List Nat := if y.pc = .idle then y.todo else y.i :: y.todo

/-- Invariant of the shared variables. -/
structure Shared (A : Csr) (q0 : Array Int) (pd : Option Nat) (s : St T) : Prop where
  ps : PivotSet A s.pinv s.qinv
  jsize : s.journal.size = A.n
  jlt : ∀ l, l < s.npiv → s.journal.g l < A.m
  keep : ∀ j, j < A.m → 0 ≤ q0.g j → s.qinv.g j = q0.g j
  known : ∀ j, j < A.m → (0 ≤ s.qinv.g j ↔ (Known q0 s.journal s.npiv j ∨ pd = some j))
  cnt : pivCount A.m s.qinv = pivCount A.m q0 + s.npiv + (if pd.isSome then 1 else 0)
  pdlt : ∀ j, pd = some j → j < A.m
  free : s.lock = none → pd = none

structure Inv (A : Csr) (q0 : Array Int) (pd : Option Nat) (s : St T) : Prop where
  sh : Shared A q0 pd s
  lock : ∀ u, (s.th u).pc.crit = true ↔ s.lock = some u
  nodup : ∀ t, (s.th t).owned.Nodup
  disj : ∀ t u, t ≠ u → ∀ i, i ∈ (s.th t).owned → i ∉ (s.th u).owned
  rng : ∀ t i, i ∈ (s.th t).owned → i < A.n
  thr : ∀ t, TInv A q0 pd s (s.th t)

theorem Shared.npiv_le {pd : Option Nat} {s : St T} (h : Shared A q0 pd s) :
    s.npiv + (if pd.isSome then 1 else 0) ≤ A.n := by
  have h1 := h.ps.toMatching.nonpiv_card
  have h2 := h.cnt
  omega

theorem Act.stable {s s' : St T} {y : Thread} (h : Act A q0 s y)
    (hkn : ∀ j, j < A.m → Known q0 s.journal s.npiv j → 0 ≤ s.qinv.g j)
    (hq : ∀ j, 0 ≤ s.qinv.g j → s'.qinv.g j = s.qinv.g j) (hn : s.npiv ≤ s'.npiv)
    (hJ : ∀ l, l < s.npiv → s'.journal.g l = s.journal.g l)
    (hp : s'.pinv.g y.i = s.pinv.g y.i) : Act A q0 s' y := by
  have hk := h.kle
  have hc : ∀ j, Known q0 s'.journal y.k j ↔ Known q0 s.journal y.k j := fun j =>
    Known.congr fun l hl => hJ l (by omega)
  refine ⟨h.si, h.i_lt, hp.trans h.pi, hk.trans hn, ?_, h.row, ?_⟩
  · intro j hj hw
    rw [hc]
    exact h.one j hj hw
  · intro l hl hK c hin
    rw [hc] at hK
    have hlt := h.si.qlt l (lt_of_lt_of_le hl h.si.ht)
    rw [hq _ (hkn _ hlt (hK.mono hk))] at hin
    exact h.closed l hl hK c hin

theorem TInv.stable {pd pd' : Option Nat} {s s' : St T} {y : Thread} (h : TInv A q0 pd s y)
    (hkn : ∀ j, j < A.m → Known q0 s.journal s.npiv j → 0 ≤ s.qinv.g j)
    (hq : ∀ j, 0 ≤ s.qinv.g j → s'.qinv.g j = s.qinv.g j) (hn : s.npiv ≤ s'.npiv)
    (hJ : ∀ l, l < s.npiv → s'.journal.g l = s.journal.g l)
    (hp : y.pc ≠ .idle → s'.pinv.g y.i = s.pinv.g y.i)
    (hcr : y.pc.crit = true → s'.npiv = s.npiv ∧ s'.journal = s.journal ∧ pd' = pd) :
    TInv A q0 pd' s' y := by
  unfold TInv at h ⊢
  split at h <;> rename_i hpc <;> rw [hpc] at hp hcr
  · exact h
  · exact ⟨h.1, h.2.1, (hp (by simp)).trans h.2.2⟩
  · have hk := h.kle
    refine ⟨h.si, h.i_lt, (hp (by simp)).trans h.pi, hk.trans hn, ?_, h.head, h.lo, h.hi, h.done,
      h.only⟩
    intro j hj hw
    rw [Known.congr (fun l hl => hJ l (by omega))]
    exact h.one j hj hw
  · exact h.stable hkn hq hn hJ (hp (by simp))
  · exact ⟨h.1.stable hkn hq hn hJ (hp (by simp)), h.2⟩
  · obtain ⟨e1, e2, e3⟩ := hcr rfl
    rw [e1, e3]
    exact ⟨⟨h.1.1.stable hkn hq hn hJ (hp (by simp)), h.1.2⟩, h.2⟩
  · obtain ⟨e1, e2, e3⟩ := hcr rfl
    rw [e3]; exact h
  · obtain ⟨e1, e2, e3⟩ := hcr rfl
    rw [e1, e2, e3]; exact h
  · exact ⟨h.1.stable hkn hq hn hJ (hp (by simp)), h.2.1, h.2.2.trans hn⟩
  · exact h

theorem Inv.next {pd pd' : Option Nat} {s s' : St T} (h : Inv A q0 pd s) {t : Fin T} {y' : Thread}
    (hth : s'.th = Function.update s.th t y') (hsh : Shared A q0 pd' s')
    (hq : ∀ j, 0 ≤ s.qinv.g j → s'.qinv.g j = s.qinv.g j) (hn : s.npiv ≤ s'.npiv)
    (hJ : ∀ l, l < s.npiv → s'.journal.g l = s.journal.g l)
    (hp : s'.pinv = s.pinv ∨ ((s.th t).pc ≠ .idle ∧ ∀ i, i ≠ (s.th t).i → s'.pinv.g i = s.pinv.g i))
    (hcr : (s.lock = some t ∨ s.lock = none) ∨
      s'.npiv = s.npiv ∧ s'.journal = s.journal ∧ pd' = pd)
    (hlock : y'.pc.crit = true ↔ s'.lock = some t)
    (hlock' : ∀ u, u ≠ t → (s.lock = some u ↔ s'.lock = some u))
    (hown : y'.owned.Sublist (s.th t).owned) (hT : TInv A q0 pd' s' y') : Inv A q0 pd' s' := by
  have e1 : s'.th t = y' := by rw [hth]; simp
  have e2 : ∀ u, u ≠ t → s'.th u = s.th u := fun u hu => by rw [hth]; simp [hu]
  have hsub : ∀ u i, i ∈ (s'.th u).owned → i ∈ (s.th u).owned := by
    intro u i hi
    by_cases hu : u = t
    · subst hu; rw [e1] at hi; exact hown.subset hi
    · rw [e2 u hu] at hi; exact hi
  refine ⟨hsh, ?_, ?_, ?_, ?_, ?_⟩
  · intro u
    by_cases hu : u = t
    · subst hu; rw [e1]; exact hlock
    · rw [e2 u hu, h.lock u]; exact hlock' u hu
  · intro u
    by_cases hu : u = t
    · subst hu; rw [e1]; exact hown.nodup (h.nodup u)
    · rw [e2 u hu]; exact h.nodup u
  · intro u v huv i hi hi'
    exact h.disj u v huv i (hsub u i hi) (hsub v i hi')
  · intro u i hi
    exact h.rng u i (hsub u i hi)
  · intro u
    by_cases hu : u = t
    · subst hu; rw [e1]; exact hT
    · rw [e2 u hu]
      refine (h.thr u).stable (fun j hj hK => (h.sh.known j hj).2 (Or.inl hK)) hq hn hJ ?_ ?_
      · intro hpc
        rcases hp with hp | ⟨hp1, hp2⟩
        · rw [hp]
        · refine hp2 _ ?_
          intro he
          refine h.disj u t hu (s.th u).i ?_ ?_
          · unfold Thread.owned; rw [if_neg hpc]; exact List.mem_cons_self
          · rw [he]; unfold Thread.owned; rw [if_neg hp1]; exact List.mem_cons_self
      · intro hc
        rw [h.lock u] at hc
        rcases hcr with (hcr | hcr) | hcr
        · rw [hc] at hcr
          exact absurd (Option.some.inj hcr) hu
        · rw [hc] at hcr; cases hcr
        · exact hcr

/-- A step that changes only the private variables. -/
theorem Inv.private {pd : Option Nat} {s : St T} (h : Inv A q0 pd s) {t : Fin T} {y' : Thread}
    (hc : (s.th t).pc.crit = false) (hc' : y'.pc.crit = false)
    (hown : y'.owned.Sublist (s.th t).owned) (hT : TInv A q0 pd s y') : Inv A q0 pd (s.set t y') := by
  refine h.next (t := t) (y' := y') rfl ?_ (fun _ _ => rfl) (le_refl _) (fun _ _ => rfl) (Or.inl rfl)
    (Or.inr ⟨rfl, rfl, rfl⟩) ?_ (fun u _ => Iff.rfl) hown ?_
  · exact ⟨h.sh.ps, h.sh.jsize, h.sh.jlt, h.sh.keep, h.sh.known, h.sh.cnt, h.sh.pdlt, h.sh.free⟩
  · have := h.lock t
    rw [hc] at this
    rw [hc']
    exact this
  · exact hT.stable (fun j hj hK => (h.sh.known j hj).2 (Or.inl hK)) (fun _ _ => rfl) (le_refl _)
      (fun _ _ => rfl) (fun _ => rfl) (fun _ => ⟨rfl, rfl, rfl⟩)

theorem SInv.tail_le {m : Nat} {x : Srch} (h : SInv m x) : x.tail ≤ m := by
  have := card_le_card_of_injOn (s := range x.tail) (t := range m) x.queue.g
    (fun l hl => by
      rw [coe_range, Set.mem_Iio] at *
      exact h.qlt l (by simpa using hl))
    (fun a ha b hb he => by
      have ha : a < x.tail := by simpa using ha
      have hb : b < x.tail := by simpa using hb
      rcases Nat.lt_trichotomy a b with h1 | h1 | h1
      · exact absurd he (h.inj a b h1 hb)
      · exact h1
      · exact absurd he.symm (h.inj b a h1 ha))
  simpa using this

theorem Act.cln {s : St T} {y : Thread} (h : Act A q0 s y) : Cln A y := by
  refine ⟨h.si.wsize, h.si.qsize, h.i_lt, h.si.tail_le, h.si.qlt, ?_⟩
  intro c hc hw
  rcases h.si.tri c hc with h1 | h1 | h1
  · exact Or.inr ((h.si.inq c hc).1 h1)
  · exact absurd h1 hw
  · exact Or.inl (h.one c hc h1).1

theorem Zero.start {x : Srch} (h : Zero A x) :
    SInv A.m { x with head := 0, tail := 0, surv := 0 } := by
  refine ⟨h.wsize, h.qsize, fun j hj => Or.inr (Or.inl (h.zero j hj)), le_refl _,
    fun l hl => absurd hl (Nat.not_lt_zero _), ?_, fun l l' _ hl => absurd hl (Nat.not_lt_zero _), ?_⟩
  · intro j hj
    rw [h.zero j hj]
    constructor
    · intro hh; omega
    · rintro ⟨l, hl, -⟩; exact absurd hl (Nat.not_lt_zero _)
  · simp only
    rw [Finset.filter_eq_empty_iff.2]
    · rfl
    · intro j hj hw
      rw [h.zero j (by simpa using hj)] at hw
      omega

theorem SInv.one {m : Nat} {x : Srch} (h : SInv m x) {j : Nat} (hj : j < m) (hw : x.w.g j = 0) :
    SInv m { x with w := x.w.upd j 1, surv := x.surv + 1 } := by
  have h1 := h.wsize
  have hg : ∀ c, (x.w.upd j 1).g c = if c = j then 1 else x.w.g c := by
    intro c
    by_cases he : c = j
    · subst he; rw [if_pos rfl, g_upd_eq _ _ _ (by omega)]
    · rw [if_neg he, g_upd_ne _ _ _ _ he]
  refine ⟨by simpa using h1, h.qsize, ?_, h.ht, h.qlt, ?_, h.inj, ?_⟩
  · intro c hc
    simp only [hg]
    split
    · right; right; rfl
    · exact h.tri c hc
  · intro c hc
    simp only [hg]
    split
    · rename_i he
      subst he
      rw [← h.inq c hc, hw]; constructor <;> intro hh <;> omega
    · exact h.inq c hc
  · simp only [hg]
    rw [h.surv]
    have : ((range m).filter fun c => (if c = j then (1 : Int) else x.w.g c) = 1) =
        insert j ((range m).filter fun c => x.w.g c = 1) := by
      ext c
      simp only [mem_insert, mem_filter, mem_range]
      by_cases he : c = j
      · subst he; simp [hj]
      · simp [he]
    rw [this, card_insert_of_notMem]
    · push_cast; omega
    · simp only [mem_filter, not_and]
      intro _; omega

theorem scatter_step (hA : A.WF) (hnd : A.NoDup) {pd : Option Nat} {s : St T}
    (hs : Shared A q0 pd s) {y : Thread} {px : Nat} (h : Sca A q0 s y px)
    (hpx : px < A.p.g (y.i + 1)) :
    Ok (scatter_entry A s.qinv y.x px) (fun x => ∀ pc, Sca A q0 s { y with pc := pc, x := x } (px + 1)) := by
  have hi := h.i_lt
  have hk := hA.row_lt hi hpx
  have hj : A.j.g px < A.m := hA.inRow_lt hi ⟨px, h.lo, hpx, rfl⟩
  have hnz := hA.p_nnz
  have hqs := hs.ps.qsize
  have hws := h.si.wsize
  have hlo := h.lo
  have hw0 : y.x.w.g (A.j.g px) = 0 := by
    by_contra hn
    obtain ⟨l, h1, h2, h3⟩ := h.only _ hj hn
    have := hnd _ hi l px h1 (by omega) h.lo hpx h3
    omega
  unfold scatter_entry
  rw [Ok_bind, Ok_rd]; refine ⟨by omega, ?_⟩
  rw [Ok_bind, Ok_rd]; refine ⟨by omega, ?_⟩
  have hfin : ∀ x, SInv A.m x → x.head = 0 → x.w.g (A.j.g px) ≠ 0 →
      (∀ c, c ≠ A.j.g px → x.w.g c = y.x.w.g c) →
      (x.w.g (A.j.g px) = 1 → ¬ Known q0 s.journal y.k (A.j.g px)) →
      ∀ pc, Sca A q0 s { y with pc := pc, x := x } (px + 1) := by
    intro x h1 h2 h3 h4 h5 pc
    refine ⟨h1, hi, h.pi, h.kle, ?_, h2, by simp only; omega, by simp only; omega, ?_, ?_⟩
    · intro c hc hw
      simp only at hw ⊢
      by_cases he : c = A.j.g px
      · subst he; exact h5 hw
      · rw [h4 c he] at hw; exact h.one c hc hw
    · intro l hl1 hl2
      simp only at hl1 ⊢
      by_cases he : A.j.g l = A.j.g px
      · rw [he]; exact h3
      · rw [h4 _ he]
        refine h.done l hl1 ?_
        by_cases hl : l = px
        · rw [hl] at he; exact absurd rfl he
        · omega
    · intro c hc hw
      simp only at hw ⊢
      by_cases he : c = A.j.g px
      · exact ⟨px, by omega, by omega, he.symm⟩
      · rw [h4 c he] at hw
        obtain ⟨l, g1, g2, g3⟩ := h.only c hc hw
        exact ⟨l, g1, by omega, g3⟩
  by_cases hq : s.qinv.g (A.j.g px) < 0
  · rw [if_pos hq, Ok_bind, Ok_wr]; refine ⟨by omega, ?_⟩
    rw [Ok_ok]
    refine hfin _ (h.si.one hj hw0) h.head ?_ ?_ ?_
    · simp only; rw [g_upd_eq _ _ _ (by omega)]; omega
    · intro c hc; simp only; rw [g_upd_ne _ _ _ _ hc]
    · intro _ hK
      have := (hs.known _ hj).2 (Or.inl (hK.mono h.kle))
      omega
  · rw [if_neg hq]
    refine (enqueue_spec h.si hj (by omega)).mono ?_
    rintro x ⟨h1, h2, h3⟩
    refine hfin x h1 (h2.head.trans h.head) ?_ ?_ ?_
    · rw [h3, g_upd_eq _ _ _ (by omega)]; omega
    · intro c hc; rw [h3, g_upd_ne _ _ _ _ hc]
    · intro hh; rw [h3, g_upd_eq _ _ _ (by omega)] at hh; omega

theorem Sca.act {s : St T} {y : Thread} {px : Nat} (h : Sca A q0 s y px)
    (hpx : ¬ px < A.p.g (y.i + 1)) : ∀ pc, Act A q0 s { y with pc := pc } := by
  intro pc
  have hhi := h.hi
  refine ⟨h.si, h.i_lt, h.pi, h.kle, ?_, ?_, ?_⟩
  · intro j hj hw
    refine ⟨?_, h.one j hj hw⟩
    simp only at hw
    obtain ⟨l, g1, g2, g3⟩ := h.only j hj (by omega)
    exact ⟨l, g1, by simp only; omega, g3⟩
  · rintro c ⟨l, g1, g2, rfl⟩
    exact h.done l g1 (by simp only at g2; omega)
  · intro l hl
    simp only [h.head] at hl
    omega

/-- The search goes on: `x` is a later state. -/
theorem Act.ext {s : St T} {y : Thread} (h : Act A q0 s y) {x : Srch} (hx : SInv A.m x)
    (he : SExt y.x x) : Act A q0 s { y with x := x } := by
  refine ⟨hx, h.i_lt, h.pi, h.kle, ?_, ?_, ?_⟩
  · intro j hj hw
    simp only at hw
    have := he.same j (by omega)
    exact h.one j hj (by rw [← this]; exact hw)
  · intro c hc hw
    simp only at hw
    have := he.same c (by omega)
    exact h.row c hc (by rw [← this]; exact hw)
  · intro l hl hK c hin
    simp only [he.head] at hl
    have := h.si.ht
    simp only at hK hin ⊢
    rw [he.queue l (by omega)] at hK hin
    exact he.mono c (h.closed l hl hK c hin)

theorem pop_step (hA : A.WF) {pd : Option Nat} {s : St T} (hs : Shared A q0 pd s) {y : Thread}
    (h : Act A q0 s y) (hht : y.x.head < y.x.tail) :
    Ok (bfs_pop A s.qinv y.x) (fun x => Act A q0 s { y with x := x } ∧ x.head = y.x.head + 1) := by
  have hj := h.si.qlt _ hht
  have hqs := hs.ps.qsize
  have htl := h.si.tail_le
  have hqz := h.si.qsize
  have hsi : SInv A.m { y.x with head := y.x.head + 1 } :=
    ⟨h.si.wsize, h.si.qsize, h.si.tri, by simp only; omega, h.si.qlt, h.si.inq, h.si.inj, h.si.surv⟩
  unfold bfs_pop
  rw [Ok_bind, Ok_rd]; refine ⟨by omega, ?_⟩
  rw [Ok_bind, Ok_rd]; refine ⟨by omega, ?_⟩
  by_cases hI : s.qinv.g (y.x.queue.g y.x.head) = -1
  · rw [if_pos hI, Ok_ok]
    refine ⟨⟨hsi, h.i_lt, h.pi, h.kle, h.one, h.row, ?_⟩, rfl⟩
    intro l hl hK c hin
    simp only at hl hK hin ⊢
    by_cases he : l = y.x.head
    · subst he
      have := (hs.known _ hj).2 (Or.inl (hK.mono h.kle))
      omega
    · exact h.closed l (by omega) hK c hin
  · rw [if_neg hI, Ok_bind, Ok_idx]
    have h1 := hs.ps.q_ge _ hj
    have h2 := hs.ps.q_lt _ hj
    refine ⟨by omega, ?_⟩
    refine (enqueue_row_spec hA hsi (i := (s.qinv.g (y.x.queue.g y.x.head)).toNat) (by omega)).mono ?_
    rintro x ⟨g1, g2, g3⟩
    have hq := g2.queue
    have hhd := g2.head
    simp only at hq hhd
    refine ⟨⟨g1, h.i_lt, h.pi, h.kle, ?_, ?_, ?_⟩, hhd⟩
    · intro j hj hw
      simp only at hw
      have := g2.same j (by omega)
      exact h.one j hj (by rw [← this]; exact hw)
    · intro c hc hw
      simp only at hw
      have := g2.same c (by omega)
      exact h.row c hc (by rw [← this]; exact hw)
    · intro l hl hK c hin
      simp only [hhd] at hl
      simp only at hK hin ⊢
      rw [hq l (by omega)] at hK hin
      by_cases he : l = y.x.head
      · subst he; exact g3 c hin
      · exact g2.mono c (h.closed l (by omega) hK c hin)

theorem examine_step (hA : A.WF) {pd : Option Nat} {s : St T} (hs : Shared A q0 pd s) {y : Thread}
    (h : Act A q0 s y) (hk : y.k < s.npiv) :
    Ok (examine A s.qinv y.x (s.journal.g y.k)) (fun x => Act A q0 s { y with k := y.k + 1, x := x } ∧
      x.head = y.x.head) := by
  have hj := hs.jlt _ hk
  have hws := h.si.wsize
  have hqs := hs.ps.qsize
  have hKs : ∀ c, Known q0 s.journal (y.k + 1) c → Known q0 s.journal y.k c ∨ c = s.journal.g y.k := by
    rintro c (h1 | ⟨l, h1, h2⟩)
    · exact Or.inl (Or.inl h1)
    · by_cases hl : l = y.k
      · right; rw [← h2, hl]
      · left; exact Or.inr ⟨l, by omega, h2⟩
  have hfin : ∀ x, SInv A.m x → SExt y.x x → x.w.g (s.journal.g y.k) ≠ 1 →
      (∀ l, l < x.head → x.queue.g l = s.journal.g y.k →
        ∀ c, A.InRow (s.qinv.g (s.journal.g y.k)).toNat c → x.w.g c = -1) →
      Act A q0 s { y with k := y.k + 1, x := x } := by
    intro x h1 h2 h3 h4
    have hA' := h.ext h1 h2
    refine ⟨h1, h.i_lt, h.pi, hk, ?_, hA'.row, ?_⟩
    · intro c hc hw
      obtain ⟨g1, g2⟩ := hA'.one c hc hw
      refine ⟨g1, fun hK => ?_⟩
      rcases hKs c hK with g | g
      · exact g2 g
      · rw [g] at hw; exact h3 hw
    · intro l hl hK c hin
      simp only at hl hK hin ⊢
      rcases hKs _ hK with g | g
      · exact hA'.closed l hl g c hin
      · rw [g] at hin
        exact h4 l hl g c hin
  have hin0 : ∀ l, l < y.x.head → y.x.queue.g l = s.journal.g y.k → y.x.w.g (s.journal.g y.k) = -1 := by
    intro l hl he
    have := h.si.ht
    exact (h.si.inq _ hj).2 ⟨l, by omega, he⟩
  unfold examine
  rw [Ok_bind, Ok_rd]; refine ⟨by omega, ?_⟩
  by_cases h0 : y.x.w.g (s.journal.g y.k) = 0
  · rw [if_pos h0, Ok_ok]
    refine ⟨hfin _ h.si (SExt.refl _) (by omega) ?_, rfl⟩
    intro l hl he
    have := hin0 l hl he
    omega
  rw [if_neg h0]
  by_cases h1 : y.x.w.g (s.journal.g y.k) = 1
  · rw [if_pos h1]
    refine (enqueue_spec h.si hj (by omega)).mono ?_
    rintro x ⟨g1, g2, g3⟩
    refine ⟨hfin _ g1 g2 (by rw [g3, g_upd_eq _ _ _ (by omega)]; omega) ?_, g2.head⟩
    intro l hl he
    rw [g2.head] at hl
    have := h.si.ht
    rw [g2.queue l (by omega)] at he
    have := hin0 l hl he
    omega
  rw [if_neg h1, Ok_bind, Ok_rd]; refine ⟨by omega, ?_⟩
  have hK : Known q0 s.journal s.npiv (s.journal.g y.k) := Or.inr ⟨y.k, hk, rfl⟩
  have h2 := (hs.known _ hj).2 (Or.inl hK)
  have h3 := hs.ps.q_lt _ hj
  rw [Ok_bind, Ok_idx]; refine ⟨h2, ?_⟩
  refine (enqueue_row_spec hA h.si (i := (s.qinv.g (s.journal.g y.k)).toNat) (by omega)).mono ?_
  rintro x ⟨g1, g2, g3⟩
  refine ⟨hfin _ g1 g2 ?_ (fun _ _ _ c hc => g3 c hc), g2.head⟩
  intro hh
  have := g2.same _ (by omega : x.w.g (s.journal.g y.k) ≠ -1)
  omega

/-- The pivot found by a complete search creates no cycle. -/
theorem Act.acyclic {pd : Option Nat} {s : St T} (hA : A.WF) (hs : Shared A q0 pd s) {y : Thread}
    (h : Act A q0 s y) (hht : y.x.head = y.x.tail) {j : Nat} (hw : y.x.w.g j = 1)
    (hk : s.npiv = y.k) (hpd : pd = none) :
    ∀ c, A.InRow y.i c → c ≠ j → ¬ ReflTransGen (PEdge A s.qinv) c j := by
  have hpiv : ∀ c, c < A.m → 0 ≤ s.qinv.g c → Known q0 s.journal y.k c := by
    intro c hc h0
    rcases (hs.known c hc).1 h0 with g | g
    · rw [← hk]; exact g
    · rw [hpd] at g; cases g
  have hcl : ∀ c d, c < A.m → y.x.w.g c = -1 → PEdge A s.qinv c d → d < A.m ∧ y.x.w.g d = -1 := by
    rintro c d hc hwc ⟨g1, g2⟩
    have hlt := hs.ps.q_lt c hc
    obtain ⟨l, hl1, hl2⟩ := (h.si.inq c hc).1 hwc
    refine ⟨hA.inRow_lt (by omega) g2, ?_⟩
    refine h.closed l (by omega) ?_ d ?_
    · rw [hl2]; exact hpiv c hc g1
    · rw [hl2]; exact g2
  intro c hc hcj hp
  have hcm := hA.inRow_lt h.i_lt hc
  rcases ReflTransGen.cases_head hp with he | ⟨d, hd, hdj⟩
  · exact hcj he
  · -- c is pivotal
    have hK := hpiv c hcm hd.1
    have hwc : y.x.w.g c = -1 := by
      rcases h.si.tri c hcm with g | g | g
      · exact g
      · exact absurd g (h.row c hc)
      · exact absurd hK (h.one c hcm g).2
    have : ∀ e, ReflTransGen (PEdge A s.qinv) c e → e < A.m ∧ y.x.w.g e = -1 := by
      intro e he
      induction he with
      | refl => exact ⟨hcm, hwc⟩
      | tail _ h2 ih => exact hcl _ _ ih.1 ih.2 h2
    have := (this j hp).2
    omega

end Spasm.Greedy
