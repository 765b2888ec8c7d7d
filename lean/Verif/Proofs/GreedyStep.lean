import Verif.Proofs.Greedy
import Mathlib.Algebra.BigOperators.Fin

namespace Spasm.Greedy

open Finset Relation

variable {T : Nat} {A : Csr} {q0 : Array Int}

/-- The measure of a thread. -/
def Thread.mu (A : Csr) (y : Thread) : Nat :=
  y.todo.length * (4 * A.n + A.m + A.p.g A.n + 11) +
  match y.pc with
  | .idle => 0
  | .start => 4 * A.n + A.m + A.p.g A.n + 10
  | .scatter px => 4 * (A.n - y.k) + A.m + 8 + (A.p.g (y.i + 1) - px)
  | .bfs => 4 * (A.n - y.k) + (A.m - y.x.head) + 7
  | .commit _ => 4 * (A.n - y.k) + (A.m - y.x.head) + 6
  | .examine tgt => 4 * (A.n - y.k) + (A.m - y.x.head) + (if y.k < tgt then 5 else 8)
  | .register _ => 4
  | .journal _ _ => 3
  | .publish _ _ => 2
  | .clean => 1

/-- The measure of a state. -/
def St.mu (A : Csr) (s : St T) : Nat := ∑ t, (s.th t).mu A

theorem St.mu_lt {s s' : St T} {t : Fin T} {y' : Thread} (hth : s'.th = Function.update s.th t y')
    (h : y'.mu A < (s.th t).mu A) : s'.mu A < s.mu A := by
  unfold St.mu
  refine Finset.sum_lt_sum ?_ ⟨t, mem_univ t, ?_⟩
  · intro u _
    by_cases hu : u = t
    · subst hu; rw [hth]; simp only [Function.update_self]; exact h.le
    · rw [hth]; simp [hu]
  · rw [hth]; simp only [Function.update_self]; exact h

/-- What a step must achieve. -/
def Good (A : Csr) (q0 : Array Int) (s s' : St T) : Prop := (∃ pd, Inv A q0 pd s') ∧ s'.mu A < s.mu A

theorem Good.private {pd : Option Nat} {s : St T} (h : Inv A q0 pd s) {t : Fin T} {y' : Thread}
    (hc : (s.th t).pc.crit = false) (hc' : y'.pc.crit = false)
    (hown : y'.owned.Sublist (s.th t).owned) (hT : TInv A q0 pd s y')
    (hmu : y'.mu A < (s.th t).mu A) : Good A q0 s (s.set t y') :=
  ⟨⟨pd, h.private hc hc' hown hT⟩, St.mu_lt rfl hmu⟩

theorem owned_eq {y y' : Thread} (h : y.pc ≠ .idle) (h' : y'.pc ≠ .idle) (hi : y'.i = y.i)
    (ht : y'.todo = y.todo) : y'.owned.Sublist y.owned := by
  unfold Thread.owned
  rw [if_neg h, if_neg h', hi, ht]

theorem step_idle {pd : Option Nat} {s : St T} (h : Inv A q0 pd s) {t : Fin T} {i : Nat}
    {is : List Nat} (hpc : (s.th t).pc = .idle) (htd : (s.th t).todo = i :: is) :
    Ok (do
        let pi ← rd s.pinv i
        if 0 ≤ pi then .ok (s.set t { s.th t with todo := is })
        else .ok (s.set t { s.th t with pc := .start, i := i, todo := is })) (Good A q0 s) := by
  have hT := h.thr t
  unfold TInv at hT
  rw [hpc] at hT
  have hown : (s.th t).owned = i :: is := by unfold Thread.owned; rw [if_pos hpc, htd]
  have hi := h.rng t i (by rw [hown]; exact List.mem_cons_self)
  have hps := h.sh.ps.psize
  rw [Ok_bind, Ok_rd]; refine ⟨by omega, ?_⟩
  have hmu : (s.th t).mu A = (is.length + 1) * (4 * A.n + A.m + A.p.g A.n + 11) := by
    unfold Thread.mu; rw [hpc, htd]; simp
  have hexp := Nat.succ_mul is.length (4 * A.n + A.m + A.p.g A.n + 11)
  by_cases h0 : 0 ≤ s.pinv.g i
  · rw [if_pos h0, Ok_ok]
    refine Good.private h (by rw [hpc]; rfl) (by simp only [hpc]; rfl) ?_ ?_ ?_
    · rw [hown]; unfold Thread.owned; simp only [hpc]; simp
    · unfold TInv; simp only [hpc]; exact hT
    · rw [hmu]; unfold Thread.mu; simp only [hpc]
      simp only [Nat.succ_eq_add_one] at hexp
      omega
  · rw [if_neg h0, Ok_ok]
    refine Good.private h (by rw [hpc]; rfl) rfl ?_ ?_ ?_
    · rw [hown]; unfold Thread.owned; simp
    · have := h.sh.ps.p_ge i hi
      exact ⟨hT, hi, by show s.pinv.g i = -1; omega⟩
    · rw [hmu]; unfold Thread.mu; simp only
      simp only [Nat.succ_eq_add_one] at hexp
      omega

theorem step_start (hA : A.WF) {pd : Option Nat} {s : St T} (h : Inv A q0 pd s) {t : Fin T}
    (hpc : (s.th t).pc = .start) :
    Ok (do
      let lo ← rd A.p (s.th t).i
      .ok (s.set t { s.th t with pc := .scatter lo, k := s.npiv,
                                 x := { (s.th t).x with head := 0, tail := 0, surv := 0 } }))
      (Good A q0 s) := by
  have hT := h.thr t
  unfold TInv at hT
  rw [hpc] at hT
  obtain ⟨h1, h2, h3⟩ := hT
  have hps := hA.p_size
  have hrl := hA.row_le h2
  rw [Ok_bind, Ok_rd]; refine ⟨by omega, ?_⟩
  rw [Ok_ok]
  refine Good.private h (by rw [hpc]; rfl) rfl (owned_eq (by rw [hpc]; simp) (by simp) rfl rfl) ?_ ?_
  · show Sca A q0 s _ _
    refine ⟨h1.start, h2, h3, le_refl _, ?_, rfl, le_refl _, hrl.1, ?_, ?_⟩
    · intro j hj hw
      simp only [h1.zero j hj] at hw
      omega
    · intro l hl1 hl2
      simp only at hl1
      omega
    · intro c hc hw
      exact absurd (h1.zero c hc) hw
  · unfold Thread.mu; rw [hpc]; simp only; omega

theorem step_scatter (hA : A.WF) (hnd : A.NoDup) {pd : Option Nat} {s : St T} (h : Inv A q0 pd s)
    {t : Fin T} {px : Nat} (hpc : (s.th t).pc = .scatter px) :
    Ok (do
      let hi ← rd A.p ((s.th t).i + 1)
      if px < hi then do
        let x ← scatter_entry A s.qinv (s.th t).x px
        .ok (s.set t { s.th t with pc := .scatter (px + 1), x := x })
      else .ok (s.set t { s.th t with pc := .bfs })) (Good A q0 s) := by
  have hT := h.thr t
  unfold TInv at hT
  rw [hpc] at hT
  simp only at hT
  have hi := hT.i_lt
  have hps := hA.p_size
  rw [Ok_bind, Ok_rd]; refine ⟨by omega, ?_⟩
  by_cases hlt : px < A.p.g ((s.th t).i + 1)
  · rw [if_pos hlt, Ok_bind]
    refine (scatter_step hA hnd h.sh hT hlt).mono ?_
    intro x hx
    rw [Ok_ok]
    refine Good.private h (by rw [hpc]; rfl) rfl (owned_eq (by rw [hpc]; simp) (by simp) rfl rfl)
      (hx _) ?_
    unfold Thread.mu; rw [hpc]; simp only; omega
  · rw [if_neg hlt, Ok_ok]
    refine Good.private h (by rw [hpc]; rfl) rfl (owned_eq (by rw [hpc]; simp) (by simp) rfl rfl)
      (hT.act hlt _) ?_
    unfold Thread.mu; rw [hpc]; simp only; omega

theorem step_bfs (hA : A.WF) {pd : Option Nat} {s : St T} (h : Inv A q0 pd s)
    {t : Fin T} (hpc : (s.th t).pc = .bfs) :
    Ok (if (s.th t).x.head < (s.th t).x.tail ∧ 0 < (s.th t).x.surv then do
        let x ← bfs_pop A s.qinv (s.th t).x
        .ok (s.set t { s.th t with x := x })
      else if (s.th t).x.surv = 0 then .ok (s.set t { s.th t with pc := .clean })
      else do
        let j ← survivor A (s.th t).x (s.th t).i
        .ok (s.set t { s.th t with pc := .commit j })) (Good A q0 s) := by
  have hT := h.thr t
  unfold TInv at hT
  rw [hpc] at hT
  simp only at hT
  have htl := hT.si.tail_le
  by_cases h1 : (s.th t).x.head < (s.th t).x.tail ∧ 0 < (s.th t).x.surv
  · rw [if_pos h1, Ok_bind]
    refine (pop_step hA h.sh hT h1.1).mono ?_
    rintro x ⟨hx, hh⟩
    rw [Ok_ok]
    refine Good.private h (by rw [hpc]; rfl) (by simp only [hpc]; rfl)
      (owned_eq (by rw [hpc]; simp) (by simp [hpc]) rfl rfl) ?_ ?_
    · unfold TInv; simp only [hpc] at hx ⊢; exact hx
    · unfold Thread.mu; simp only [hpc, hh]; omega
  rw [if_neg h1]
  by_cases h2 : (s.th t).x.surv = 0
  · rw [if_pos h2, Ok_ok]
    refine Good.private h (by rw [hpc]; rfl) rfl (owned_eq (by rw [hpc]; simp) (by simp) rfl rfl) ?_ ?_
    · have := hT.cln
      exact ⟨this.wsize, this.qsize, this.i_lt, this.tail, this.qlt, this.nz⟩
    · unfold Thread.mu; rw [hpc]; simp only; omega
  · rw [if_neg h2, Ok_bind]
    refine (survivor_spec hA hT.si hT.i_lt (fun j hj hw => (hT.one j hj hw).1) h2).mono ?_
    rintro j ⟨hj1, hj2, hj3⟩
    rw [Ok_ok]
    refine Good.private h (by rw [hpc]; rfl) rfl (owned_eq (by rw [hpc]; simp) (by simp) rfl rfl) ?_ ?_
    · refine ⟨⟨hT.si, hT.i_lt, hT.pi, hT.kle, hT.one, hT.row, hT.closed⟩, ?_, hj1, hj3⟩
      have := hT.si.surv
      have := hT.si.ht
      simp only
      omega
    · unfold Thread.mu; rw [hpc]; simp only; omega

theorem step_commit {pd : Option Nat} {s : St T} (h : Inv A q0 pd s)
    {t : Fin T} {j : Nat} (hpc : (s.th t).pc = .commit j) (hl : s.lock = none) :
    Ok (if s.npiv = (s.th t).k then
          .ok { s.set t { s.th t with pc := .register j } with lock := some t }
        else .ok (s.set t { s.th t with pc := .examine s.npiv })) (Good A q0 s) := by
  have hT := h.thr t
  unfold TInv at hT
  rw [hpc] at hT
  simp only at hT
  obtain ⟨h1, h2, h3, h4⟩ := hT
  have hpd := h.sh.free hl
  have hA' : ∀ pc, Act A q0 s { s.th t with pc := pc } := fun pc =>
    ⟨h1.si, h1.i_lt, h1.pi, h1.kle, h1.one, h1.row, h1.closed⟩
  by_cases hk : s.npiv = (s.th t).k
  · rw [if_pos hk, Ok_ok]
    refine ⟨⟨pd, ?_⟩, St.mu_lt (t := t) rfl ?_⟩
    · refine h.next (t := t) rfl ?_ (fun _ _ => rfl) (le_refl _) (fun _ _ => rfl) (Or.inl rfl)
        (Or.inl (Or.inr hl)) ?_ ?_ (owned_eq (by rw [hpc]; simp) (by simp) rfl rfl) ?_
      · exact ⟨h.sh.ps, h.sh.jsize, h.sh.jlt, h.sh.keep, h.sh.known, h.sh.cnt, h.sh.pdlt,
          fun hh => by cases hh⟩
      · simp [Pc.crit]
      · intro u hu
        rw [hl]
        simp only [Option.some.injEq, reduceCtorEq, false_iff]
        exact fun he => hu he.symm
      · have := hA' (.register j)
        exact ⟨⟨⟨this.si, this.i_lt, this.pi, this.kle, this.one, this.row, this.closed⟩, h2, h3, h4⟩,
          hk, hpd⟩
    · unfold Thread.mu; rw [hpc]; simp only; omega
  · rw [if_neg hk, Ok_ok]
    have hle := h1.kle
    refine Good.private h (by rw [hpc]; rfl) rfl (owned_eq (by rw [hpc]; simp) (by simp) rfl rfl) ?_ ?_
    · exact ⟨hA' _, hle, le_refl _⟩
    · unfold Thread.mu; rw [hpc]; simp only
      rw [if_pos (by omega)]; omega

theorem step_register (hA : A.WF) {pd : Option Nat} {s : St T} (h : Inv A q0 pd s)
    {t : Fin T} {j : Nat} (hpc : (s.th t).pc = .register j) :
    Ok (do
      let r ← register_pivot (s.th t).i j s.pinv s.qinv
      .ok { s.set t { s.th t with pc := .journal j r.1 } with pinv := r.2.1, qinv := r.2.2 })
      (Good A q0 s) := by
  have hT := h.thr t
  unfold TInv at hT
  rw [hpc] at hT
  simp only at hT
  obtain ⟨⟨h1, h2, h3, h4⟩, h5, h6⟩ := hT
  have hlock := (h.lock t).1 (by rw [hpc]; rfl)
  have hno := h1.acyclic hA h.sh h2 h4 h5 h6
  obtain ⟨hin, hnK⟩ := h1.one j h3 h4
  have hqj : s.qinv.g j < 0 := by
    by_contra hn
    rcases (h.sh.known j h3).1 (by omega) with g | g
    · rw [h5] at g; exact hnK g
    · rw [h6] at g; cases g
  have hqs := h.sh.ps.qsize
  have hps := h.sh.ps.psize
  rw [Ok_bind]
  refine (register_pivot_spec hA h.sh.ps.toMatching h1.i_lt h1.pi hin).mono ?_
  rintro ⟨r, pinv', qinv'⟩ ⟨g1, g2, g3, g4, g5⟩
  simp only at g1 g2 g3 g4 g5 ⊢
  have hr := g5 hqj
  subst hr
  rw [Ok_ok]
  have hqg : ∀ c, qinv'.g c = if c = j then ((s.th t).i : Int) else s.qinv.g c := by
    intro c
    rw [g2]
    by_cases he : c = j
    · subst he; rw [if_pos rfl, g_upd_eq _ _ _ (by omega)]
    · rw [if_neg he, g_upd_ne _ _ _ _ he]
  refine ⟨⟨some j, ?_⟩, St.mu_lt (t := t) rfl ?_⟩
  · refine h.next (t := t) rfl ?_ ?_ (le_refl _) (fun _ _ => rfl) (Or.inr ⟨by rw [hpc]; simp, ?_⟩)
      (Or.inl (Or.inl hlock)) ?_ (fun u _ => Iff.rfl) (owned_eq (by rw [hpc]; simp) (by simp) rfl rfl) ?_
    · refine ⟨⟨g1, ?_⟩, h.sh.jsize, h.sh.jlt, ?_, ?_, ?_, ?_, ?_⟩
      · show PAcyclic A qinv'
        rw [g2]
        exact h.sh.ps.acyclic.insert hqj hno
      · intro c hc h0
        show qinv'.g c = _
        rw [hqg, if_neg]
        · exact h.sh.keep c hc h0
        · rintro rfl
          exact hnK (Or.inl h0)
      · intro c hc
        show 0 ≤ qinv'.g c ↔ _
        rw [hqg]
        by_cases he : c = j
        · subst he; rw [if_pos rfl]
          exact ⟨fun _ => Or.inr rfl, fun _ => by omega⟩
        · rw [if_neg he, h.sh.known c hc, h6]
          simp only [reduceCtorEq, or_false, Option.some.injEq]
          constructor
          · exact Or.inl
          · rintro (g | g)
            · exact g
            · exact absurd g.symm he
      · show pivCount A.m qinv' = _
        rw [g4, h.sh.cnt, h6]
        simp only [Option.isSome_none, Option.isSome_some, Bool.false_eq_true, if_false, if_true]
        rfl
      · intro c hc; cases hc; exact h3
      · intro hh
        have : s.lock = none := hh
        rw [hlock] at this; cases this
    · intro c h0
      show qinv'.g c = _
      rw [hqg, if_neg]
      rintro rfl; omega
    · intro i hi
      show pinv'.g i = s.pinv.g i
      by_cases hin' : i < A.n
      · rw [g3 i hin', if_neg hi, if_neg (by omega)]
      · rw [g_ge _ _ (by rw [g1.psize]; omega), g_ge _ _ (by omega)]
    · show _ ↔ s.lock = some t
      rw [hlock]; simp [Pc.crit]
    · have := h1.cln
      exact ⟨⟨this.wsize, this.qsize, this.i_lt, this.tail, this.qlt, this.nz⟩, rfl, rfl⟩
  · unfold Thread.mu; rw [hpc]; simp only; omega

theorem step_journal {pd : Option Nat} {s : St T} (h : Inv A q0 pd s)
    {t : Fin T} {j r : Nat} (hpc : (s.th t).pc = .journal j r) :
    Ok (do
      let a ← wr s.journal s.npiv j
      .ok { s.set t { s.th t with pc := .publish j r } with journal := a })
      (Good A q0 s) := by
  have hT := h.thr t
  unfold TInv at hT
  rw [hpc] at hT
  simp only at hT
  obtain ⟨h1, h2, h3⟩ := hT
  have hlock := (h.lock t).1 (by rw [hpc]; rfl)
  have hnp := h.sh.npiv_le
  have hjs := h.sh.jsize
  rw [h3] at hnp
  simp only [Option.isSome_some, if_true] at hnp
  rw [Ok_bind, Ok_wr]; refine ⟨by omega, ?_⟩
  rw [Ok_ok]
  have hJ : ∀ l, l < s.npiv → (s.journal.upd s.npiv j).g l = s.journal.g l := fun l hl =>
    g_upd_ne _ _ _ _ (by omega)
  refine ⟨⟨pd, ?_⟩, St.mu_lt (t := t) rfl ?_⟩
  · refine h.next (t := t) rfl ?_ (fun _ _ => rfl) (le_refl _) hJ (Or.inl rfl)
      (Or.inl (Or.inl hlock)) ?_ (fun u _ => Iff.rfl) (owned_eq (by rw [hpc]; simp) (by simp) rfl rfl) ?_
    · refine ⟨h.sh.ps, ?_, ?_, h.sh.keep, ?_, h.sh.cnt, h.sh.pdlt, h.sh.free⟩
      · simpa using hjs
      · intro l hl
        show (s.journal.upd s.npiv j).g l < A.m
        rw [hJ l hl]; exact h.sh.jlt l hl
      · intro c hc
        show 0 ≤ s.qinv.g c ↔ Known q0 (s.journal.upd s.npiv j) s.npiv c ∨ _
        rw [Known.congr hJ]
        exact h.sh.known c hc
    · show _ ↔ s.lock = some t
      rw [hlock]; simp [Pc.crit]
    · refine ⟨⟨h1.wsize, h1.qsize, h1.i_lt, h1.tail, h1.qlt, h1.nz⟩, h2, h3, ?_⟩
      show (s.journal.upd s.npiv j).g s.npiv = j
      exact g_upd_eq _ _ _ (by omega)
  · unfold Thread.mu; rw [hpc]; simp only; omega

theorem step_publish {pd : Option Nat} {s : St T} (h : Inv A q0 pd s)
    {t : Fin T} {j r : Nat} (hpc : (s.th t).pc = .publish j r) :
    Good A q0 s { s.set t { s.th t with pc := .clean } with npiv := s.npiv + r, lock := none } := by
  have hT := h.thr t
  unfold TInv at hT
  rw [hpc] at hT
  simp only at hT
  obtain ⟨h1, h2, h3, h4⟩ := hT
  have hlock := (h.lock t).1 (by rw [hpc]; rfl)
  subst h2
  refine ⟨⟨none, ?_⟩, St.mu_lt (t := t) rfl ?_⟩
  · refine h.next (t := t) rfl ?_ (fun _ _ => rfl) (by simp) (fun _ _ => rfl) (Or.inl rfl)
      (Or.inl (Or.inl hlock)) ?_ ?_ (owned_eq (by rw [hpc]; simp) (by simp) rfl rfl) ?_
    · refine ⟨h.sh.ps, h.sh.jsize, ?_, h.sh.keep, ?_, ?_, ?_, fun _ => rfl⟩
      · intro l hl
        have hl : l < s.npiv + 1 := hl
        show s.journal.g l < A.m
        by_cases he : l = s.npiv
        · rw [he, h4]; exact h.sh.pdlt j h3
        · exact h.sh.jlt l (by omega)
      · intro c hc
        show 0 ≤ s.qinv.g c ↔ Known q0 s.journal (s.npiv + 1) c ∨ _
        rw [h.sh.known c hc, h3]
        simp only [reduceCtorEq, or_false, Option.some.injEq]
        constructor
        · rintro (g | g)
          · exact g.mono (by omega)
          · exact Or.inr ⟨s.npiv, by omega, by rw [h4]; exact g⟩
        · rintro (g | ⟨l, g1, g2⟩)
          · exact Or.inl (Or.inl g)
          · by_cases he : l = s.npiv
            · right; rw [← g2, he, h4]
            · left; exact Or.inr ⟨l, by omega, g2⟩
      · show pivCount A.m s.qinv = pivCount A.m q0 + (s.npiv + 1) + _
        rw [h.sh.cnt, h3]
        simp only [Option.isSome_none, Option.isSome_some, Bool.false_eq_true, if_false, if_true]
        omega
      · intro c hc; cases hc
    · show _ ↔ none = some t
      simp [Pc.crit]
    · intro u hu
      rw [hlock]
      simp only [Option.some.injEq, reduceCtorEq, iff_false]
      exact fun he => hu he.symm
    · exact ⟨h1.wsize, h1.qsize, h1.i_lt, h1.tail, h1.qlt, h1.nz⟩
  · unfold Thread.mu; rw [hpc]; simp only; omega

theorem step_examine (hA : A.WF) {pd : Option Nat} {s : St T} (h : Inv A q0 pd s)
    {t : Fin T} {target : Nat} (hpc : (s.th t).pc = .examine target) :
    Ok (if (s.th t).k < target then do
        let j ← rd s.journal (s.th t).k
        let x ← examine A s.qinv (s.th t).x j
        .ok (s.set t { s.th t with k := (s.th t).k + 1, x := x })
      else .ok (s.set t { s.th t with pc := .bfs })) (Good A q0 s) := by
  have hT := h.thr t
  unfold TInv at hT
  rw [hpc] at hT
  simp only at hT
  obtain ⟨h1, h2, h3⟩ := hT
  have hnp := h.sh.npiv_le
  have hjs := h.sh.jsize
  by_cases hk : (s.th t).k < target
  · rw [if_pos hk, Ok_bind, Ok_rd]; refine ⟨by omega, ?_⟩
    rw [Ok_bind]
    refine (examine_step hA h.sh h1 (by omega)).mono ?_
    rintro x ⟨hx, hh⟩
    rw [Ok_ok]
    refine Good.private h (by rw [hpc]; rfl) (by simp only [hpc]; rfl)
      (owned_eq (by rw [hpc]; simp) (by simp [hpc]) rfl rfl) ?_ ?_
    · unfold TInv; simp only [hpc] at hx ⊢
      exact ⟨hx, by omega, h3⟩
    · unfold Thread.mu; simp only [hpc, hh]
      rw [if_pos hk]
      split <;> omega
  · rw [if_neg hk, Ok_ok]
    refine Good.private h (by rw [hpc]; rfl) rfl (owned_eq (by rw [hpc]; simp) (by simp) rfl rfl) ?_ ?_
    · exact ⟨h1.si, h1.i_lt, h1.pi, h1.kle, h1.one, h1.row, h1.closed⟩
    · unfold Thread.mu; rw [hpc]; simp only
      rw [if_neg hk]; omega

theorem step_clean (hA : A.WF) {pd : Option Nat} {s : St T} (h : Inv A q0 pd s)
    {t : Fin T} (hpc : (s.th t).pc = .clean) :
    Ok (do
      let w ← cleanup A (s.th t).x (s.th t).i
      .ok (s.set t { s.th t with pc := .idle, x := { (s.th t).x with w := w } })) (Good A q0 s) := by
  have hT := h.thr t
  unfold TInv at hT
  rw [hpc] at hT
  simp only at hT
  rw [Ok_bind]
  refine (cleanup_spec hA hT.wsize hT.qsize hT.i_lt hT.tail hT.qlt hT.nz).mono ?_
  rintro w ⟨h1, h2⟩
  rw [Ok_ok]
  refine Good.private h (by rw [hpc]; rfl) rfl ?_ ⟨h1, hT.qsize, h2⟩ ?_
  · unfold Thread.owned; rw [hpc]; simp
  · unfold Thread.mu; rw [hpc]; simp

theorem inv_step (hA : A.WF) (hnd : A.NoDup) {pd : Option Nat} {s : St T} (h : Inv A q0 pd s)
    {t : Fin T} {r : C (St T)} (hst : step A t s = some r) : Ok r (Good A q0 s) := by
  rcases hpc : (s.th t).pc with _ | _ | px | _ | j | j | ⟨j, k⟩ | ⟨j, k⟩ | tgt | _
  · simp only [step, hpc] at hst
    rcases htd : (s.th t).todo with _ | ⟨i, is⟩
    · rw [htd] at hst; cases hst
    · rw [htd] at hst
      rw [← Option.some.inj hst]
      have := step_idle h hpc htd
      simp only [hpc] at this
      exact this
  · simp only [step, hpc] at hst
    rw [← Option.some.inj hst]
    exact step_start hA h hpc
  · simp only [step, hpc] at hst
    rw [← Option.some.inj hst]
    exact step_scatter hA hnd h hpc
  · simp only [step, hpc] at hst
    rw [← Option.some.inj hst]
    have := step_bfs hA h hpc
    simp only [hpc] at this
    exact this
  · simp only [step, hpc] at hst
    rcases hl : s.lock with _ | u
    · rw [hl] at hst
      have := step_commit h hpc hl
      simp only at hst
      split at hst
      · rename_i hk
        rw [if_pos hk] at this
        rw [← Option.some.inj hst]; exact this
      · rename_i hk
        rw [if_neg hk] at this
        rw [← Option.some.inj hst]; exact this
    · rw [hl] at hst; cases hst
  · simp only [step, hpc] at hst
    rw [← Option.some.inj hst]
    exact step_register hA h hpc
  · simp only [step, hpc] at hst
    rw [← Option.some.inj hst]
    exact step_journal h hpc
  · simp only [step, hpc] at hst
    rw [← Option.some.inj hst, Ok_ok]
    exact step_publish h hpc
  · simp only [step, hpc] at hst
    rw [← Option.some.inj hst]
    have := step_examine hA h hpc
    simp only [hpc] at this
    exact this
  · simp only [step, hpc] at hst
    rw [← Option.some.inj hst]
    exact step_clean hA h hpc

/-- As long as some thread is not done, some thread can move. -/
theorem progress {pd : Option Nat} {s : St T} (h : Inv A q0 pd s)
    (hf : ¬ s.Finished) : ∃ t r, step A t s = some r := by
  rcases hl : s.lock with _ | u
  · unfold St.Finished at hf
    rw [not_forall] at hf
    obtain ⟨t, ht⟩ := hf
    refine ⟨t, ?_⟩
    rcases hpc : (s.th t).pc with _ | _ | px | _ | j | j | ⟨j, k⟩ | ⟨j, k⟩ | tgt | _
    · rcases htd : (s.th t).todo with _ | ⟨i, is⟩
      · exact absurd ⟨hpc, htd⟩ ht
      · simp only [step, hpc, htd]; exact ⟨_, rfl⟩
    · simp only [step, hpc]; exact ⟨_, rfl⟩
    · simp only [step, hpc]; exact ⟨_, rfl⟩
    · simp only [step, hpc]; exact ⟨_, rfl⟩
    · simp only [step, hpc, hl]
      split <;> exact ⟨_, rfl⟩
    · simp only [step, hpc]; exact ⟨_, rfl⟩
    · simp only [step, hpc]; exact ⟨_, rfl⟩
    · simp only [step, hpc]; exact ⟨_, rfl⟩
    · simp only [step, hpc]; exact ⟨_, rfl⟩
    · simp only [step, hpc]; exact ⟨_, rfl⟩
  · refine ⟨u, ?_⟩
    have hc := (h.lock u).2 hl
    rcases hpc : (s.th u).pc with _ | _ | px | _ | j | j | ⟨j, k⟩ | ⟨j, k⟩ | tgt | _ <;>
      rw [hpc] at hc <;> first | cases hc; done | skip
    · simp only [step, hpc]; exact ⟨_, rfl⟩
    · simp only [step, hpc]; exact ⟨_, rfl⟩
    · simp only [step, hpc]; exact ⟨_, rfl⟩

theorem inv_init (jk : Junk) {pinv qinv : Array Int} (hP : PivotSet A pinv qinv)
    {rows : Fin T → List Nat} (hnd : ∀ t, (rows t).Nodup)
    (hdis : ∀ t u, t ≠ u → ∀ i, i ∈ rows t → i ∉ rows u) (hlt : ∀ t i, i ∈ rows t → i < A.n) :
    Inv A qinv none (St.init A jk pinv qinv rows) := by
  have hown : ∀ t, ((St.init A jk pinv qinv rows).th t).owned = rows t := fun t => rfl
  refine ⟨⟨hP, by simp [St.init], ?_, fun _ _ _ => rfl, ?_, by simp [St.init], ?_, fun _ => rfl⟩, ?_, ?_,
    ?_, ?_, ?_⟩
  · intro l hl
    exact absurd hl (Nat.not_lt_zero _)
  · intro j hj
    show 0 ≤ qinv.g j ↔ _
    constructor
    · intro h0; exact Or.inl (Or.inl h0)
    · rintro ((g | ⟨l, g, -⟩) | g)
      · exact g
      · exact absurd g (Nat.not_lt_zero _)
      · cases g
  · intro j hj; cases hj
  · intro u
    show false = true ↔ none = some u
    simp
  · intro t; rw [hown]; exact hnd t
  · intro t u htu i; rw [hown, hown]; exact hdis t u htu i
  · intro t i; rw [hown]; exact hlt t i
  · intro t
    exact ⟨by simp [St.init], by simp [St.init], fun j hj => by simp [St.init]; exact g_mkArr _ _ _ hj⟩

end Spasm.Greedy
