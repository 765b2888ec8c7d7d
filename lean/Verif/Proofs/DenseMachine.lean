import Verif.Model.Dense
import Verif.Proofs.Append

/-
The threads of `spasm_schur_dense`.
-/

namespace Spasm

open Finset

variable {T : Nat}

/-- The entry appended to `L` by an action. -/
def DAct.app? : DAct → Option (Nat × Nat × Int)
  | .app e => some e
  | _ => none

/-- The part about `L`. -/
def DSt.proj (s : DSt T) : ASt (Nat × Nat × Int) T :=
  ⟨s.nz, s.buf, fun t => ⟨(s.th t).slot, (s.th t).todo.filterMap DAct.app?⟩⟩

theorem DSt.proj_update (s : DSt T) (S : Array ℚ) (po : Array Nat) (nz : Nat)
    (buf : Array (Nat × Nat × Int)) (t : Fin T) (d : DThread) :
    (DSt.proj ⟨S, po, nz, buf, Function.update s.th t d⟩) =
      ⟨nz, buf, Function.update s.proj.th t ⟨d.slot, d.todo.filterMap DAct.app?⟩⟩ := by
  unfold DSt.proj
  congr 1
  funext u
  by_cases h : u = t
  · subst h; simp
  · simp [Function.update_of_ne h]

/-- Invariant of the interleavings, when the values written in each cell are given by `F` and `G`. -/
structure DenseInv (s0 : DSt T) (jobs : Fin T → List DAct) (F : Nat → ℚ) (G : Nat → Nat) (s : DSt T) :
    Prop where
  reach : AReach s0.proj s.proj
  head : ∀ t k, (s.th t).slot = some k → ∃ e as, (s.th t).todo = .app e :: as
  sub : ∀ t, ∀ a ∈ (s.th t).todo, a ∈ jobs t
  Ssz : s.S.size = s0.S.size
  posz : s.po.size = s0.po.size
  cell : ∀ t k v, .cell k v ∈ jobs t → .cell k v ∈ (s.th t).todo ∨ s.S.g k = v
  out : ∀ t k v, .out k v ∈ jobs t → .out k v ∈ (s.th t).todo ∨ s.po.g k = v
  cell0 : ∀ k, (∀ t v, .cell k v ∉ jobs t) → s.S.g k = s0.S.g k
  out0 : ∀ k, (∀ t v, .out k v ∉ jobs t) → s.po.g k = s0.po.g k

/-- The hypotheses: what the threads write in `S` and `p_out`, and enough room for `L`. -/
structure DenseHyp (s0 : DSt T) (jobs : Fin T → List DAct) (F : Nat → ℚ) (G : Nat → Nat) : Prop where
  th : s0.th = fun t => ⟨none, jobs t⟩
  cell : ∀ t k v, .cell k v ∈ jobs t → v = F k ∧ k < s0.S.size
  out : ∀ t k v, .out k v ∈ jobs t → v = G k ∧ k < s0.po.size
  cap : s0.nz + Multiset.card (∑ t, (((jobs t).filterMap DAct.app? : List _) :
    Multiset (Nat × Nat × Int))) ≤ s0.buf.size

variable {s0 s : DSt T} {jobs : Fin T → List DAct} {F : Nat → ℚ} {G : Nat → Nat}

theorem DenseHyp.proj (h : DenseHyp s0 jobs F G) : s0.proj =
    ASt.init s0.nz s0.buf (fun t => (jobs t).filterMap DAct.app?) := by
  unfold DSt.proj ASt.init
  rw [h.th]

theorem denseinv_init (h : DenseHyp s0 jobs F G) : DenseInv s0 jobs F G s0 := by
  refine ⟨.init, ?_, ?_, rfl, rfl, ?_, ?_, fun _ _ => rfl, fun _ _ => rfl⟩
  · intro t k hk; rw [h.th] at hk; cases hk
  · intro t a ha; rw [h.th] at ha; exact ha
  · intro t k v hv; rw [h.th]; exact Or.inl hv
  · intro t k v hv; rw [h.th]; exact Or.inl hv

/-- A thread that does an action on `S` or `p_out`. -/
theorem proj_skip {t : Fin T} {a : DAct} {as : List DAct} {o : Option Nat} (hth : s.th t = ⟨o, a :: as⟩)
    (ha : a.app? = none) (ho : o = none) (S : Array ℚ) (po : Array Nat) :
    (DSt.proj ⟨S, po, s.nz, s.buf, Function.update s.th t ⟨none, as⟩⟩) = s.proj := by
  rw [DSt.proj_update]
  unfold DSt.proj
  congr 1
  funext u
  by_cases h : u = t
  · subst h
    rw [Function.update_self, hth, ho]
    simp [ha]
  · rw [Function.update_of_ne h]

theorem mem_update_todo {th : Fin T → DThread} {t u : Fin T} {o : Option Nat} {a b : DAct}
    {as : List DAct} (hth : (th t).todo = a :: as) (hb : b ∈ (th u).todo) (hne : u = t → b ≠ a) :
    b ∈ (Function.update th t ⟨o, as⟩ u).todo := by
  by_cases h : u = t
  · subst h
    rw [Function.update_self]
    rw [hth] at hb
    rcases List.mem_cons.mp hb with hb | hb
    · exact absurd hb (hne rfl)
    · exact hb
  · rw [Function.update_of_ne h]; exact hb

theorem sub_update_todo {th : Fin T → DThread} {t : Fin T} {o : Option Nat} {a : DAct}
    {as : List DAct} (hth : (th t).todo = a :: as) (hs : ∀ u, ∀ b ∈ (th u).todo, b ∈ jobs u) :
    ∀ u, ∀ b ∈ (Function.update th t ⟨o, as⟩ u).todo, b ∈ jobs u := by
  intro u b hb
  by_cases h : u = t
  · subst h
    rw [Function.update_self] at hb
    exact hs u b (by rw [hth]; exact List.mem_cons_of_mem _ hb)
  · rw [Function.update_of_ne h] at hb; exact hs u b hb

theorem head_update {th : Fin T → DThread} {t : Fin T} {as : List DAct}
    (hs : ∀ u k, (th u).slot = some k → ∃ e as, (th u).todo = .app e :: as) :
    ∀ u k, (Function.update th t ⟨none, as⟩ u).slot = some k →
      ∃ e as', (Function.update th t ⟨none, as⟩ u).todo = .app e :: as' := by
  intro u k hk
  by_cases h : u = t
  · subst h; rw [Function.update_self] at hk; cases hk
  · rw [Function.update_of_ne h] at hk ⊢; exact hs u k hk

theorem dstep_inv (hH : DenseHyp s0 jobs F G) (h : DenseInv s0 jobs F G s) (t : Fin T) {r : C (DSt T)}
    (hr : dstep t s = some r) : Ok r (DenseInv s0 jobs F G) := by
  have hA := append_spec (T := T) hH.cap (s := s.proj) (by have := h.reach; rwa [hH.proj] at this)
  unfold dstep at hr
  split at hr
  · cases hr
  · -- p_out
    rename_i o k i as hth
    have ho : o = none := by
      cases ho : o with
      | none => rfl
      | some x =>
        obtain ⟨e, as', he⟩ := h.head t x (by rw [hth, ho])
        rw [hth] at he; cases he
    have hj : .out k i ∈ jobs t := h.sub t _ (by rw [hth]; exact List.mem_cons_self)
    obtain ⟨hG1, hG2⟩ := hH.out t k i hj
    have hk : k < s.po.size := by rw [h.posz]; exact hG2
    have ht : (s.th t).todo = .out k i :: as := by rw [hth]
    simp only [Option.some.injEq] at hr
    subst hr
    rw [Ok_bind, Ok_wr]
    refine ⟨hk, ?_⟩
    rw [Ok_ok]
    refine ⟨?_, head_update h.head, sub_update_todo ht h.sub, h.Ssz, by rw [← h.posz]; simp, ?_, ?_,
      h.cell0, ?_⟩
    · rw [proj_skip hth rfl ho]; exact h.reach
    · intro u k' v hv
      rcases h.cell u k' v hv with h1 | h1
      · exact Or.inl (mem_update_todo ht h1 (fun _ => by simp))
      · exact Or.inr h1
    · intro u k' v hv
      by_cases hkk : k' = k
      · right
        subst hkk
        rw [g_upd_eq _ _ _ hk, hG1, (hH.out u _ v hv).1]
      · rcases h.out u k' v hv with h1 | h1
        · exact Or.inl (mem_update_todo ht h1 (fun _ => by simp [hkk]))
        · right; rw [g_upd_ne _ _ _ _ hkk]; exact h1
    · intro k' hk'
      have : k' ≠ k := fun e => hk' t i (e ▸ hj)
      rw [g_upd_ne _ _ _ _ this]; exact h.out0 k' hk'
  · -- S
    rename_i o k i as hth
    have ho : o = none := by
      cases ho : o with
      | none => rfl
      | some x =>
        obtain ⟨e, as', he⟩ := h.head t x (by rw [hth, ho])
        rw [hth] at he; cases he
    have hj : .cell k i ∈ jobs t := h.sub t _ (by rw [hth]; exact List.mem_cons_self)
    obtain ⟨hG1, hG2⟩ := hH.cell t k i hj
    have hk : k < s.S.size := by rw [h.Ssz]; exact hG2
    have ht : (s.th t).todo = .cell k i :: as := by rw [hth]
    simp only [Option.some.injEq] at hr
    subst hr
    rw [Ok_bind, Ok_wr]
    refine ⟨hk, ?_⟩
    rw [Ok_ok]
    refine ⟨?_, head_update h.head, sub_update_todo ht h.sub, by rw [← h.Ssz]; simp, h.posz, ?_, ?_,
      ?_, h.out0⟩
    · rw [proj_skip hth rfl ho]; exact h.reach
    · intro u k' v hv
      by_cases hkk : k' = k
      · right
        subst hkk
        rw [g_upd_eq _ _ _ hk, hG1, (hH.cell u _ v hv).1]
      · rcases h.cell u k' v hv with h1 | h1
        · exact Or.inl (mem_update_todo ht h1 (fun _ => by simp [hkk]))
        · right; rw [g_upd_ne _ _ _ _ hkk]; exact h1
    · intro u k' v hv
      rcases h.out u k' v hv with h1 | h1
      · exact Or.inl (mem_update_todo ht h1 (fun _ => by simp))
      · exact Or.inr h1
    · intro k' hk'
      have : k' ≠ k := fun e => hk' t i (e ▸ hj)
      rw [g_upd_ne _ _ _ _ this]; exact h.cell0 k' hk'
  · -- capture
    rename_i e as hth
    have ht : (s.th t).todo = .app e :: as := by rw [hth]
    simp only [Option.some.injEq] at hr
    subst hr
    rw [Ok_ok]
    have htodo : ∀ u, (Function.update s.th t ⟨some s.nz, .app e :: as⟩ u).todo = (s.th u).todo := by
      intro u
      by_cases hu : u = t
      · subst hu; rw [Function.update_self, hth]
      · rw [Function.update_of_ne hu]
    refine ⟨?_, ?_, ?_, h.Ssz, h.posz, ?_, ?_, h.cell0, h.out0⟩
    · refine AReach.step (t := t) h.reach ?_
      rw [DSt.proj_update]
      unfold astep
      have : s.proj.th t = ⟨none, e :: as.filterMap DAct.app?⟩ := by
        unfold DSt.proj; simp only; rw [hth]; rfl
      rw [this]
      rfl
    · intro u k hk
      simp only [htodo]
      by_cases hu : u = t
      · subst hu; exact ⟨e, as, ht⟩
      · simp only [Function.update_of_ne hu] at hk; exact h.head u k hk
    · intro u; simp only [htodo]; exact h.sub u
    · intro u; simp only [htodo]; exact h.cell u
    · intro u; simp only [htodo]; exact h.out u
  · -- write
    rename_i k e as hth
    have ht : (s.th t).todo = .app e :: as := by rw [hth]
    simp only [Option.some.injEq] at hr
    subst hr
    have hp : s.proj.th t = ⟨some k, e :: as.filterMap DAct.app?⟩ := by
      unfold DSt.proj; simp only; rw [hth]; rfl
    have hst : astep t s.proj = some (do
        let b ← wr s.buf k e
        .ok { s.proj with buf := b, th := Function.update s.proj.th t ⟨none, as.filterMap DAct.app?⟩ }) := by
      unfold astep
      rw [hp]
      rfl
    have hlt : k < s.buf.size := by
      obtain ⟨s', hs'⟩ := hA.1 t _ hst
      have : Ok (do
        let b ← wr s.buf k e
        (.ok { s.proj with buf := b, th := Function.update s.proj.th t ⟨none, as.filterMap DAct.app?⟩ } :
          C (ASt (Nat × Nat × Int) T)))
        (fun _ => True) := by rw [hs']; simp
      rw [Ok_bind, Ok_wr] at this
      exact this.1
    rw [Ok_bind, Ok_wr]
    refine ⟨hlt, ?_⟩
    rw [Ok_ok]
    refine ⟨?_, head_update h.head, sub_update_todo ht h.sub, h.Ssz, h.posz, ?_, ?_, h.cell0, h.out0⟩
    · refine AReach.step (t := t) h.reach ?_
      rw [DSt.proj_update, hst]
      have : wr s.buf k e = .ok (s.buf.upd k e) := by
        have : Ok (wr s.buf k e) (fun b => b = s.buf.upd k e) := by rw [Ok_wr]; exact ⟨hlt, rfl⟩
        obtain ⟨b, hb, rfl⟩ := Ok_iff.1 this
        exact hb
      rw [this]
      rfl
    · intro u k' v hv
      rcases h.cell u k' v hv with h1 | h1
      · exact Or.inl (mem_update_todo ht h1 (fun _ => by simp))
      · exact Or.inr h1
    · intro u k' v hv
      rcases h.out u k' v hv with h1 | h1
      · exact Or.inl (mem_update_todo ht h1 (fun _ => by simp))
      · exact Or.inr h1

theorem dreach_inv (hH : DenseHyp s0 jobs F G) (h : DReach s0 s) : DenseInv s0 jobs F G s := by
  induction h with
  | init => exact denseinv_init hH
  | step _ hs ih => exact dstep_inv hH ih _ hs

theorem DReach.trans {s1 s2 s3 : DSt T} (h : DReach s1 s2) (h' : DReach s2 s3) : DReach s1 s3 := by
  induction h' with
  | init => exact h
  | step _ hs ih => exact .step ih hs

/-- Steps left to do. -/
def DThread.left (d : DThread) : Nat := 2 * d.todo.length - (if d.slot.isSome then 1 else 0)

def DSt.left (s : DSt T) : Nat := ∑ t, (s.th t).left

theorem DThread.left_lt (o o' : Option Nat) (a : DAct) (as : List DAct) :
    (⟨o, as⟩ : DThread).left < (⟨o', a :: as⟩ : DThread).left := by
  unfold DThread.left
  simp only [List.length_cons]
  split <;> split <;> omega

theorem sum_update_lt {th : Fin T → DThread} {t : Fin T} {d : DThread} (h : d.left < (th t).left) :
    ∑ u, (Function.update th t d u).left < ∑ u, (th u).left := by
  refine Finset.sum_lt_sum (fun u _ => ?_) ⟨t, mem_univ _, by rw [Function.update_self]; exact h⟩
  by_cases hu : u = t
  · subst hu; rw [Function.update_self]; exact h.le
  · rw [Function.update_of_ne hu]

/-- Every step decreases the number of steps left, so that every interleaving ends. -/
theorem dstep_left {s' : DSt T} {t : Fin T} (h : dstep t s = some (.ok s')) : s'.left < s.left := by
  have key : ∀ (o : Option Nat) (a : DAct) (as : List DAct), s.th t = ⟨o, a :: as⟩ →
      ∑ u, (Function.update s.th t ⟨none, as⟩ u).left < s.left := by
    intro o a as hth
    exact sum_update_lt (by rw [hth]; exact DThread.left_lt _ _ _ _)
  have hb : ∀ {α : Type} (a : Array α) (k : Nat) (v : α) (f : Array α → DSt T),
      (do let b ← wr a k v; (.ok (f b) : C (DSt T))) = .ok s' → ∃ b, s' = f b := by
    intro α a k v f hh
    cases hw : wr a k v with
    | error e => rw [hw] at hh; cases hh
    | ok b => rw [hw] at hh; cases hh; exact ⟨b, rfl⟩
  unfold dstep at h
  split at h
  · cases h
  · rename_i o k i as hth
    obtain ⟨b, rfl⟩ := hb _ _ _ _ (Option.some.inj h)
    exact key _ _ _ hth
  · rename_i o k i as hth
    obtain ⟨b, rfl⟩ := hb _ _ _ _ (Option.some.inj h)
    exact key _ _ _ hth
  · rename_i e as hth
    simp only [Option.some.injEq, Except.ok.injEq] at h
    subst h
    refine sum_update_lt ?_
    rw [hth]
    unfold DThread.left
    simp
  · rename_i k e as hth
    obtain ⟨b, rfl⟩ := hb _ _ _ _ (Option.some.inj h)
    exact key _ _ _ hth

/-- A thread with work left can move. -/
theorem dstep_some (h : ¬ s.Finished) : ∃ t r, dstep t s = some r := by
  unfold DSt.Finished at h
  push Not at h
  obtain ⟨t, ht⟩ := h
  refine ⟨t, ?_⟩
  unfold dstep
  split
  · rename_i hth; rw [hth] at ht; exact absurd rfl ht
  all_goals exact ⟨_, rfl⟩

theorem dcompletes (hH : DenseHyp s0 jobs F G) : ∀ (k : Nat) (s : DSt T), s.left ≤ k → DReach s0 s →
    ∃ s', DReach s s' ∧ s'.Finished := by
  intro k
  induction k with
  | zero =>
    intro s hk hs
    refine ⟨s, .init, ?_⟩
    by_contra hf
    obtain ⟨t, r, hr⟩ := dstep_some hf
    have := dstep_inv hH (dreach_inv hH hs) t hr
    obtain ⟨s', rfl, -⟩ := Ok_iff.1 this
    have := dstep_left hr
    omega
  | succ k ih =>
    intro s hk hs
    by_cases hf : s.Finished
    · exact ⟨s, .init, hf⟩
    · obtain ⟨t, r, hr⟩ := dstep_some hf
      have := dstep_inv hH (dreach_inv hH hs) t hr
      obtain ⟨s', rfl, -⟩ := Ok_iff.1 this
      have := dstep_left hr
      obtain ⟨s'', h1, h2⟩ := ih s' (by omega) (.step hs hr)
      exact ⟨s'', (DReach.step .init hr).trans h1, h2⟩

/-- The final state. -/
theorem dense_final (hH : DenseHyp s0 jobs F G) (h : DReach s0 s) (hf : s.Finished) :
    s.S.size = s0.S.size ∧ s.po.size = s0.po.size ∧
    (∀ t k v, .cell k v ∈ jobs t → s.S.g k = v) ∧ (∀ t k v, .out k v ∈ jobs t → s.po.g k = v) ∧
    (∀ k, (∀ t v, .cell k v ∉ jobs t) → s.S.g k = s0.S.g k) ∧
    (∀ k, (∀ t v, .out k v ∉ jobs t) → s.po.g k = s0.po.g k) ∧
    s.nz = s0.nz + Multiset.card (∑ t, (((jobs t).filterMap DAct.app? : List _) :
      Multiset (Nat × Nat × Int))) ∧
    s.buf.size = s0.buf.size ∧ (∀ k, k < s0.nz → s.buf.g k = s0.buf.g k) ∧
    (Ico s0.nz s.nz).val.map s.buf.g =
      ∑ t, (((jobs t).filterMap DAct.app? : List _) : Multiset (Nat × Nat × Int)) := by
  have hI := dreach_inv hH h
  have hA := append_spec (T := T) hH.cap (s := s.proj) (by have := hI.reach; rwa [hH.proj] at this)
  obtain ⟨b1, b2, b3, b4⟩ := hA.2.2 (by intro t; unfold DSt.proj; simp only; rw [hf t]; rfl)
  refine ⟨hI.Ssz, hI.posz, ?_, ?_, hI.cell0, hI.out0, b1, b2, b3, b4⟩
  · intro t k v hv
    rcases hI.cell t k v hv with h1 | h1
    · rw [hf t] at h1; cases h1
    · exact h1
  · intro t k v hv
    rcases hI.out t k v hv with h1 | h1
    · rw [hf t] at h1; cases h1
    · exact h1

end Spasm
