import Verif.Model.Reach
import Verif.Spec.Reach
import Verif.Proofs.Csr
import Mathlib.Data.Finset.Card

namespace Spasm

open Finset Relation

/-- Position `t` of `xj` holds a stack element or an output element. -/
def Dfs.Pos (m : Nat) (s : Dfs) (t : Nat) : Prop := t < s.h ∨ (s.top ≤ t ∧ t < m)

/-- Column `j` is on the stack or in the output. -/
def Dfs.Act (m : Nat) (s : Dfs) (j : Nat) : Prop := ∃ t, s.Pos m t ∧ s.xj.g t = j

/-- Invariant of `spasm_dfs`; `R` is any set of columns closed under edges. -/
structure DInv (A : Csr) (qinv : Array Int) (R : Nat → Prop) (j0 : Nat) (s0 s : Dfs) : Prop where
  xs : A.m ≤ s.xj.size
  ps : A.m ≤ s.pstack.size
  ms : A.m ≤ s.marks.size
  hxs : s.xj.size = s0.xj.size
  hps : s.pstack.size = s0.pstack.size
  hms : s.marks.size = s0.marks.size
  h_le : s.h ≤ s.top
  top_le : s.top ≤ A.m
  lt : ∀ t, s.Pos A.m t → s.xj.g t < A.m
  inj : ∀ t u, s.Pos A.m t → s.Pos A.m u → s.xj.g t = s.xj.g u → t = u
  marked_act : ∀ j, j < A.m → s.marks.g j ≠ 0 → s.Act A.m j
  act_marked : ∀ t, t + 1 < s.h ∨ (s.top ≤ t ∧ t < A.m) → s.marks.g (s.xj.g t) ≠ 0
  stk : ∀ t, t < s.h → s.marks.g (s.xj.g t) ≠ 0 → 0 ≤ qinv.g (s.xj.g t) →
    s.pstack.g t ≤ A.p.g ((qinv.g (s.xj.g t)).toNat + 1) - A.p.g (qinv.g (s.xj.g t)).toNat ∧
    ∀ k, k < s.pstack.g t → s.Act A.m (A.j.g (A.p.g (qinv.g (s.xj.g t)).toNat + k))
  chain : ∀ t, t + 1 < s.h → PEdge A qinv (s.xj.g t) (s.xj.g (t + 1))
  closed : ∀ t, s.top ≤ t → t < A.m → ∀ j', PEdge A qinv (s.xj.g t) j' → s.Act A.m j'
  topo : PAcyclic A qinv → ∀ t, s.top ≤ t → t < A.m → ∀ j', PEdge A qinv (s.xj.g t) j' →
    j' ≠ s.xj.g t → ∃ u, t < u ∧ u < A.m ∧ s.xj.g u = j'
  reach : ∀ t, s.Pos A.m t → R (s.xj.g t)
  old_top : s.top ≤ s0.top
  old : ∀ t, s0.top ≤ t → t < A.m → s.xj.g t = s0.xj.g t
  kept : s.Act A.m j0

theorem pigeon {f : Nat → Nat} {h top m : Nat} (h1 : h ≤ top) (h2 : top ≤ m) (j : Nat) (hj : j < m)
    (hlt : ∀ t, t < h ∨ (top ≤ t ∧ t < m) → f t < m ∧ f t ≠ j)
    (hinj : ∀ t u, t < h ∨ (top ≤ t ∧ t < m) → u < h ∨ (top ≤ u ∧ u < m) → f t = f u → t = u) :
    h < top := by
  by_contra hc
  have he : h = top := by omega
  have hall : ∀ t, t < m → t < h ∨ (top ≤ t ∧ t < m) := by intro t ht; omega
  have := Finset.card_le_card_of_injOn (s := range m) (t := (range m).erase j) f ?_ ?_
  · rw [card_erase_of_mem (mem_range.mpr hj), card_range] at this; omega
  · intro t ht
    rw [mem_coe, mem_range] at ht
    rw [mem_coe, mem_erase, mem_range]
    exact ⟨(hlt t (hall t ht)).2, (hlt t (hall t ht)).1⟩
  · intro t ht u hu hf
    rw [mem_coe, mem_range] at ht hu
    exact hinj t u (hall t ht) (hall u hu) hf

theorem chain_trans {A : Csr} {qinv : Array Int} {R : Nat → Prop} {j0 : Nat} {s0 s : Dfs}
    (hI : DInv A qinv R j0 s0 s) {t u : Nat} (htu : t < u) (hu : u < s.h) :
    TransGen (fun a b => PEdge A qinv a b ∧ b ≠ a) (s.xj.g t) (s.xj.g u) := by
  induction u with
  | zero => omega
  | succ u ih =>
    have hstep : (fun a b => PEdge A qinv a b ∧ b ≠ a) (s.xj.g u) (s.xj.g (u + 1)) := by
      refine ⟨hI.chain u hu, fun e => ?_⟩
      have := hI.inj (u + 1) u (Or.inl hu) (Or.inl (by omega)) e
      omega
    by_cases he : t = u
    · subst he; exact TransGen.single hstep
    · exact TransGen.tail (ih (by omega) (by omega)) hstep

/-- All the active columns are marked once the top of the stack is. -/
theorem DInv.marked_of_act {A : Csr} {qinv : Array Int} {R : Nat → Prop} {j0 : Nat} {s0 s : Dfs}
    (hI : DInv A qinv R j0 s0 s) (htop : s.marks.g (s.xj.g (s.h - 1)) ≠ 0) {j : Nat}
    (hj : s.Act A.m j) : s.marks.g j ≠ 0 := by
  obtain ⟨t, ht, rfl⟩ := hj
  rcases ht with ht | ht
  · by_cases he : t = s.h - 1
    · rw [he]; exact htop
    · exact hI.act_marked t (Or.inl (by omega))
  · exact hI.act_marked t (Or.inr ht)

theorem dfs_pop_inv {A : Csr} {qinv : Array Int} {R : Nat → Prop} {j0 : Nat} {s0 s : Dfs}
    (hI : DInv A qinv R j0 s0 s) (hh : 0 < s.h) (htop : s.marks.g (s.xj.g (s.h - 1)) ≠ 0)
    (hdone : ∀ j', PEdge A qinv (s.xj.g (s.h - 1)) j' → s.Act A.m j') :
    Ok (dfs_pop s) (fun s' => DInv A qinv R j0 s0 s' ∧ s'.h + 1 = s.h ∧ s'.top + 1 = s.top) := by
  have e1 := hI.h_le
  have e2 := hI.top_le
  have e3 := hI.xs
  unfold dfs_pop
  simp only [Ok_bind, Ok_idx, Ok_rd, Ok_wr, Ok_ok]
  have ht : ((s.top : Int) - 1).toNat = s.top - 1 := by omega
  rw [ht]
  refine ⟨by omega, by omega, by omega, ?_, by omega, by omega⟩
  set v := s.xj.g (s.h - 1) with hv
  -- the new array
  have g1 : (s.xj.upd (s.top - 1) v).g (s.top - 1) = v := g_upd_eq _ _ _ (by omega)
  have g2 : ∀ t, t ≠ s.top - 1 → (s.xj.upd (s.top - 1) v).g t = s.xj.g t :=
    fun t ht => g_upd_ne _ _ _ _ ht
  -- every new position corresponds to an old one
  have hpos : ∀ t, Dfs.Pos A.m { s with top := s.top - 1, xj := s.xj.upd (s.top - 1) v, h := s.h - 1 } t →
      (t = s.top - 1 ∧ (s.xj.upd (s.top - 1) v).g t = v) ∨
      (t ≠ s.top - 1 ∧ t ≠ s.h - 1 ∧ s.Pos A.m t ∧ (s.xj.upd (s.top - 1) v).g t = s.xj.g t) := by
    intro t ht
    by_cases he : t = s.top - 1
    · left; exact ⟨he, by rw [he]; exact g1⟩
    · right
      refine ⟨he, ?_, ?_, g2 t he⟩ <;> · unfold Dfs.Pos at *; simp only at ht; omega
  have hact : ∀ j, s.Act A.m j ↔ Dfs.Act A.m
      { s with top := s.top - 1, xj := s.xj.upd (s.top - 1) v, h := s.h - 1 } j := by
    intro j
    constructor
    · rintro ⟨t, ht, rfl⟩
      by_cases he : t = s.h - 1
      · refine ⟨s.top - 1, Or.inr ⟨le_refl _, by omega⟩, ?_⟩
        show (s.xj.upd (s.top - 1) v).g (s.top - 1) = _
        rw [g1, he]
      · have hne : t ≠ s.top - 1 := by
          unfold Dfs.Pos at ht; omega
        refine ⟨t, ?_, g2 t hne⟩
        unfold Dfs.Pos at *; simp only; omega
    · rintro ⟨t, ht, rfl⟩
      rcases hpos t ht with ⟨-, h2⟩ | ⟨-, -, h2, h3⟩
      · refine ⟨s.h - 1, Or.inl (by omega), ?_⟩
        exact h2.symm
      · exact ⟨t, h2, h3.symm⟩
  have hstk : ∀ t, t < s.h - 1 → (s.xj.upd (s.top - 1) v).g t = s.xj.g t :=
    fun t ht => g2 t (by omega)
  have hout : ∀ t, s.top ≤ t → (s.xj.upd (s.top - 1) v).g t = s.xj.g t :=
    fun t ht => g2 t (by omega)
  refine { xs := by simpa using hI.xs, ps := hI.ps, ms := hI.ms, hxs := by simpa using hI.hxs,
           hps := hI.hps, hms := hI.hms, h_le := by simp only; omega,
           top_le := by simp only; omega, lt := ?_, inj := ?_, marked_act := ?_, act_marked := ?_, stk := ?_, chain := ?_, closed := ?_,
           topo := ?_, reach := ?_, old_top := ?_, old := ?_, kept := (hact _).mp hI.kept }
  · intro t ht
    rcases hpos t ht with ⟨-, h2⟩ | ⟨-, -, h2, h3⟩
    · simp only; rw [h2]; exact hI.lt _ (Or.inl (by omega))
    · simp only; rw [h3]; exact hI.lt t h2
  · intro t u ht hu hf
    simp only at hf
    rcases hpos t ht with ⟨a1, a2⟩ | ⟨a1, a2, a3, a4⟩ <;>
      rcases hpos u hu with ⟨b1, b2⟩ | ⟨b1, b2, b3, b4⟩
    · omega
    · rw [a2, b4] at hf
      have := hI.inj _ _ (Or.inl (by omega)) b3 hf
      omega
    · rw [a4, b2] at hf
      have := hI.inj _ _ a3 (Or.inl (by omega)) hf
      omega
    · rw [a4, b4] at hf
      exact hI.inj _ _ a3 b3 hf
  · intro j hj hm
    exact (hact j).mp (hI.marked_act j hj hm)
  · intro t ht
    simp only at ht ⊢
    by_cases he : t = s.top - 1
    · rw [he, g1]; exact htop
    · rw [g2 t he]
      exact hI.act_marked t (by omega)
  · intro t ht hm hq
    simp only at ht hm hq ⊢
    rw [hstk t ht] at hm hq ⊢
    obtain ⟨c1, c2⟩ := hI.stk t (by omega) hm hq
    exact ⟨c1, fun k hk => (hact _).mp (c2 k hk)⟩
  · intro t ht
    simp only at ht ⊢
    rw [hstk t (by omega), hstk (t + 1) (by omega)]
    exact hI.chain t (by omega)
  · intro t ht htm j' hE
    simp only at ht hE
    apply (hact j').mp
    by_cases he : t = s.top - 1
    · rw [he, g1] at hE; exact hdone j' hE
    · rw [g2 t he] at hE
      exact hI.closed t (by omega) htm j' hE
  · intro hac t ht htm j' hE hne
    simp only at ht hE hne ⊢
    by_cases he : t = s.top - 1
    · rw [he, g1] at hE hne
      obtain ⟨u, hu, huj⟩ := hdone j' hE
      rcases hu with hu | hu
      · exfalso
        have hu' : u ≠ s.h - 1 := by
          intro e; rw [e] at huj; exact hne huj.symm
        have := chain_trans hI (t := u) (u := s.h - 1) (by omega) (by omega)
        rw [huj, ← hv] at this
        exact hac j' (huj ▸ hI.lt u (Or.inl (by omega))) (TransGen.tail this ⟨hE, hne⟩)
      · exact ⟨u, by omega, hu.2, by rw [hout u hu.1]; exact huj⟩
    · rw [g2 t he] at hE hne
      obtain ⟨u, hu1, hu2, hu3⟩ := hI.topo hac t (by omega) htm j' hE hne
      exact ⟨u, hu1, hu2, by rw [hout u (by omega)]; exact hu3⟩
  · intro t ht
    rcases hpos t ht with ⟨-, h2⟩ | ⟨-, -, h2, h3⟩
    · simp only; rw [h2]; exact hI.reach _ (Or.inl (by omega))
    · simp only; rw [h3]; exact hI.reach t h2
  · have := hI.old_top
    simp only; omega
  · intro t ht htm
    have := hI.old_top
    simp only
    rw [hout t (by omega)]
    exact hI.old t ht htm

theorem dfs_push_inv {A : Csr} {qinv : Array Int} {R : Nat → Prop} {j0 : Nat} {s0 s : Dfs} (hA : A.WF)
    (hq : QinvOk A qinv) (hR : ∀ a b, R a → PEdge A qinv a b → R b)
    (hI : DInv A qinv R j0 s0 s) (hh : 0 < s.h) (htop : s.marks.g (s.xj.g (s.h - 1)) ≠ 0)
    {i : Nat} (hi : qinv.g (s.xj.g (s.h - 1)) = i) {k : Nat} (hk : A.p.g i + k < A.p.g (i + 1))
    (hun : s.marks.g (A.j.g (A.p.g i + k)) = 0)
    (hprev : ∀ k', k' < k → s.marks.g (A.j.g (A.p.g i + k')) ≠ 0) :
    s.h < s.top ∧ DInv A qinv R j0 s0 { s with
      pstack := s.pstack.upd (s.h - 1) (k + 1),
      xj := s.xj.upd s.h (A.j.g (A.p.g i + k)), h := s.h + 1 } := by
  have e1 := hI.h_le
  have e2 := hI.top_le
  have e3 := hI.xs
  have e4 := hI.ps
  have htl : s.xj.g (s.h - 1) < A.m := hI.lt _ (Or.inl (by omega))
  have hin : i < A.n := by have := hq.lt _ htl; omega
  set j := A.j.g (A.p.g i + k) with hj
  have hjm : j < A.m := hA.j_lt _ (hA.row_lt hin hk)
  have hnact : ¬ s.Act A.m j := fun h => hI.marked_of_act htop h hun
  have hlt : s.h < s.top := by
    apply pigeon e1 e2 j hjm (f := fun t => s.xj.g t)
    · intro t ht
      exact ⟨hI.lt t ht, fun e => hnact ⟨t, ht, e⟩⟩
    · exact hI.inj
  have hE : PEdge A qinv (s.xj.g (s.h - 1)) j := by
    unfold PEdge
    rw [hi]
    exact ⟨by omega, A.p.g i + k, by simp, by simpa using hk, rfl⟩
  have g1 : (s.xj.upd s.h j).g s.h = j := g_upd_eq _ _ _ (by omega)
  have g2 : ∀ t, t ≠ s.h → (s.xj.upd s.h j).g t = s.xj.g t := fun t ht => g_upd_ne _ _ _ _ ht
  refine ⟨hlt, ?_⟩
  have hpos : ∀ t, Dfs.Pos A.m { s with
      pstack := s.pstack.upd (s.h - 1) (k + 1), xj := s.xj.upd s.h j, h := s.h + 1 } t →
      (t = s.h ∧ (s.xj.upd s.h j).g t = j) ∨
      (t ≠ s.h ∧ s.Pos A.m t ∧ (s.xj.upd s.h j).g t = s.xj.g t) := by
    intro t ht
    by_cases he : t = s.h
    · left; exact ⟨he, by rw [he]; exact g1⟩
    · right
      refine ⟨he, ?_, g2 t he⟩
      unfold Dfs.Pos at *; simp only at ht; omega
  have hact : ∀ j', Dfs.Act A.m { s with
      pstack := s.pstack.upd (s.h - 1) (k + 1), xj := s.xj.upd s.h j, h := s.h + 1 } j' ↔ s.Act A.m j' ∨ j' = j := by
    intro j'
    constructor
    · rintro ⟨t, ht, rfl⟩
      rcases hpos t ht with ⟨-, h2⟩ | ⟨-, h2, h3⟩
      · right; exact h2
      · left; exact ⟨t, h2, h3.symm⟩
    · rintro (⟨t, ht, rfl⟩ | rfl)
      · refine ⟨t, ?_, g2 t ?_⟩
        · unfold Dfs.Pos at *; simp only; omega
        · unfold Dfs.Pos at ht; omega
      · exact ⟨s.h, Or.inl (by simp), g1⟩
  refine { xs := by simpa using hI.xs, ps := by simpa using hI.ps, ms := hI.ms,
           hxs := by simpa using hI.hxs, hps := by simpa using hI.hps, hms := hI.hms,
           h_le := by simp only; omega, top_le := e2, old_top := hI.old_top, lt := ?_, inj := ?_, marked_act := ?_, act_marked := ?_, stk := ?_, chain := ?_, closed := ?_,
           topo := ?_, reach := ?_, old := ?_,
           kept := (hact _).mpr (Or.inl hI.kept) }
  · intro t ht
    rcases hpos t ht with ⟨-, h2⟩ | ⟨-, h2, h3⟩
    · simp only; rw [h2]; exact hjm
    · simp only; rw [h3]; exact hI.lt t h2
  · intro t u ht hu hf
    simp only at hf
    rcases hpos t ht with ⟨a1, a2⟩ | ⟨a1, a2, a3⟩ <;>
      rcases hpos u hu with ⟨b1, b2⟩ | ⟨b1, b2, b3⟩
    · omega
    · rw [a2, b3] at hf
      exact (hnact ⟨u, b2, hf.symm⟩).elim
    · rw [a3, b2] at hf
      exact (hnact ⟨t, a2, hf⟩).elim
    · rw [a3, b3] at hf
      exact hI.inj _ _ a2 b2 hf
  · intro j' hj' hm
    exact (hact j').mpr (Or.inl (hI.marked_act j' hj' hm))
  · intro t ht
    simp only at ht ⊢
    have hne : t ≠ s.h := by omega
    rw [g2 t hne]
    by_cases he : t = s.h - 1
    · rw [he]; exact htop
    · exact hI.act_marked t (by omega)
  · intro t ht hm hqq
    simp only at ht hm hqq ⊢
    by_cases he : t = s.h
    · rw [he, g1] at hm; exact absurd hun hm
    · rw [g2 t he] at hm hqq ⊢
      by_cases he' : t = s.h - 1
      · rw [he', g_upd_eq _ _ _ (by omega), hi]
        simp only [Int.toNat_natCast]
        refine ⟨by omega, ?_⟩
        intro k' hk'
        rw [hact]
        by_cases hkk : k' = k
        · right; rw [hkk]
        · left
          have := hprev k' (by omega)
          exact hI.marked_act _ (hA.j_lt _ (hA.row_lt hin (by omega))) this
      · rw [g_upd_ne _ _ _ _ he']
        obtain ⟨c1, c2⟩ := hI.stk t (by omega) hm hqq
        exact ⟨c1, fun k hk => (hact _).mpr (Or.inl (c2 k hk))⟩
  · intro t ht
    simp only at ht ⊢
    rw [g2 t (by omega)]
    by_cases he : t + 1 = s.h
    · have : t = s.h - 1 := by omega
      rw [he, g1, this]; exact hE
    · rw [g2 _ he]; exact hI.chain t (by omega)
  · intro t ht htm j' hE'
    simp only at ht hE'
    rw [g2 t (by omega)] at hE'
    exact (hact j').mpr (Or.inl (hI.closed t ht htm j' hE'))
  · intro hac t ht htm j' hE' hne
    simp only at ht hE' hne ⊢
    rw [g2 t (by omega)] at hE' hne
    obtain ⟨u, hu1, hu2, hu3⟩ := hI.topo hac t ht htm j' hE' hne
    exact ⟨u, hu1, hu2, by rw [g2 u (by omega)]; exact hu3⟩
  · intro t ht
    rcases hpos t ht with ⟨-, h2⟩ | ⟨-, h2, h3⟩
    · simp only; rw [h2]
      exact hR _ _ (hI.reach _ (Or.inl (by omega))) hE
    · simp only; rw [h3]; exact hI.reach t h2
  · intro t ht htm
    have := hI.old_top
    simp only
    rw [g2 t (by omega)]
    exact hI.old t ht htm

/-- Marking the top of the stack. -/
theorem dfs_mark_inv {A : Csr} {qinv : Array Int} {R : Nat → Prop} {j0 : Nat} {s0 s : Dfs}
    (hI : DInv A qinv R j0 s0 s) (hh : 0 < s.h) :
    DInv A qinv R j0 s0 { s with
      marks := s.marks.upd (s.xj.g (s.h - 1)) 1, pstack := s.pstack.upd (s.h - 1) 0 } := by
  have e1 := hI.h_le
  have e2 := hI.top_le
  have e4 := hI.ps
  have e5 := hI.ms
  set j := s.xj.g (s.h - 1) with hj
  have hjm : j < A.m := hI.lt _ (Or.inl (by omega))
  have hm : ∀ a, (s.marks.upd j 1).g a ≠ 0 ↔ s.marks.g a ≠ 0 ∨ a = j := by
    intro a
    rw [g_upd]
    by_cases ha : a = j
    · rw [if_pos ⟨ha, by omega⟩]; simp [ha]
    · rw [if_neg (fun h => ha h.1)]; simp [ha]
  refine { hI with
    ps := by simpa using hI.ps, ms := by simpa using hI.ms
    hps := by simpa using hI.hps, hms := by simpa using hI.hms
    marked_act := ?_, act_marked := ?_, stk := ?_ }
  · intro a ha hma
    rcases (hm a).mp hma with h | rfl
    · exact hI.marked_act a ha h
    · exact ⟨s.h - 1, Or.inl (by show s.h - 1 < s.h; omega), rfl⟩
  · intro t ht
    exact (hm _).mpr (Or.inl (hI.act_marked t ht))
  · intro t ht hma hq
    simp only at hma ht hq ⊢
    by_cases he : t = s.h - 1
    · rw [he, g_upd_eq _ _ _ (by omega)]
      exact ⟨by omega, fun k hk => by omega⟩
    · rw [g_upd_ne _ _ _ _ he]
      exact hI.stk t ht (hI.act_marked t (Or.inl (by omega))) hq

theorem dfs_step_inv {A : Csr} {qinv : Array Int} {R : Nat → Prop} {j0 : Nat} {s0 s : Dfs} (hA : A.WF)
    (hq : QinvOk A qinv) (hR : ∀ a b, R a → PEdge A qinv a b → R b)
    (hI : DInv A qinv R j0 s0 s) :
    Ok (dfs_step A qinv s) (fun r => match r with
      | .cont s' => DInv A qinv R j0 s0 s' ∧ 2 * s'.top - s'.h < 2 * s.top - s.h
      | .brk s' => DInv A qinv R j0 s0 s' ∧ s'.h = 0) := by
  have e1 := hI.h_le
  have e2 := hI.top_le
  have e3 := hI.xs
  have e4 := hI.ps
  have e5 := hI.ms
  have hqs := hq.size
  unfold dfs_step
  by_cases hh : s.h = 0
  · rw [if_pos hh]; exact ⟨hI, hh⟩
  rw [if_neg hh]
  have hjm : s.xj.g (s.h - 1) < A.m := hI.lt _ (Or.inl (by omega))
  simp only [Ok_bind, Ok_rd]
  refine ⟨by omega, by omega, by omega, ?_⟩
  -- the rest, once the top is marked
  have rest : ∀ S : Dfs, DInv A qinv R j0 s0 S → S.h = s.h → S.top = s.top → S.xj = s.xj →
      S.marks.g (s.xj.g (s.h - 1)) ≠ 0 →
      Ok (if qinv.g (s.xj.g (s.h - 1)) < 0 then do
            let s ← dfs_pop S
            .ok (.cont s)
          else do
            let i ← idx (qinv.g (s.xj.g (s.h - 1)))
            let p2 ← row_weight A i
            let k0 ← rd S.pstack (s.h - 1)
            let (k, s) ← forBrk k0 p2 S fun k (S : Dfs) => do
              let pi ← rd A.p i
              let j ← rd A.j (pi + k)
              let mj ← rd S.marks j
              if mj ≠ 0 then .ok (.cont S)
              else do
                let pstack ← wr S.pstack (s.h - 1) (k + 1)
                let xj ← wr S.xj (s.h - 1 + 1) j
                .ok (.brk { S with pstack := pstack, xj := xj, h := S.h + 1 })
            if k = p2 then do
              let s ← dfs_pop s
              .ok (.cont s)
            else .ok (.cont s) : C (Step Dfs)) (fun r => match r with
      | .cont s' => DInv A qinv R j0 s0 s' ∧ 2 * s'.top - s'.h < 2 * s.top - s.h
      | .brk s' => DInv A qinv R j0 s0 s' ∧ s'.h = 0) := by
    intro S hS hSh hSt hSx hSm
    have hSm' : S.marks.g (S.xj.g (S.h - 1)) ≠ 0 := by rw [hSx, hSh]; exact hSm
    by_cases hi : qinv.g (s.xj.g (s.h - 1)) < 0
    · rw [if_pos hi, Ok_bind]
      refine (dfs_pop_inv hS (by omega) hSm' ?_).mono ?_
      · intro j' hE
        rw [hSx, hSh] at hE
        have := hE.1
        omega
      · rintro s' ⟨a1, a2, a3⟩
        exact ⟨a1, by omega⟩
    · rw [if_neg hi]
      obtain ⟨i, hie⟩ : ∃ i : Nat, qinv.g (s.xj.g (s.h - 1)) = i :=
        ⟨(qinv.g (s.xj.g (s.h - 1))).toNat, by omega⟩
      have hin : i < A.n := by have := hq.lt _ hjm; omega
      have hps := hA.p_size
      have hSi : qinv.g (S.xj.g (S.h - 1)) = i := by rw [hSx, hSh]; exact hie
      have hstk := hS.stk (S.h - 1) (by omega) hSm' (by rw [hSi]; omega)
      rw [hSi] at hstk
      simp only [Int.toNat_natCast] at hstk
      have hSps := hS.ps
      have hSms := hS.ms
      have hSxs := hS.xs
      have hSt2 := hS.h_le
      rw [hie]
      simp only [Ok_bind, Ok_idx, Ok_rd, row_weight, Ok_ok, Int.toNat_natCast]
      refine ⟨by omega, by omega, by omega, by omega, ?_⟩
      set k0 := S.pstack.g (s.h - 1) with hk0
      set p2 := A.p.g (i + 1) - A.p.g i with hp2
      have hk0' : S.pstack.g (S.h - 1) = k0 := by rw [hSh]
      rw [hk0'] at hstk
      have hle := (hA.row_le hin).1
      refine (Ok_forBrk (I := fun k (T : Dfs) => T = S ∧
          ∀ k', k' < k → S.marks.g (A.j.g (A.p.g i + k')) ≠ 0)
        (B := fun k T => DInv A qinv R j0 s0 T ∧ T.top = S.top ∧ T.h = S.h + 1 ∧ S.h < S.top)
        hstk.1 ⟨rfl, fun k' hk' => hS.marked_of_act hSm' (hstk.2 k' hk')⟩ ?_).mono ?_
      · rintro k T hk1 hk2 ⟨rfl, hprev⟩
        have hpx : A.p.g i + k < A.p.g (i + 1) := by omega
        have hnn := hA.row_lt hin hpx
        have hnnz := hA.p_nnz
        have hjlt := hA.j_lt _ hnn
        simp only [Ok_bind, Ok_rd]
        refine ⟨by omega, by omega, by omega, ?_⟩
        by_cases hm : T.marks.g (A.j.g (A.p.g i + k)) = 0
        · rw [if_neg (by simpa using hm)]
          have hpush := dfs_push_inv hA hq hR hS (by omega) hSm' hSi hpx hm hprev
          simp only [Ok_bind, Ok_wr, Ok_ok]
          have hE : s.h - 1 + 1 = T.h := by omega
          rw [hE]
          refine ⟨by omega, by omega, ?_, trivial, trivial, hpush.1⟩
          have := hpush.2
          rw [hSh] at this
          rw [hSh]
          exact this
        · rw [if_pos hm, Ok_ok]
          refine ⟨rfl, ?_⟩
          intro k' hk'
          by_cases he : k' = k
          · rw [he]; exact hm
          · exact hprev k' (by omega)
      · rintro ⟨k, T⟩ (⟨b1, b2, b3, b4, b5, b6⟩ | ⟨b1, rfl, b3⟩)
        · simp only at b1 b2 b3 b4 b5
          simp only
          rw [if_neg (by omega), Ok_ok]
          exact ⟨b3, by omega⟩
        · simp only at b1
          simp only
          rw [if_pos b1, Ok_bind]
          refine (dfs_pop_inv hS (by omega) hSm' ?_).mono ?_
          · intro j' hE
            obtain ⟨-, px, c1, c2, rfl⟩ := hE
            rw [hSi] at c1 c2
            simp only [Int.toNat_natCast] at c1 c2
            have := b3 (px - A.p.g i) (by omega)
            have e : A.p.g i + (px - A.p.g i) = px := by omega
            rw [e] at this
            exact hS.marked_act _ (hA.j_lt _ (hA.row_lt hin c2)) this
          · rintro s' ⟨a1, a2, a3⟩
            exact ⟨a1, by omega⟩
  by_cases hm : s.marks.g (s.xj.g (s.h - 1)) = 0
  · rw [if_pos hm]
    simp only [Ok_bind, Ok_wr, Ok_ok]
    refine ⟨by omega, by omega, ?_⟩
    exact rest _ (dfs_mark_inv hI (by omega)) rfl rfl rfl (by
      simp only; rw [g_upd_eq _ _ _ (by omega)]; exact one_ne_zero)
  · rw [if_neg hm, Ok_bind, Ok_ok]
    exact rest s hI rfl rfl rfl hm

/-- What holds between the searches. -/
structure RInv (A : Csr) (qinv : Array Int) (R : Nat → Prop) (s : Dfs) : Prop where
  xs : A.m ≤ s.xj.size
  ps : A.m ≤ s.pstack.size
  ms : A.m ≤ s.marks.size
  top_le : s.top ≤ A.m
  lt : ∀ t, s.top ≤ t → t < A.m → s.xj.g t < A.m
  inj : ∀ t u, s.top ≤ t → t < A.m → s.top ≤ u → u < A.m → s.xj.g t = s.xj.g u → t = u
  marks : ∀ j, j < A.m → (s.marks.g j ≠ 0 ↔ ∃ t, s.top ≤ t ∧ t < A.m ∧ s.xj.g t = j)
  closed : ∀ t, s.top ≤ t → t < A.m → ∀ j', PEdge A qinv (s.xj.g t) j' →
    ∃ u, s.top ≤ u ∧ u < A.m ∧ s.xj.g u = j'
  topo : PAcyclic A qinv → ∀ t, s.top ≤ t → t < A.m → ∀ j', PEdge A qinv (s.xj.g t) j' →
    j' ≠ s.xj.g t → ∃ u, t < u ∧ u < A.m ∧ s.xj.g u = j'
  reach : ∀ t, s.top ≤ t → t < A.m → R (s.xj.g t)

theorem dfs_spec {A : Csr} {qinv : Array Int} {R : Nat → Prop} (hA : A.WF)
    (hq : QinvOk A qinv) (hR : ∀ a b, R a → PEdge A qinv a b → R b)
    {s : Dfs} (hI : RInv A qinv R s) {j : Nat} (hj : j < A.m) (hRj : R j)
    (hm : s.marks.g j = 0) :
    Ok (dfs j A s.top s.xj s.pstack s.marks qinv) (fun s' => RInv A qinv R s' ∧
      s'.xj.size = s.xj.size ∧ s'.pstack.size = s.pstack.size ∧ s'.marks.size = s.marks.size ∧
      s'.top ≤ s.top ∧ (∀ t, s.top ≤ t → t < A.m → s'.xj.g t = s.xj.g t) ∧
      s'.marks.g j ≠ 0) := by
  have e2 := hI.top_le
  have e3 := hI.xs
  have hnot : ∀ t, s.top ≤ t → t < A.m → s.xj.g t ≠ j := by
    intro t h1 h2 e
    exact ((hI.marks j hj).mpr ⟨t, h1, h2, e⟩) hm
  have htop : 0 < s.top := by
    apply pigeon (Nat.zero_le _) e2 j hj (f := fun t => s.xj.g t)
    · intro t ht
      exact ⟨hI.lt t (by omega) (by omega), hnot t (by omega) (by omega)⟩
    · intro t u ht hu
      exact hI.inj t u (by omega) (by omega) (by omega) (by omega)
  unfold dfs
  simp only [Ok_bind, Ok_wr]
  refine ⟨by omega, ?_⟩
  have g1 : (s.xj.upd 0 j).g 0 = j := g_upd_eq _ _ _ (by omega)
  have g2 : ∀ t, t ≠ 0 → (s.xj.upd 0 j).g t = s.xj.g t := fun t ht => g_upd_ne _ _ _ _ ht
  have hpos : ∀ t, Dfs.Pos A.m ⟨s.top, 1, s.xj.upd 0 j, s.pstack, s.marks⟩ t →
      (t = 0 ∧ (s.xj.upd 0 j).g t = j) ∨
      (t ≠ 0 ∧ s.top ≤ t ∧ t < A.m ∧ (s.xj.upd 0 j).g t = s.xj.g t) := by
    intro t ht
    by_cases he : t = 0
    · left; exact ⟨he, by rw [he]; exact g1⟩
    · right
      unfold Dfs.Pos at ht; simp only at ht
      exact ⟨he, by omega, by omega, g2 t he⟩
  have hinit : DInv A qinv R j s ⟨s.top, 1, s.xj.upd 0 j, s.pstack, s.marks⟩ := by
    refine { xs := by simpa using hI.xs, ps := hI.ps, ms := hI.ms, hxs := by simp, hps := rfl,
             hms := rfl, h_le := htop, top_le := e2, old_top := le_refl _, lt := ?_, inj := ?_, marked_act := ?_, act_marked := ?_, stk := ?_, chain := ?_, closed := ?_,
             topo := ?_, reach := ?_, old := ?_, kept := ⟨0, Or.inl (by simp), g1⟩ }
    · intro t ht
      rcases hpos t ht with ⟨-, h2⟩ | ⟨-, h2, h3, h4⟩
      · simp only; rw [h2]; exact hj
      · simp only; rw [h4]; exact hI.lt t h2 h3
    · intro t u ht hu hf
      simp only at hf
      rcases hpos t ht with ⟨a1, a2⟩ | ⟨a1, a2, a3, a4⟩ <;>
        rcases hpos u hu with ⟨b1, b2⟩ | ⟨b1, b2, b3, b4⟩
      · omega
      · rw [a2, b4] at hf
        exact (hnot u b2 b3 hf.symm).elim
      · rw [a4, b2] at hf
        exact (hnot t a2 a3 hf).elim
      · rw [a4, b4] at hf
        exact hI.inj _ _ a2 a3 b2 b3 hf
    · intro a ha hma
      obtain ⟨t, h1, h2, h3⟩ := (hI.marks a ha).mp hma
      exact ⟨t, Or.inr ⟨h1, h2⟩, by simp only; rw [g2 t (by omega)]; exact h3⟩
    · intro t ht
      simp only at ht ⊢
      rw [g2 t (by omega)]
      exact (hI.marks _ (hI.lt t (by omega) (by omega))).mpr ⟨t, by omega, by omega, rfl⟩
    · intro t ht hma
      simp only at ht hma
      have : t = 0 := by omega
      rw [this, g1] at hma
      exact absurd hm hma
    · intro t ht; simp only at ht; omega
    · intro t h1 h2 j' hE
      simp only at h1 hE
      rw [g2 t (by omega)] at hE
      obtain ⟨u, u1, u2, u3⟩ := hI.closed t h1 h2 j' hE
      exact ⟨u, Or.inr ⟨u1, u2⟩, by simp only; rw [g2 u (by omega)]; exact u3⟩
    · intro hac t h1 h2 j' hE hne
      simp only at h1 hE hne ⊢
      rw [g2 t (by omega)] at hE hne
      obtain ⟨u, u1, u2, u3⟩ := hI.topo hac t h1 h2 j' hE hne
      exact ⟨u, u1, u2, by rw [g2 u (by omega)]; exact u3⟩
    · intro t ht
      rcases hpos t ht with ⟨-, h2⟩ | ⟨-, h2, h3, h4⟩
      · simp only; rw [h2]; exact hRj
      · simp only; rw [h4]; exact hI.reach t h2 h3
    · intro t h1 h2
      simp only
      exact g2 t (by omega)
  refine Ok.mono (Ok_whileFuel (fun s' : Dfs => 2 * s'.top - s'.h)
    (I := fun s' => DInv A qinv R j s s')
    (Q := fun s' => DInv A qinv R j s s' ∧ s'.h = 0)
    (fun s' hs' => (dfs_step_inv hA hq hR hs').mono (by rintro (a | b) h <;> exact h)) _ _ hinit ?_) ?_
  · simp only; omega
  · rintro s' ⟨hD, h0⟩
    have hP : ∀ t, s'.Pos A.m t ↔ s'.top ≤ t ∧ t < A.m := by
      intro t; unfold Dfs.Pos; rw [h0]; omega
    have hact : ∀ a, s'.Act A.m a ↔ ∃ t, s'.top ≤ t ∧ t < A.m ∧ s'.xj.g t = a := by
      intro a
      constructor
      · rintro ⟨t, ht, rfl⟩
        exact ⟨t, ((hP t).mp ht).1, ((hP t).mp ht).2, rfl⟩
      · rintro ⟨t, h1, h2, h3⟩
        exact ⟨t, (hP t).mpr ⟨h1, h2⟩, h3⟩
    have hmk : ∀ a, a < A.m → (s'.marks.g a ≠ 0 ↔ ∃ t, s'.top ≤ t ∧ t < A.m ∧ s'.xj.g t = a) := by
      intro a ha
      constructor
      · intro h; exact (hact a).mp (hD.marked_act a ha h)
      · rintro ⟨t, h1, h2, rfl⟩
        exact hD.act_marked t (Or.inr ⟨h1, h2⟩)
    refine ⟨⟨hD.xs, hD.ps, hD.ms, hD.top_le, fun t h1 h2 => hD.lt t ((hP t).mpr ⟨h1, h2⟩), ?_, hmk,
      ?_, hD.topo, fun t h1 h2 => hD.reach t ((hP t).mpr ⟨h1, h2⟩)⟩, hD.hxs, hD.hps, hD.hms,
      hD.old_top, hD.old, (hmk j hj).mpr ((hact j).mp hD.kept)⟩
    · intro t u h1 h2 h3 h4
      exact hD.inj t u ((hP t).mpr ⟨h1, h2⟩) ((hP u).mpr ⟨h3, h4⟩)
    · intro t h1 h2 j' hE
      exact (hact j').mp (hD.closed t h1 h2 j' hE)

/-- `spasm_reach`. -/
theorem reach_spec {A B : Csr} {qinv : Array Int} (hA : A.WF) (hB : B.WF) (hBm : B.m ≤ A.m)
    (hq : QinvOk A qinv) {k : Nat} (hk : k < B.n) {xj pstack marks : Array Nat}
    (hxs : A.m ≤ xj.size) (hps : A.m ≤ pstack.size) (hms : A.m ≤ marks.size)
    (hz : ∀ j, j < A.m → marks.g j = 0) :
    Ok (reach A B k A.m xj pstack marks qinv) (fun s =>
      s.xj.size = xj.size ∧ s.pstack.size = pstack.size ∧ s.marks.size = marks.size ∧
      s.top ≤ A.m ∧
      (∀ t, s.top ≤ t → t < A.m → s.xj.g t < A.m) ∧
      (∀ t u, s.top ≤ t → t < A.m → s.top ≤ u → u < A.m → s.xj.g t = s.xj.g u → t = u) ∧
      (∀ j, (∃ t, s.top ≤ t ∧ t < A.m ∧ s.xj.g t = j) ↔ ReachFrom A B qinv k j) ∧
      (∀ j, j < A.m → s.marks.g j = 0) ∧
      (PAcyclic A qinv → ∀ t, s.top ≤ t → t < A.m → ∀ j', PEdge A qinv (s.xj.g t) j' →
        j' ≠ s.xj.g t → ∃ u, t < u ∧ u < A.m ∧ s.xj.g u = j')) := by
  have hbp := hB.p_size
  have hbn := hB.p_nnz
  have hle := hB.row_le hk
  unfold reach
  simp only [Ok_bind, Ok_rd]
  refine ⟨by omega, by omega, ?_⟩
  have hR : ∀ a b, ReachFrom A B qinv k a → PEdge A qinv a b → ReachFrom A B qinv k b := by
    rintro a b ⟨j0, h1, h2⟩ hE
    exact ⟨j0, h1, h2.tail hE⟩
  refine Ok_forRange_imp (I := fun px (s : Dfs) => RInv A qinv (ReachFrom A B qinv k) s ∧
      s.xj.size = xj.size ∧ s.pstack.size = pstack.size ∧ s.marks.size = marks.size ∧
      (∀ t, B.p.g k ≤ t → t < px → s.marks.g (B.j.g t) ≠ 0)) hle.1 ?_ ?_ ?_
  · refine ⟨⟨hxs, hps, hms, le_refl _, ?_, ?_, ?_, ?_, ?_, ?_⟩, rfl, rfl, rfl, ?_⟩
    · intro t h1 h2; simp only at h1; omega
    · intro t u h1 h2; simp only at h1; omega
    · intro j hj
      simp only
      constructor
      · intro h; exact absurd (hz j hj) h
      · rintro ⟨t, h1, h2, -⟩; omega
    · intro t h1 h2; simp only at h1; omega
    · intro _ t h1 h2; simp only at h1; omega
    · intro t h1 h2; simp only at h1; omega
    · intro t h1 h2; omega
  · rintro px s h1 h2 ⟨hI, c1, c2, c3, c4⟩
    have hnn := hB.row_lt hk h2
    have hjm := hB.j_lt _ hnn
    have hms' := hI.ms
    simp only [Ok_bind, Ok_rd]
    refine ⟨by omega, by omega, ?_⟩
    by_cases hm : s.marks.g (B.j.g px) = 0
    · rw [if_pos hm]
      refine (dfs_spec hA hq hR hI (by omega) ⟨B.j.g px, ⟨px, h1, h2, rfl⟩, .refl⟩ hm).mono ?_
      rintro s' ⟨d1, d2, d3, d4, d5, d6, d7⟩
      refine ⟨d1, by omega, by omega, by omega, ?_⟩
      intro t t1 t2
      by_cases he : t = px
      · rw [he]; exact d7
      · have htj : B.j.g t < A.m := by
          have := hB.j_lt t (hB.row_lt hk (by omega)); omega
        obtain ⟨u, u1, u2, u3⟩ := (hI.marks _ htj).mp (c4 t t1 (by omega))
        exact (d1.marks _ htj).mpr ⟨u, by omega, u2, by rw [d6 u u1 u2]; exact u3⟩
    · rw [if_neg hm]
      refine ⟨hI, c1, c2, c3, ?_⟩
      intro t t1 t2
      by_cases he : t = px
      · rw [he]; exact hm
      · exact c4 t t1 (by omega)
  · rintro s ⟨hI, c1, c2, c3, c4⟩
    have hms' := hI.ms
    have hxs' := hI.xs
    refine Ok_forRange_imp (I := fun px (mk : Array Nat) => mk.size = s.marks.size ∧
      ∀ j, j < A.m → (mk.g j ≠ 0 ↔ ∃ t, px ≤ t ∧ t < A.m ∧ s.xj.g t = j)) hI.top_le
      ⟨rfl, hI.marks⟩ ?_ ?_
    · rintro px mk h1 h2 ⟨d1, d2⟩
      have hx := hI.lt px h1 h2
      simp only [Ok_bind, Ok_rd, Ok_wr]
      refine ⟨by omega, by omega, by simpa using d1, ?_⟩
      intro j hj
      by_cases he : j = s.xj.g px
      · rw [he, g_upd_eq _ _ _ (by omega)]
        constructor
        · intro h; exact absurd rfl h
        · rintro ⟨t, t1, t2, t3⟩
          have := hI.inj t px (by omega) t2 h1 h2 t3
          omega
      · rw [g_upd_ne _ _ _ _ he, d2 j hj]
        constructor
        · rintro ⟨t, t1, t2, t3⟩
          refine ⟨t, ?_, t2, t3⟩
          by_contra hc
          have : t = px := by omega
          rw [this] at t3; exact he t3.symm
        · rintro ⟨t, t1, t2, t3⟩
          exact ⟨t, by omega, t2, t3⟩
    · rintro mk ⟨d1, d2⟩
      simp only [Ok_ok]
      refine ⟨c1, c2, by omega, hI.top_le, hI.lt, hI.inj, ?_, ?_, hI.topo⟩
      · intro j
        constructor
        · rintro ⟨t, t1, t2, rfl⟩
          exact hI.reach t t1 t2
        · rintro ⟨j0, ⟨px, p1, p2, rfl⟩, hr⟩
          have hjm : B.j.g px < A.m := by have := hB.j_lt px (hB.row_lt hk p2); omega
          induction hr with
          | refl => exact (hI.marks _ hjm).mp (c4 px p1 p2)
          | tail _ hE ih =>
            obtain ⟨t, t1, t2, rfl⟩ := ih
            exact hI.closed t t1 t2 _ hE
      · intro j hj
        by_contra hc
        obtain ⟨t, t1, t2, -⟩ := (d2 j hj).mp hc
        omega

end Spasm
