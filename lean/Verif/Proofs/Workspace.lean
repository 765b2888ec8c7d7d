import Verif.Model.Workspace
import Verif.Proofs.Draws

/-
One workspace of 3 m cells behaves as the three parts of Model/Reach.lean.
-/

namespace Spasm

open Commit

/-- Every result of `a` is matched by a result of `b`. -/
def Sim {α β : Type} (R : α → β → Prop) (a : C α) (b : C β) : Prop :=
  ∀ v, a = .ok v → ∃ w, b = .ok w ∧ R v w

namespace Sim

variable {α β γ δ σ τ : Type}

theorem ok {R : α → β → Prop} {v : α} {w : β} (h : R v w) : Sim R (.ok v : C α) (.ok w) := by
  intro u hu
  cases hu
  exact ⟨w, rfl, h⟩

theorem err {R : α → β → Prop} {e : Err} {b : C β} : Sim R (.error e : C α) b := by
  intro u hu; cases hu

theorem refl {a : C α} : Sim Eq a a := fun v hv => ⟨v, hv, rfl⟩

theorem mono {R S : α → β → Prop} {a : C α} {b : C β} (h : Sim R a b) (hRS : ∀ v w, R v w → S v w) : Sim S a b := by
  intro v hv
  obtain ⟨w, h1, h2⟩ := h v hv
  exact ⟨w, h1, hRS v w h2⟩

theorem bind {R : α → β → Prop} {S : γ → δ → Prop} {a : C α} {b : C β} {f : α → C γ} {g : β → C δ}
    (h : Sim R a b) (hf : ∀ v w, R v w → Sim S (f v) (g w)) : Sim S (a >>= f) (b >>= g) := by
  intro u hu
  obtain ⟨v, h1, h2⟩ := bind_ok_iff.mp hu
  obtain ⟨w, h3, h4⟩ := h v h1
  obtain ⟨z, h5, h6⟩ := hf v w h4 u h2
  exact ⟨z, bind_ok_iff.mpr ⟨w, h3, h5⟩, h6⟩

/-- The same computation first. -/
theorem same {S : γ → δ → Prop} {a : C α} {f : α → C γ} {g : α → C δ} (hf : ∀ v, a = .ok v → Sim S (f v) (g v)) :
    Sim S (a >>= f) (a >>= g) := by
  intro u hu
  obtain ⟨v, h1, h2⟩ := bind_ok_iff.mp hu
  obtain ⟨z, h5, h6⟩ := hf v h1 u h2
  exact ⟨z, bind_ok_iff.mpr ⟨v, h1, h5⟩, h6⟩

theorem ite {R : α → β → Prop} {c : Prop} [Decidable c] {a a' : C α} {b b' : C β} (h : c → Sim R a b)
    (h' : ¬ c → Sim R a' b') : Sim R (if c then a else a') (if c then b else b') := by
  by_cases hc : c
  · rw [if_pos hc, if_pos hc]; exact h hc
  · rw [if_neg hc, if_neg hc]; exact h' hc

theorem forN {R : σ → τ → Prop} {f : Nat → σ → C σ} {g : Nat → τ → C τ}
    (h : ∀ i s t, R s t → Sim R (f i s) (g i t)) :
    ∀ (k lo : Nat) (s : σ) (t : τ), R s t → Sim R (Spasm.forN lo k s f) (Spasm.forN lo k t g)
  | 0, _, _, _, hR => ok hR
  | k + 1, lo, s, t, hR => by
    unfold Spasm.forN
    exact bind (h lo s t hR) fun v w hvw => forN h k (lo + 1) v w hvw

theorem forRange {R : σ → τ → Prop} {f : Nat → σ → C σ} {g : Nat → τ → C τ} {lo hi : Nat} {s : σ} {t : τ}
    (h : ∀ i s t, R s t → Sim R (f i s) (g i t)) (hR : R s t) :
    Sim R (Spasm.forRange lo hi s f) (Spasm.forRange lo hi t g) := forN h _ _ _ _ hR

/-- Same state on both sides. -/
theorem forRange_eq {f g : Nat → σ → C σ} {lo hi : Nat} {s : σ} (h : ∀ i s, Sim Eq (f i s) (g i s)) :
    Sim Eq (Spasm.forRange lo hi s f) (Spasm.forRange lo hi s g) :=
  forRange (fun i s t hst => by subst hst; exact h i s) rfl

/-- The relation on the outcome of an iteration. -/
def StepR (R : σ → τ → Prop) : Step σ → Step τ → Prop
  | .cont s, .cont t => R s t
  | .brk s, .brk t => R s t
  | _, _ => False

theorem forBrkN {R : σ → τ → Prop} {f : Nat → σ → C (Step σ)} {g : Nat → τ → C (Step τ)}
    (h : ∀ i s t, R s t → Sim (StepR R) (f i s) (g i t)) :
    ∀ (k lo : Nat) (s : σ) (t : τ), R s t →
      Sim (fun a b => a.1 = b.1 ∧ R a.2 b.2) (Spasm.forBrkN lo k s f) (Spasm.forBrkN lo k t g)
  | 0, _, _, _, hR => ok ⟨rfl, hR⟩
  | k + 1, lo, s, t, hR => by
    unfold Spasm.forBrkN
    refine bind (h lo s t hR) fun v w hvw => ?_
    cases v <;> cases w
    · exact forBrkN h k (lo + 1) _ _ hvw
    · exact hvw.elim
    · exact hvw.elim
    · exact ok ⟨rfl, hvw⟩

theorem forBrk {R : σ → τ → Prop} {f : Nat → σ → C (Step σ)} {g : Nat → τ → C (Step τ)} {lo hi : Nat} {s : σ} {t : τ}
    (h : ∀ i s t, R s t → Sim (StepR R) (f i s) (g i t)) (hR : R s t) :
    Sim (fun a b => a.1 = b.1 ∧ R a.2 b.2) (Spasm.forBrk lo hi s f) (Spasm.forBrk lo hi t g) :=
  bind (forBrkN h _ _ _ _ hR) fun _ _ hvw => ok hvw

theorem whileFuel {R : σ → τ → Prop} {f : σ → C (Step σ)} {g : τ → C (Step τ)}
    (h : ∀ s t, R s t → Sim (StepR R) (f s) (g t)) :
    ∀ (k : Nat) (s : σ) (t : τ), R s t → Sim R (Spasm.whileFuel k s f) (Spasm.whileFuel k t g)
  | 0, _, _, _ => err
  | k + 1, s, t, hR => by
    unfold Spasm.whileFuel
    refine bind (h s t hR) fun v w hvw => ?_
    cases v <;> cases w
    · exact whileFuel h k _ _ hvw
    · exact hvw.elim
    · exact hvw.elim
    · exact ok hvw

end Sim

/-! ### The three parts in one array -/

/-- `ws` holds the three parts. -/
structure Parts (m : Nat) (xj ps mk ws : Array Nat) : Prop where
  xs : xj.size = m
  pss : ps.size = m
  ms : mk.size = m
  eq : ws = xj ++ ps ++ mk

theorem rd_ok_iff {α : Type} {a : Array α} {i : Nat} {v : α} : rd a i = .ok v ↔ a[i]? = some v := by
  unfold rd
  cases h : a[i]? <;> simp

theorem wr_ok_iff {α : Type} {a b : Array α} {i : Nat} {v : α} : wr a i v = .ok b ↔ i < a.size ∧ b = a.upd i v := by
  unfold wr
  by_cases h : i < a.size
  · rw [if_pos h]
    constructor
    · intro hh; cases hh; exact ⟨h, rfl⟩
    · rintro ⟨_, rfl⟩; rfl
  · rw [if_neg h]
    constructor
    · intro hh; cases hh
    · exact fun hh => absurd hh.1 h

namespace Parts

variable {m : Nat} {xj ps mk ws : Array Nat}

theorem size (P : Parts m xj ps mk ws) : ws.size = 3 * m := by
  rw [P.eq, Array.size_append, Array.size_append, P.xs, P.pss, P.ms]; omega

theorem rdX (P : Parts m xj ps mk ws) (i : Nat) : Sim Eq (rd xj i) (rd ws i) := by
  intro v hv
  refine ⟨v, ?_, rfl⟩
  rw [rd_ok_iff] at hv ⊢
  have hi := (Array.getElem?_eq_some_iff.mp hv).1
  rw [P.eq, Array.append_assoc, Array.getElem?_append_left hi, hv]

theorem rdP (P : Parts m xj ps mk ws) (i : Nat) : Sim Eq (rd ps i) (rd ws (m + i)) := by
  intro v hv
  refine ⟨v, ?_, rfl⟩
  rw [rd_ok_iff] at hv ⊢
  have hi := (Array.getElem?_eq_some_iff.mp hv).1
  rw [P.eq, Array.append_assoc, Array.getElem?_append_right (by rw [P.xs]; omega), P.xs, Nat.add_sub_cancel_left,
    Array.getElem?_append_left hi, hv]

theorem rdM (P : Parts m xj ps mk ws) (i : Nat) : Sim Eq (rd mk i) (rd ws (m + m + i)) := by
  intro v hv
  refine ⟨v, ?_, rfl⟩
  rw [rd_ok_iff] at hv ⊢
  rw [P.eq, Array.getElem?_append_right (by rw [Array.size_append, P.xs, P.pss]; omega), Array.size_append, P.xs,
    P.pss, Nat.add_sub_cancel_left, hv]

theorem upd_eq {α : Type} (a : Array α) (i : Nat) (v : α) : a.upd i v = a.setIfInBounds i v := rfl

theorem wrX (P : Parts m xj ps mk ws) (i v : Nat) : Sim (fun a b => Parts m a ps mk b) (wr xj i v) (wr ws i v) := by
  intro a ha
  rw [wr_ok_iff] at ha
  obtain ⟨hi, rfl⟩ := ha
  have hw : i < ws.size := by rw [P.size]; rw [P.xs] at hi; omega
  refine ⟨ws.upd i v, wr_ok_iff.mpr ⟨hw, rfl⟩, by rw [upd_eq, Array.size_setIfInBounds]; exact P.xs, P.pss, P.ms, ?_⟩
  rw [P.eq, upd_eq, upd_eq, Array.append_assoc, Array.append_assoc, Array.setIfInBounds_append_left hi]

theorem wrP (P : Parts m xj ps mk ws) (i v : Nat) :
    Sim (fun a b => Parts m xj a mk b) (wr ps i v) (wr ws (m + i) v) := by
  intro a ha
  rw [wr_ok_iff] at ha
  obtain ⟨hi, rfl⟩ := ha
  have hw : m + i < ws.size := by rw [P.size]; rw [P.pss] at hi; omega
  refine ⟨ws.upd (m + i) v, wr_ok_iff.mpr ⟨hw, rfl⟩, P.xs, by rw [upd_eq, Array.size_setIfInBounds]; exact P.pss, P.ms,
    ?_⟩
  rw [P.eq, upd_eq, upd_eq, Array.append_assoc, Array.append_assoc,
    Array.setIfInBounds_append_right (by rw [P.xs]; omega), P.xs, Nat.add_sub_cancel_left,
    Array.setIfInBounds_append_left hi]

theorem wrM (P : Parts m xj ps mk ws) (i v : Nat) :
    Sim (fun a b => Parts m xj ps a b) (wr mk i v) (wr ws (m + m + i) v) := by
  intro a ha
  rw [wr_ok_iff] at ha
  obtain ⟨hi, rfl⟩ := ha
  have hw : m + m + i < ws.size := by rw [P.size]; rw [P.ms] at hi; omega
  refine ⟨ws.upd (m + m + i) v, wr_ok_iff.mpr ⟨hw, rfl⟩, P.xs, P.pss, by
    rw [upd_eq, Array.size_setIfInBounds]; exact P.ms, ?_⟩
  rw [P.eq, upd_eq, upd_eq, Array.setIfInBounds_append_right (by rw [Array.size_append, P.xs, P.pss]; omega),
    Array.size_append, P.xs, P.pss, Nat.add_sub_cancel_left]

end Parts

/-- The state of the model in three parts and the state over one array. -/
structure WsR (m : Nat) (s : Dfs) (t : Ws) : Prop where
  top : t.top = s.top
  h : t.h = s.h
  parts : Parts m s.xj s.pstack s.marks t.ws

/-- Use in a bind: a read. -/
theorem Sim.rdE {γ δ : Type} {S : γ → δ → Prop} {a b : C Nat} {f : Nat → C γ} {g : Nat → C δ} (h : Sim Eq a b)
    (hf : ∀ v, Sim S (f v) (g v)) : Sim S (a >>= f) (b >>= g) :=
  Sim.bind h fun v w hvw => by subst hvw; exact hf v

theorem ws_pop_sim {m : Nat} {s : Dfs} {t : Ws} (h : WsR m s t) : Sim (WsR m) (dfs_pop s) (ws_pop t) := by
  unfold dfs_pop ws_pop
  rw [h.top, h.h]
  refine Sim.same fun top _ => ?_
  refine Sim.rdE (h.parts.rdX _) fun v => ?_
  exact Sim.bind (h.parts.wrX _ _) fun a b hab => Sim.ok ⟨rfl, rfl, hab⟩

theorem ws_step_sim {m : Nat} (A : Csr) (qinv : Array Int) (s : Dfs) (t : Ws) (h : WsR m s t) :
    Sim (Sim.StepR (WsR m)) (dfs_step A qinv s) (ws_step A m (m + m) qinv t) := by
  unfold dfs_step ws_step
  rw [h.h]
  refine Sim.ite (fun _ => Sim.ok h) fun _ => ?_
  refine Sim.rdE (h.parts.rdX _) fun j => ?_
  refine Sim.same fun i _ => ?_
  refine Sim.rdE (h.parts.rdM _) fun mj => ?_
  extract_lets j1 j2
  suffices key : ∀ s1 t1, WsR m s1 t1 → Sim (Sim.StepR (WsR m)) (j1 s1) (j2 t1) by
    refine Sim.ite (fun _ => ?_) fun _ => key _ _ h
    refine Sim.bind (h.parts.wrM _ _) fun a b hab => ?_
    exact Sim.bind (hab.wrP _ _) fun c d hcd => key _ _ ⟨h.top, rfl, hcd⟩
  intro s1 t1 h1
  simp only [j1, j2]
  refine Sim.ite (fun _ => ?_) fun _ => ?_
  · exact Sim.bind (ws_pop_sim h1) fun a b hab => Sim.ok hab
  refine Sim.same fun i _ => ?_
  refine Sim.same fun p2 _ => ?_
  refine Sim.rdE (h1.parts.rdP _) fun k0 => ?_
  refine Sim.bind (Sim.forBrk (R := WsR m) (fun k s2 t2 h2 => ?_) h1) fun a b hab => ?_
  · refine Sim.same fun pi _ => ?_
    refine Sim.same fun j' _ => ?_
    refine Sim.rdE (h2.parts.rdM _) fun mj' => ?_
    refine Sim.ite (fun _ => Sim.ok h2) fun _ => ?_
    refine Sim.bind (h2.parts.wrP _ _) fun a b hab => ?_
    refine Sim.bind (hab.wrX _ _) fun c d hcd => ?_
    refine Sim.ok ⟨h2.top, ?_, hcd⟩
    simp only [h2.h]
  · obtain ⟨k, s3⟩ := a
    obtain ⟨k', t3⟩ := b
    obtain ⟨h3, h4⟩ := hab
    simp only at h3 h4
    subst h3
    refine Sim.ite (fun _ => ?_) fun _ => Sim.ok h4
    exact Sim.bind (ws_pop_sim h4) fun a b hab => Sim.ok hab

theorem ws_dfs_sim {A : Csr} {jstart top : Nat} {xj ps mk ws : Array Nat} {qinv : Array Int}
    (P : Parts A.m xj ps mk ws) :
    Sim (WsR A.m) (dfs jstart A top xj ps mk qinv) (ws_dfs jstart A top ws A.m (A.m + A.m) qinv) := by
  unfold dfs ws_dfs
  refine Sim.bind (P.wrX _ _) fun a b hab => ?_
  exact Sim.whileFuel (fun s t h => ws_step_sim A qinv s t h) _ _ _ ⟨rfl, rfl, hab⟩

theorem ws_reach_sim {A B : Csr} {k l : Nat} {xj ps mk ws : Array Nat} {qinv : Array Int}
    (P : Parts A.m xj ps mk ws) : Sim (WsR A.m) (reach A B k l xj ps mk qinv) (ws_reach A B k l ws qinv) := by
  unfold reach ws_reach
  simp only
  refine Sim.same fun lo _ => ?_
  refine Sim.same fun hi _ => ?_
  refine Sim.bind (Sim.forRange (R := WsR A.m) (fun px s t h => ?_) ⟨rfl, rfl, P⟩) fun s t h => ?_
  · refine Sim.same fun j _ => ?_
    refine Sim.rdE (h.parts.rdM _) fun mj => ?_
    refine Sim.ite (fun _ => ?_) fun _ => Sim.ok h
    rw [h.top]
    exact ws_dfs_sim h.parts
  · rw [h.top]
    refine Sim.bind (Sim.forRange (R := fun a b => Parts A.m s.xj s.pstack a b) (fun px a b hab => ?_) h.parts)
      fun a b hab => Sim.ok ⟨rfl, h.h, hab⟩
    exact Sim.rdE (hab.rdX _) fun j => hab.wrM _ _

/-- Relation on the results of the solver. -/
def SolveR (m : Nat) (a : Dfs × Array Int) (b : Ws × Array Int) : Prop := WsR m a.1 b.1 ∧ a.2 = b.2

theorem ws_solve_sim {U B : Csr} {k : Nat} {w : Dfs} {ws : Array Nat} {x qinv : Array Int}
    (P : Parts U.m w.xj w.pstack w.marks ws) :
    Sim (SolveR U.m) (sparse_triangular_solve U B k w x qinv) (ws_solve U B k ws x qinv) := by
  unfold sparse_triangular_solve ws_solve
  refine Sim.bind (ws_reach_sim P) fun s t h => ?_
  rw [h.top]
  refine Sim.bind (R := Eq) (Sim.forRange_eq fun px y => ?_) fun y y' hy => ?_
  · exact Sim.rdE (h.parts.rdX _) fun j => Sim.refl
  subst hy
  refine Sim.same fun y _ => ?_
  refine Sim.bind (R := Eq) (Sim.forRange_eq fun px y => ?_) fun y y' hy => Sim.ok ⟨h, hy⟩
  exact Sim.rdE (h.parts.rdX _) fun j => Sim.refl

/-! ### The allocation -/

set_option linter.constructorNameAsVariable false in
theorem ws_alloc_ok {jk : Junk} {m : Nat} (hm : 3 * m < 2 ^ 31) :
    ws_alloc jk m = .ok (mkArr m (fun _ => 0) ++ mkArr m (fun _ => 0) ++ mkArr m (fun _ => 0)) := by
  have h1 : Ok (ws_alloc jk m) (fun a => a.size = 3 * m ∧ ∀ j, j < 3 * m → a.g j = 0) := by
    unfold ws_alloc
    rw [Ok_bind]
    unfold i32
    rw [if_pos (by omega), Ok_ok]
    have e : (3 * (m : Int)).toNat = 3 * m := by omega
    rw [e]
    refine Ok_forRange_imp (I := fun j (a : Array Nat) => a.size = 3 * m ∧ ∀ t, t < j → a.g t = 0) (by omega) ?_ ?_ ?_
    · exact ⟨size_mkArr _ _, fun t ht => by omega⟩
    · rintro j a hj1 hj2 ⟨ha1, ha2⟩
      rw [Ok_wr]
      refine ⟨by omega, by rw [size_upd]; exact ha1, fun t ht => ?_⟩
      by_cases hjt : t = j
      · subst hjt; rw [g_upd_eq _ _ _ (by omega)]
      · rw [g_upd_ne _ _ _ _ (by omega)]; exact ha2 t (by omega)
    · rintro a ⟨ha1, ha2⟩
      exact ⟨ha1, ha2⟩
  clear hm
  generalize ws_alloc jk m = c at h1 ⊢
  obtain ⟨a, e, h2, h3⟩ := Ok_iff.mp h1
  rw [e]
  congr 1
  clear e h1
  have hs : a.size = (mkArr m (fun _ => 0) ++ mkArr m (fun _ => 0) ++ mkArr m (fun _ => 0) : Array Nat).size := by
    rw [h2, Array.size_append, Array.size_append, size_mkArr]; omega
  refine Array.ext hs fun i hi1 hi2 => ?_
  have := h3 i (by omega)
  rw [g_eq _ _ hi1] at this
  rw [this]
  simp [mkArr, Array.getElem_append]

theorem ws_alloc_ub {jk : Junk} {m : Nat} (hm : 2 ^ 31 ≤ 3 * m) : ws_alloc jk m = .error .ub := by
  unfold ws_alloc i32
  rw [if_neg (by omega)]
  rfl

theorem parts_zero (m : Nat) : Parts m (mkArr m fun _ => 0) (mkArr m fun _ => 0) (mkArr m fun _ => 0)
    (mkArr m (fun _ => 0) ++ mkArr m (fun _ => 0) ++ mkArr m (fun _ => 0)) :=
  ⟨size_mkArr _ _, size_mkArr _ _, size_mkArr _ _, rfl⟩

/-- A computation after the allocation. -/
theorem ws_alloc_bind {α : Type} {jk : Junk} {m : Nat} (hm : 3 * m < 2 ^ 31) {a : C α} {f : Array Nat → C α}
    (h : ∀ ws, Parts m (mkArr m fun _ => 0) (mkArr m fun _ => 0) (mkArr m fun _ => 0) ws → Sim Eq a (f ws)) :
    Sim Eq a (ws_alloc jk m >>= f) := by
  rw [ws_alloc_ok hm]
  exact h _ (parts_zero m)

theorem ws_alloc_bind_ub {α : Type} {jk : Junk} {m : Nat} (hm : 2 ^ 31 ≤ 3 * m) (f : Array Nat → C α) :
    (ws_alloc jk m >>= f) = .error .ub := by
  rw [ws_alloc_ub hm]; rfl

/-! ### The callers -/

/-- The parts of the workspace of a caller. -/
abbrev DParts (m : Nat) (w : Dfs) (ws : Array Nat) : Prop := Parts m w.xj w.pstack w.marks ws

/-- Relation on the results of the functions for one row. -/
def RowR {α : Type} (m : Nat) (a : Dfs × α) (b : Array Nat × α) : Prop := DParts m a.1 b.1 ∧ a.2 = b.2

theorem schur_row_ws_sim {A U : Csr} (hm : U.m = A.m) {qinv : Array Int} {hasL : Bool} {p_in : Option (Array Nat)}
    {inew : Nat} {w : Dfs} {ws : Array Nat} {x : Array Int} (P : DParts A.m w ws) :
    Sim (RowR A.m) (schur_row A U qinv hasL p_in inew w x) (schur_row_ws A U qinv hasL p_in inew ws x) := by
  unfold schur_row schur_row_ws
  rw [← hm] at P
  refine Sim.bind (ws_solve_sim P) ?_
  rintro ⟨s, y⟩ ⟨t, y'⟩ ⟨h, hy⟩
  simp only at h hy
  subst hy
  simp only [h.top]
  refine Sim.bind (R := Eq) (Sim.forRange_eq fun px u => Sim.rdE (h.parts.rdX _) fun j => Sim.refl) ?_
  rintro u _ rfl
  refine Sim.same fun i _ => ?_
  refine Sim.bind (R := Eq) (Sim.forRange_eq fun px u => Sim.rdE (h.parts.rdX _) fun j => Sim.refl) ?_
  rintro v _ rfl
  exact Sim.ok ⟨hm ▸ h.parts, rfl⟩

theorem schur_rows_ws_sim {A U : Csr} (hm : U.m = A.m) {qinv : Array Int} {hasL : Bool} {p_in : Option (Array Nat)}
    {p : Array Nat} : ∀ (is : List Nat) (w : Dfs) (ws : Array Nat) (x : Array Int), DParts A.m w ws →
    Sim Eq (schur_rows A U qinv hasL p_in p is w x) (schur_rows_ws A U qinv hasL p_in p is ws x)
  | [], _, _, _, _ => Sim.ok rfl
  | i :: is, w, ws, x, P => by
    unfold schur_rows schur_rows_ws
    refine Sim.same fun inew _ => ?_
    refine Sim.bind (schur_row_ws_sim hm P) ?_
    rintro ⟨w1, y, job⟩ ⟨ws1, _⟩ ⟨h, rfl⟩
    refine Sim.bind (schur_rows_ws_sim hm is w1 ws1 y h) ?_
    rintro v _ rfl
    exact Sim.ok rfl

theorem schur_thread_ws_sim {jk : Junk} {A U : Csr} (hm : U.m = A.m) (hb : 3 * A.m < 2 ^ 31) {qinv : Array Int}
    {hasL : Bool} {p_in : Option (Array Nat)} {p : Array Nat} {is : List Nat} :
    Sim Eq (schur_thread jk A U qinv hasL p_in p is) (schur_thread_ws jk A U qinv hasL p_in p is) :=
  ws_alloc_bind hb fun ws P => schur_rows_ws_sim hm is _ ws _ P

theorem rref_front_ws_sim {m pivot : Nat} {w : Dfs} {t : Ws} (h : WsR m w t) :
    Sim (WsR m) (rref_front m pivot w) (rref_front_ws m pivot t) := by
  unfold rref_front rref_front_ws
  rw [h.top]
  refine Sim.bind (Sim.forBrk (R := fun a b => Parts m a w.pstack w.marks b) (fun px a b hab => ?_) h.parts) ?_
  · refine Sim.rdE (hab.rdX _) fun j => ?_
    refine Sim.ite (fun _ => ?_) fun _ => Sim.ok hab
    refine Sim.rdE (hab.rdX _) fun u => ?_
    refine Sim.bind (hab.wrX _ _) fun c d hcd => ?_
    exact Sim.bind (hcd.wrX _ _) fun e f hef => Sim.ok hef
  · rintro ⟨k, a⟩ ⟨k', b⟩ ⟨_, hab⟩
    refine Sim.rdE (hab.rdX _) fun u => ?_
    exact Sim.same fun _ _ => Sim.ok ⟨rfl, h.h, hab⟩

theorem rref_row_ws_sim {U : Csr} {i : Nat} {w : Dfs} {ws : Array Nat} {x ql : Array Int} (P : DParts U.m w ws) :
    Sim (RowR U.m) (rref_row U i w x ql) (rref_row_ws U i ws x ql) := by
  unfold rref_row rref_row_ws
  refine Sim.same fun pi _ => ?_
  refine Sim.same fun pivot _ => ?_
  refine Sim.same fun qp _ => ?_
  refine Sim.same fun _ _ => ?_
  refine Sim.same fun ql _ => ?_
  refine Sim.bind (ws_solve_sim P) ?_
  rintro ⟨s, y⟩ ⟨t, y'⟩ ⟨h, hy⟩
  simp only at h hy
  subst hy
  refine Sim.bind (rref_front_ws_sim h) fun s t h => ?_
  rw [h.top]
  refine Sim.bind (R := Eq) (Sim.forRange_eq fun px u => Sim.rdE (h.parts.rdX _) fun j => Sim.refl) ?_
  rintro u _ rfl
  refine Sim.bind (R := Eq) (Sim.forRange_eq fun px u => Sim.rdE (h.parts.rdX _) fun j => Sim.refl) ?_
  rintro v _ rfl
  exact Sim.same fun ql _ => Sim.ok ⟨h.parts, rfl⟩

theorem rref_rows_ws_sim {U : Csr} : ∀ (is : List Nat) (w : Dfs) (ws : Array Nat) (x ql : Array Int),
    DParts U.m w ws → Sim Eq (rref_rows U is w x ql) (rref_rows_ws U is ws x ql)
  | [], _, _, _, _, _ => Sim.ok rfl
  | i :: is, w, ws, x, ql, P => by
    unfold rref_rows rref_rows_ws
    refine Sim.bind (rref_row_ws_sim P) ?_
    rintro ⟨w1, y, q1, job⟩ ⟨ws1, _⟩ ⟨h, rfl⟩
    refine Sim.bind (rref_rows_ws_sim is w1 ws1 y q1 h) ?_
    rintro v _ rfl
    exact Sim.ok rfl

theorem rref_thread_ws_sim {jk : Junk} {U : Csr} (hb : 3 * U.m < 2 ^ 31) {qinv : Array Int} {is : List Nat} :
    Sim Eq (rref_thread jk U qinv is) (rref_thread_ws jk U qinv is) :=
  ws_alloc_bind hb fun ws P => Sim.same fun ql _ => rref_rows_ws_sim is _ ws _ ql P

theorem kernel_row_ws_sim {n : Nat} {Ut : Csr} (hm : Ut.m = n) {utqinv : Array Int} {j : Nat} {w : Dfs}
    {ws : Array Nat} {x : Array Int} (P : DParts n w ws) :
    Sim (RowR n) (kernel_row n Ut utqinv j w x) (kernel_row_ws n Ut utqinv j ws x) := by
  subst hm
  unfold kernel_row kernel_row_ws
  refine Sim.bind (ws_solve_sim P) ?_
  rintro ⟨s, y⟩ ⟨t, y'⟩ ⟨h, hy⟩
  simp only at h hy
  subst hy
  simp only [h.top]
  refine Sim.bind (R := Eq) (Sim.forRange_eq fun px u => Sim.rdE (h.parts.rdX _) fun j => Sim.refl) ?_
  rintro u _ rfl
  refine Sim.bind (R := Eq) (Sim.forRange_eq fun px u => Sim.rdE (h.parts.rdX _) fun j => Sim.refl) ?_
  rintro v _ rfl
  exact Sim.ok ⟨h.parts, rfl⟩

theorem kernel_rows_ws_sim {n : Nat} {Ut : Csr} (hm : Ut.m = n) {qinv utqinv : Array Int} :
    ∀ (js : List Nat) (w : Dfs) (ws : Array Nat) (x : Array Int), DParts n w ws →
    Sim Eq (kernel_rows n Ut qinv utqinv js w x) (kernel_rows_ws n Ut qinv utqinv js ws x)
  | [], _, _, _, _ => Sim.ok rfl
  | j :: js, w, ws, x, P => by
    unfold kernel_rows kernel_rows_ws
    refine Sim.same fun qj _ => ?_
    refine Sim.ite (fun _ => kernel_rows_ws_sim hm js w ws x P) fun _ => ?_
    refine Sim.bind (kernel_row_ws_sim hm P) ?_
    rintro ⟨w1, y, job⟩ ⟨ws1, _⟩ ⟨h, rfl⟩
    refine Sim.bind (kernel_rows_ws_sim hm js w1 ws1 y h) ?_
    rintro v _ rfl
    exact Sim.ok rfl

theorem kernel_thread_ws_sim {jk : Junk} {n m : Nat} {Ut : Csr} (hm : Ut.m = n) (hb : 3 * n < 2 ^ 31)
    {qinv utqinv : Array Int} {js : List Nat} :
    Sim Eq (kernel_thread jk n m Ut qinv utqinv js) (kernel_thread_ws jk n m Ut qinv utqinv js) :=
  ws_alloc_bind hb fun ws P => kernel_rows_ws_sim hm js _ ws _ P

theorem density_row_ws_sim {A U : Csr} (hm : U.m = A.m) {qinv : Array Int} {inew : Nat} {w : Dfs} {ws : Array Nat}
    {x : Array Int} (P : DParts A.m w ws) :
    Sim (RowR A.m) (density_row A U qinv inew w x) (density_row_ws A U qinv inew ws x) := by
  unfold density_row density_row_ws
  rw [← hm] at P
  refine Sim.bind (ws_solve_sim P) ?_
  rintro ⟨s, y⟩ ⟨t, y'⟩ ⟨h, hy⟩
  simp only at h hy
  subst hy
  simp only [h.top]
  refine Sim.bind (R := Eq) (Sim.forRange_eq fun px u => Sim.rdE (h.parts.rdX _) fun j => Sim.refl) ?_
  rintro u _ rfl
  exact Sim.ok ⟨hm ▸ h.parts, rfl⟩

theorem density_rows_ws_sim {A U : Csr} (hm : U.m = A.m) {qinv : Array Int} {p : Array Nat} {n : Nat}
    {rand : Nat → Nat} : ∀ (is : List Nat) (w : Dfs) (ws : Array Nat) (x : Array Int), DParts A.m w ws →
    Sim Eq (density_rows A U qinv p n rand is w x) (density_rows_ws A U qinv p n rand is ws x)
  | [], _, _, _, _ => Sim.ok rfl
  | i :: is, w, ws, x, P => by
    unfold density_rows density_rows_ws
    refine Sim.same fun inew _ => ?_
    refine Sim.bind (density_row_ws_sim hm P) ?_
    rintro ⟨w1, y, k⟩ ⟨ws1, _⟩ ⟨h, rfl⟩
    refine Sim.bind (density_rows_ws_sim hm is w1 ws1 y h) ?_
    rintro v _ rfl
    exact Sim.ok rfl

theorem density_thread_ws_sim {jk : Junk} {A U : Csr} (hm : U.m = A.m) (hb : 3 * A.m < 2 ^ 31) {qinv : Array Int}
    {p : Array Nat} {n : Nat} {rand : Nat → Nat} {is : List Nat} :
    Sim Eq (density_thread jk A U qinv p n rand is) (density_thread_ws jk A U qinv p n rand is) :=
  ws_alloc_bind hb fun ws P => density_rows_ws_sim hm is _ ws _ P

theorem dense_coeffs_view {hasL : Bool} {m iorig : Nat} {s : Dfs} {t : Ws} {x qinv : Array Int} (h : WsR m s t) :
    Sim Eq (dense_coeffs hasL m iorig s x qinv) (dense_coeffs hasL m iorig t.view x qinv) := by
  unfold dense_coeffs Ws.view
  rw [h.top]
  refine Sim.ite (fun _ => ?_) fun _ => Sim.refl
  exact Sim.forRange_eq fun px u => Sim.rdE (h.parts.rdX _) fun j => Sim.refl

theorem schur_dense_row_ws_sim {A U : Csr} (hm : U.m = A.m) {qinv : Array Int} {hasL : Bool}
    {p_in : Option (Array Nat)} {dt : Datatype} {q p : Array Nat} {k : Nat} {w : Dfs} {ws : Array Nat}
    {x : Array Int} (P : DParts A.m w ws) :
    Sim (RowR A.m) (schur_dense_row A U qinv hasL p_in dt q p k w x)
      (schur_dense_row_ws A U qinv hasL p_in dt q p k ws x) := by
  unfold schur_dense_row schur_dense_row_ws
  rw [← hm] at P
  refine Sim.same fun i _ => ?_
  refine Sim.same fun iorig _ => ?_
  refine Sim.same fun x _ => ?_
  refine Sim.bind (ws_solve_sim P) ?_
  rintro ⟨s, y⟩ ⟨t, y'⟩ ⟨h, hy⟩
  simp only at h hy
  subst hy
  rw [hm] at h
  refine Sim.same fun cells _ => ?_
  refine Sim.bind (dense_coeffs_view h) ?_
  rintro u _ rfl
  exact Sim.ok ⟨h.parts, rfl⟩

theorem schur_dense_rows_ws_sim {A U : Csr} (hm : U.m = A.m) {qinv : Array Int} {hasL : Bool}
    {p_in : Option (Array Nat)} {dt : Datatype} {q p : Array Nat} :
    ∀ (ks : List Nat) (w : Dfs) (ws : Array Nat) (x : Array Int), DParts A.m w ws →
    Sim Eq (schur_dense_rows A U qinv hasL p_in dt q p ks w x) (schur_dense_rows_ws A U qinv hasL p_in dt q p ks ws x)
  | [], _, _, _, _ => Sim.ok rfl
  | i :: is, w, ws, x, P => by
    unfold schur_dense_rows schur_dense_rows_ws
    refine Sim.bind (schur_dense_row_ws_sim hm P) ?_
    rintro ⟨w1, y, k⟩ ⟨ws1, _⟩ ⟨h, rfl⟩
    refine Sim.bind (schur_dense_rows_ws_sim hm is w1 ws1 y h) ?_
    rintro v _ rfl
    exact Sim.ok rfl

theorem schur_dense_thread_ws_sim {jk : Junk} {A U : Csr} (hm : U.m = A.m) (hb : 3 * A.m < 2 ^ 31)
    {qinv : Array Int} {hasL : Bool} {p_in : Option (Array Nat)} {dt : Datatype} {q p : Array Nat} {ks : List Nat} :
    Sim Eq (schur_dense_thread jk A U qinv hasL p_in dt q p ks)
      (schur_dense_thread_ws jk A U qinv hasL p_in dt q p ks) :=
  ws_alloc_bind hb fun ws P => schur_dense_rows_ws_sim hm ks _ ws _ P

/-- Relation on the states of `echelonize_GPLU`. -/
structure GpluR (m : Nat) (s : Gplu) (t : GpluWs) : Prop where
  U : s.U = t.U
  Um : s.U.m = m
  unz : s.unz = t.unz
  qinv : s.qinv = t.qinv
  L : s.L = t.L
  lnz : s.lnz = t.lnz
  Lp : s.Lp = t.Lp
  since : s.since = t.since
  done : s.done = t.done
  parts : DParts m s.w t.ws
  x : s.x = t.x

theorem gplu_scan_view {m : Nat} {s : Dfs} {t : Ws} {x qinv : Array Int} {i_orig : Nat} {L : Option Triplet}
    {lnz : Nat} (h : WsR m s t) :
    Sim Eq (gplu_scan m s x qinv i_orig L lnz) (gplu_scan m t.view x qinv i_orig L lnz) := by
  unfold gplu_scan Ws.view
  rw [h.top]
  exact Sim.forRange_eq fun px u => Sim.rdE (h.parts.rdX _) fun j => Sim.refl

theorem gplu_copy_view {F : Field} {m : Nat} {s : Dfs} {t : Ws} {x qinv : Array Int} {beta : Int} {U : Csr}
    {unz : Nat} (h : WsR m s t) :
    Sim Eq (gplu_copy F m s x qinv beta U unz) (gplu_copy F m t.view x qinv beta U unz) := by
  unfold gplu_copy Ws.view
  rw [h.top]
  exact Sim.forRange_eq fun px u => Sim.rdE (h.parts.rdX _) fun j => Sim.refl

theorem setJ_m {A B : Csr} {k v : Nat} (h : A.setJ k v = .ok B) : B.m = A.m := by
  unfold Csr.setJ at h
  obtain ⟨_, _, h⟩ := bind_ok_iff.mp h
  cases h; rfl

theorem setX_m {A B : Csr} {k : Nat} {v : Int} (h : A.setX k v = .ok B) : B.m = A.m := by
  unfold Csr.setX at h
  obtain ⟨_, _, h⟩ := bind_ok_iff.mp h
  obtain ⟨_, _, h⟩ := bind_ok_iff.mp h
  cases h; rfl

theorem setP_m {A B : Csr} {k v : Nat} (h : A.setP k v = .ok B) : B.m = A.m := by
  unfold Csr.setP at h
  obtain ⟨_, _, h⟩ := bind_ok_iff.mp h
  cases h; rfl

theorem gplu_room_m {jk : Junk} {U V : Csr} {unz m : Nat} (h : gplu_room jk U unz m = .ok V) : V.m = U.m := by
  unfold gplu_room at h
  by_cases hc : unz + m > U.nzmax
  · rw [if_pos hc] at h
    unfold csr_realloc at h
    obtain ⟨_, _, h⟩ := bind_ok_iff.mp h
    cases h; rfl
  · rw [if_neg hc] at h
    cases h; rfl

theorem forN_keep {σ : Type} {P : σ → Prop} {f : Nat → σ → C σ} (h : ∀ i s t, P s → f i s = .ok t → P t) :
    ∀ (k lo : Nat) (s t : σ), P s → forN lo k s f = .ok t → P t
  | 0, _, s, t, hs, e => by cases e; exact hs
  | k + 1, lo, s, t, hs, e => by
    unfold forN at e
    obtain ⟨u, e1, e2⟩ := bind_ok_iff.mp e
    exact forN_keep h k (lo + 1) u t (h lo s u hs e1) e2

theorem gplu_copy_m {F : Field} {m : Nat} {w : Dfs} {x qinv : Array Int} {beta : Int} {U : Csr} {unz : Nat}
    {r : Csr × Nat} (h : gplu_copy F m w x qinv beta U unz = .ok r) : r.1.m = U.m := by
  unfold gplu_copy forRange at h
  refine forN_keep (P := fun s : Csr × Nat => s.1.m = U.m) ?_ _ _ _ _ rfl h
  rintro i ⟨V, k⟩ ⟨W, k'⟩ hV e
  obtain ⟨j, _, e⟩ := bind_ok_iff.mp e
  obtain ⟨v, _, e⟩ := bind_ok_iff.mp e
  by_cases hv : v = 0
  · rw [if_pos hv] at e; cases e; exact hV
  rw [if_neg hv] at e
  obtain ⟨qj, _, e⟩ := bind_ok_iff.mp e
  by_cases hq : qj < 0
  · rw [if_pos hq] at e
    obtain ⟨V1, e1, e⟩ := bind_ok_iff.mp e
    obtain ⟨y, _, e⟩ := bind_ok_iff.mp e
    obtain ⟨V2, e2, e⟩ := bind_ok_iff.mp e
    cases e
    simp only at hV e1 ⊢
    rw [setX_m e2, setJ_m e1, hV]
  · rw [if_neg hq] at e; cases e; exact hV

theorem gplu_row_ws_sim {jk : Junk} {A : Csr} {p_in : Option (Array Nat)} {inew : Nat} {s : Gplu} {t : GpluWs}
    (h : GpluR A.m s t) : Sim (GpluR A.m) (gplu_row jk A p_in inew s) (gplu_row_ws jk A p_in inew t) := by
  unfold gplu_row gplu_row_ws
  simp only [← h.U, ← h.unz, ← h.qinv, ← h.L, ← h.lnz, ← h.Lp, ← h.since, ← h.done, ← h.x]
  refine Sim.same fun U hU => ?_
  have hUm : U.m = A.m := by rw [gplu_room_m hU, h.Um]
  refine Sim.same fun L _ => ?_
  refine Sim.same fun i_orig _ => ?_
  have P := h.parts
  refine Sim.bind (ws_solve_sim (hUm ▸ P)) ?_
  rintro ⟨w, y⟩ ⟨u, y'⟩ ⟨hw, hy⟩
  simp only at hw hy
  subst hy
  rw [hUm] at hw
  refine Sim.bind (gplu_scan_view hw) ?_
  rintro ⟨jpiv, L, lnz⟩ _ rfl
  refine Sim.ite (fun _ => Sim.ok ⟨rfl, hUm, rfl, rfl, rfl, rfl, rfl, rfl, rfl, hw.parts, rfl⟩) fun _ => ?_
  refine Sim.same ?_
  rintro ⟨L, lnz, Lp⟩ _
  refine Sim.same fun qinv _ => ?_
  refine Sim.same fun U1 e1 => ?_
  refine Sim.same fun U2 e2 => ?_
  refine Sim.same fun v _ => ?_
  refine Sim.same fun _ _ => ?_
  refine Sim.same fun beta _ => ?_
  have hU2 : U2.m = A.m := by rw [setX_m e2, setJ_m e1, hUm]
  refine Sim.bind (R := fun a b => a = b ∧ a.1.m = A.m) ?_ ?_
  · intro r hr
    obtain ⟨r', e, rfl⟩ := gplu_copy_view hw r hr
    exact ⟨r, e, rfl, by rw [gplu_copy_m hr, hU2]⟩
  rintro ⟨U3, unz⟩ _ ⟨rfl, hU3⟩
  refine Sim.same fun U4 e4 => ?_
  exact Sim.ok ⟨rfl, by rw [setP_m e4]; exact hU3, rfl, rfl, rfl, rfl, rfl, rfl, rfl, hw.parts, rfl⟩

theorem gplu_ws_sim {jk : Junk} {A : Csr} {p : Array Nat} {n : Nat} {p_in : Option (Array Nat)} {fact : Lu}
    {tc : Csr → Array Int → C Bool} (hm : fact.U.m = A.m) (hb : 3 * A.m < 2 ^ 31) :
    Sim Eq (gplu jk A p n p_in fact tc) (gplu_ws jk A p n p_in fact tc) := by
  unfold gplu gplu_ws
  simp only
  refine Sim.same fun unz _ => ?_
  refine ws_alloc_bind hb fun ws P => ?_
  refine Sim.bind (Sim.forBrk (R := GpluR A.m) (fun i s t h => ?_)
    ⟨rfl, hm, rfl, rfl, rfl, rfl, rfl, rfl, rfl, P, rfl⟩) ?_
  · simp only [← h.U, ← h.L, ← h.done, ← h.since, ← h.qinv]
    refine Sim.ite (fun _ => Sim.ok h) fun _ => ?_
    have e : gplu_test_ws = fun b tc (t : GpluWs) => if b then tc t.U t.qinv else .ok false := rfl
    simp only [gplu_test, e, ← h.U, ← h.qinv]
    refine Sim.same fun stop _ => ?_
    refine Sim.ite (fun _ => Sim.ok h) fun _ => ?_
    refine Sim.same fun inew _ => ?_
    refine Sim.bind (gplu_row_ws_sim ?_) fun a b hab => Sim.ok hab
    split
    · exact ⟨rfl, h.Um, h.unz, rfl, rfl, h.lnz, h.Lp, rfl, rfl, h.parts, h.x⟩
    · exact h
  · rintro ⟨k, s⟩ ⟨k', t⟩ ⟨_, h⟩
    simp only at h
    refine Sim.ok ?_
    simp only [h.U, h.qinv, h.Lp, h.L, h.lnz]

theorem gplu_ws_ub {jk : Junk} {A : Csr} {p : Array Nat} {n : Nat} {p_in : Option (Array Nat)} {fact : Lu}
    {tc : Csr → Array Int → C Bool} {k : Nat} (h : ws_alloc jk A.m = .error .ub) (hk : nnz fact.U = .ok k) :
    gplu_ws jk A p n p_in fact tc = .error .ub := by
  unfold gplu_ws
  rw [hk, h]
  rfl

end Spasm
