import Verif.Model.Bytes
import Verif.Proofs.LoadAny
import Verif.Proofs.Workspace

/-
The sizes in bytes are exact as long as the number of cells is less than 2^62.
-/

namespace Spasm

open Sha

/-- `x` ends as `y`, with related results, or (if `ex`) because there is no memory. -/
def Ref {α β : Type} (ex : Prop) (R : α → β → Prop) (x : C α) (y : C β) : Prop :=
  (ex ∧ x = .error .exitErr) ∨ (∃ a b, x = .ok a ∧ y = .ok b ∧ R a b) ∨ ∃ e, x = .error e ∧ y = .error e

namespace Ref

variable {α β γ δ σ τ : Type} {ex : Prop}

theorem ok {R : α → β → Prop} {a : α} {b : β} (h : R a b) : Ref ex R (.ok a : C α) (.ok b) :=
  .inr (.inl ⟨a, b, rfl, rfl, h⟩)

theorem err {R : α → β → Prop} {e : Err} : Ref ex R (.error e : C α) (.error e : C β) := .inr (.inr ⟨e, rfl, rfl⟩)

theorem mono {R S : α → β → Prop} {x : C α} {y : C β} (h : Ref ex R x y) (hRS : ∀ a b, R a b → S a b) : Ref ex S x y := by
  rcases h with h | ⟨a, b, h1, h2, h3⟩ | h
  · exact .inl h
  · exact .inr (.inl ⟨a, b, h1, h2, hRS a b h3⟩)
  · exact .inr (.inr h)

theorem bind {R : α → β → Prop} {S : γ → δ → Prop} {x : C α} {y : C β} {f : α → C γ} {g : β → C δ}
    (h : Ref ex R x y) (hf : ∀ a b, R a b → Ref ex S (f a) (g b)) : Ref ex S (x >>= f) (y >>= g) := by
  rcases h with ⟨he, rfl⟩ | ⟨a, b, rfl, rfl, h3⟩ | ⟨e, rfl, rfl⟩
  · exact .inl ⟨he, rfl⟩
  · exact hf a b h3
  · exact err

/-- A step that is only on one side. -/
theorem left {P : α → Prop} {S : γ → δ → Prop} {x : C α} {f : α → C γ} {y : C δ}
    (h : (ex ∧ x = .error .exitErr) ∨ ∃ a, x = .ok a ∧ P a) (hf : ∀ a, P a → Ref ex S (f a) y) : Ref ex S (x >>= f) y := by
  rcases h with ⟨he, rfl⟩ | ⟨a, rfl, h3⟩
  · exact .inl ⟨he, rfl⟩
  · exact hf a h3

theorem same {S : γ → δ → Prop} {x : C α} {f : α → C γ} {g : α → C δ} (hf : ∀ a, x = .ok a → Ref ex S (f a) (g a)) :
    Ref ex S (x >>= f) (x >>= g) := by
  cases hx : x with
  | ok a => exact hf a hx
  | error e => exact err

theorem whileFuel {R : Nat → σ → τ → Prop} {N : Nat} {f : σ → C (Step σ)} {g : τ → C (Step τ)}
    (h : ∀ c s t, c < N → R c s t → Ref ex (Sim.StepR (R (c + 1))) (f s) (g t)) :
    ∀ (k c : Nat) (s : σ) (t : τ), c + k ≤ N → R c s t →
      Ref ex (fun a b => ∃ c, c ≤ N ∧ R c a b) (Spasm.whileFuel k s f) (Spasm.whileFuel k t g)
  | 0, _, _, _, _, _ => err
  | k + 1, c, s, t, hk, hR => by
    unfold Spasm.whileFuel
    refine bind (h c s t (by omega) hR) fun v w hvw => ?_
    cases v <;> cases w
    · exact whileFuel h k (c + 1) _ _ (by omega) hvw
    · exact hvw.elim
    · exact hvw.elim
    · exact ok ⟨c + 1, by omega, hvw⟩

/-- The outcome, as an equation. -/
theorem eq_map {f : α → β} {x : C α} {y : C β} (h : Ref ex (fun a b => f a = b) x y) :
    (ex ∧ x = .error .exitErr) ∨ (x >>= fun a => .ok (f a)) = y := by
  rcases h with h | ⟨a, b, rfl, rfl, h3⟩ | ⟨e, rfl, rfl⟩
  · exact .inl h
  · right; rw [← h3]; rfl
  · exact .inr rfl

end Ref

theorem bytes_exact {k : Int} {s : Nat} (h0 : 0 ≤ k) (h : k * s < 2 ^ 64) : bytes k s = k.toNat * s := by
  unfold bytes
  rw [Int.emod_eq_of_lt (by positivity) h]
  obtain ⟨n, rfl⟩ := Int.eq_ofNat_of_zero_le h0
  rw [Int.toNat_natCast, ← Int.natCast_mul, Int.toNat_natCast]

/-- What is assumed of the allocator: it never grants 2^63 bytes, and (`¬ ex`) grants less. -/
def Mem (ex : Prop) (grant : Nat → Bool) : Prop := ex ∨ ∀ b, b < 2 ^ 63 → grant b = true

theorem alloc_cells_exact {ex : Prop} {grant : Nat → Bool} (hm : Mem ex grant) {k : Int} {s : Nat} (hs : 0 < s)
    (h0 : 0 ≤ k) (h : k * s < 2 ^ 64) (h' : ex ∨ k * s < 2 ^ 63) :
    (ex ∧ alloc_cells grant k s = .error .exitErr) ∨ ∃ a, alloc_cells grant k s = .ok a ∧ a = k.toNat := by
  unfold alloc_cells
  have he := bytes_exact h0 h
  have hd : k.toNat * s / s = k.toNat := Nat.mul_div_cancel _ hs
  rw [he, hd]
  by_cases hg : grant (k.toNat * s) = true
  · rw [if_pos hg]; exact .inr ⟨_, rfl, rfl⟩
  · rw [if_neg hg]
    left
    refine ⟨?_, rfl⟩
    rcases hm with hm | hm
    · exact hm
    · rcases h' with h' | h'
      · exact h'
      · refine absurd (hm _ ?_) hg
        obtain ⟨n, rfl⟩ := Int.eq_ofNat_of_zero_le h0
        rw [Int.toNat_natCast]
        exact_mod_cast h'

theorem bytes_zero_iff {k : Int} (h0 : 0 ≤ k) (h : k < 2 ^ 62) : bytes k 4 = 0 ↔ k.toNat = 0 := by
  rw [bytes_exact h0 (by omega)]; omega

/-- The matrices of the two models. -/
structure RelT (c : Nat) (B : TripletB) (T : Triplet) : Prop where
  toT : B.toT = T
  nzmax : B.nzmax = (T.i.size : Int)
  nz : B.nz ≤ c

theorem triplet_alloc_b_ref {ex : Prop} {grant : Nat → Bool} (hm : Mem ex grant) (jk : Junk) (n m k prime : Int) (v : Bool)
    (h0 : 0 ≤ k) (h : k < 2 ^ 62) (h' : ex ∨ k < 2 ^ 61) :
    Ref ex (RelT 0) (triplet_alloc_b grant jk n m k prime v) (triplet_alloc jk n.toNat m.toNat k.toNat prime v) := by
  have ha := alloc_cells_exact hm (k := k) (s := 4) (by omega) h0 (by push_cast; omega) (h'.imp id fun h => by push_cast; omega)
  unfold triplet_alloc_b triplet_alloc
  refine Ref.same fun F _ => ?_
  refine Ref.left ha ?_
  rintro _ rfl
  refine Ref.left ha ?_
  rintro _ rfl
  cases v
  · exact Ref.ok ⟨rfl, by simp [Int.toNat_of_nonneg h0], Nat.le_refl _⟩
  · simp only [if_true]
    refine Ref.left ha ?_
    rintro _ rfl
    exact Ref.ok ⟨rfl, by simp [Int.toNat_of_nonneg h0], Nat.le_refl _⟩

theorem realloc_x_exact {ex : Prop} {grant : Nat → Bool} (hm : Mem ex grant) (jk : Junk) (x : Option (Array Int)) {k : Int}
    (h0 : 0 ≤ k) (h : k < 2 ^ 61) :
    (ex ∧ realloc_x grant jk x k = .error .exitErr) ∨ ∃ a, realloc_x grant jk x k = .ok a ∧
      a = if k.toNat = 0 ∧ jk.null0 = true then none else x.map (fun a => reallocArr a k.toNat jk.int) := by
  have ha := alloc_cells_exact hm (k := k) (s := 4) (by omega) h0 (by push_cast; omega) (.inr (by push_cast; omega))
  unfold realloc_x
  cases x with
  | none => right; exact ⟨none, rfl, by simp⟩
  | some a =>
    rcases ha with ⟨h1, h2⟩ | ⟨_, h1, rfl⟩
    · left; simp only; rw [h2]; exact ⟨h1, rfl⟩
    · right
      simp only
      rw [h1]
      refine ⟨_, rfl, ?_⟩
      simp only [bytes_zero_iff h0 (show k < 2 ^ 62 by omega)]
      rfl

theorem triplet_realloc_b_ref {ex : Prop} {grant : Nat → Bool} (hm : Mem ex grant) (jk : Junk) {c : Nat} {B : TripletB}
    {T : Triplet} (hr : RelT c B T) (k : Int) (hc : c < 2 ^ 60) (h : k < 2 ^ 61) :
    Ref ex (fun B' T' => RelT c B' T' ∧ B'.nz = B.nz) (triplet_realloc_b grant jk B k) (triplet_realloc jk T k) := by
  obtain ⟨rfl, h2, h3⟩ := hr
  have key : ∀ k' : Int, 0 ≤ k' → k' < 2 ^ 61 →
      Ref ex (fun B' T' => RelT c B' T' ∧ B'.nz = B.nz) (do
        let ki ← alloc_cells grant k' 4
        let kj ← alloc_cells grant k' 4
        let x ← realloc_x grant jk B.x k'
        .ok { B with nzmax := k', i := reallocArr B.i ki jk.nat, j := reallocArr B.j kj jk.nat, x := x })
      (.ok { B.toT with i := reallocArr B.toT.i k'.toNat jk.nat, j := reallocArr B.toT.j k'.toNat jk.nat,
                        x := if k'.toNat = 0 ∧ jk.null0 then none
                             else B.toT.x.map (fun a => reallocArr a k'.toNat jk.int) }) := by
    intro k' h0 h1
    have ha := alloc_cells_exact hm (k := k') (s := 4) (by omega) h0 (by push_cast; omega) (.inr (by push_cast; omega))
    refine Ref.left ha ?_
    rintro _ rfl
    refine Ref.left ha ?_
    rintro _ rfl
    refine Ref.left (realloc_x_exact hm jk B.x h0 h1) ?_
    rintro _ rfl
    exact Ref.ok ⟨⟨rfl, by simp [Int.toNat_of_nonneg h0], h3⟩, rfl⟩
  unfold triplet_realloc_b triplet_realloc
  by_cases hk : k < 0
  · simp only [if_pos hk]
    have := key (B.nz : Int) (by omega) (by omega)
    simp only [Int.toNat_natCast] at this
    exact this
  · simp only [if_neg hk]
    exact key k (by omega) h

theorem add_entry_end_ref {ex : Prop} {c : Nat} {B : TripletB} {px : Nat} {i j : Int} (hn : B.nzmax = (B.i.size : Int))
    (hz : B.nz ≤ c) (hi : 0 ≤ i ∧ i < 2 ^ 31 - 1) (hj : 0 ≤ j ∧ j < 2 ^ 31 - 1) :
    Ref ex (RelT (c + 1)) (add_entry_end B px i j) (do
      let ti ← wr B.i px i.toNat
      let tj ← wr B.j px j.toNat
      .ok { B.toT with i := ti, j := tj, nz := B.nz + 1, n := max B.n.toNat (i.toNat + 1),
                       m := max B.m.toNat (j.toNat + 1) }) := by
  unfold add_entry_end
  refine Ref.same fun ti h1 => ?_
  refine Ref.same fun tj h2 => ?_
  rw [show i32 (i + 1) = .ok (i + 1) from if_pos (by omega), show i32 (j + 1) = .ok (j + 1) from if_pos (by omega)]
  refine Ref.ok ⟨?_, ?_, ?_⟩
  · simp only [TripletB.toT, Triplet.mk.injEq, and_true]
    omega
  · simp only [hn]
    have : ti.size = B.i.size := by
      unfold wr at h1
      split at h1
      · cases h1; simp
      · cases h1
    rw [this]
  · simp only; omega

theorem bok_eq {α β : Type} (a : α) (f : α → C β) : ((.ok a : C α) >>= f) = f a := rfl

/-- The end of `add_entry`, for the proof. -/
def add_cont (px : Nat) (i j x : Int) (T : Triplet) : C Triplet :=
  let finish (T : Triplet) : C Triplet := do
    let ti ← wr T.i px i.toNat
    let tj ← wr T.j px j.toNat
    .ok { T with i := ti, j := tj, nz := T.nz + 1, n := max T.n (i.toNat + 1), m := max T.m (j.toNat + 1) }
  match T.x with
  | some a => do
    let xp ← ZZp_init T.F x
    if xp = 0 then .ok T
    else do
      let a ← wr a px xp
      finish { T with x := some a }
  | none => finish T

theorem add_entry_eq (jk : Junk) (T : Triplet) (i j x : Int) : add_entry jk T i j x = (do
    cassert (decide (i ≥ 0) && decide (j ≥ 0))
    (if T.nz = T.i.size then triplet_realloc jk T (1 + 2 * (T.i.size : Int)) else .ok T) >>= add_cont T.nz i j x) := by
  unfold add_entry
  congr 1
  funext _
  by_cases h : T.nz = T.i.size
  · simp only [if_pos h]; rfl
  · simp only [if_neg h]; rfl

theorem add_entry_b_ref {ex : Prop} {grant : Nat → Bool} (hm : Mem ex grant) (jk : Junk) {c : Nat} {B : TripletB}
    {T : Triplet} (hr : RelT c B T) (i j x : Int) (hc : c < 2 ^ 59) (hi : i < 2 ^ 31 - 1) (hj : j < 2 ^ 31 - 1) :
    Ref ex (RelT (c + 1)) (add_entry_b grant jk B i j x) (add_entry jk T i j x) := by
  rw [add_entry_eq]
  unfold add_entry_b
  refine Ref.same fun _ h0 => ?_
  have h0 : 0 ≤ i ∧ 0 ≤ j := by
    unfold cassert at h0
    split at h0
    · rename_i h; simpa using h
    · cases h0
  obtain ⟨hT, h2, h3⟩ := hr
  have hroom : Ref ex (fun B' T' => RelT c B' T' ∧ B'.nz = B.nz) (add_entry_room grant jk B)
      (if T.nz = T.i.size then triplet_realloc jk T (1 + 2 * (T.i.size : Int)) else .ok T) := by
    unfold add_entry_room
    have hnz : T.nz = B.nz := by rw [← hT]; rfl
    by_cases hfull : T.nz = T.i.size
    · rw [if_pos hfull, if_pos (by rw [h2, ← hfull, hnz])]
      rw [show i64 (2 * B.nzmax) = .ok (2 * B.nzmax) from if_pos (by omega), bok_eq,
        show i64 (1 + 2 * B.nzmax) = .ok (1 + 2 * B.nzmax) from if_pos (by omega), bok_eq, h2]
      exact triplet_realloc_b_ref hm jk ⟨hT, h2, h3⟩ _ (by omega) (by omega)
    · rw [if_neg hfull, if_neg (by rw [h2, ← hnz]; exact_mod_cast hfull)]
      exact Ref.ok ⟨⟨hT, h2, h3⟩, rfl⟩
  have hpx : T.nz = B.nz := by rw [← hT]; rfl
  rw [hpx]
  rw [hpx] at hroom
  refine Ref.bind hroom ?_
  rintro B' T' ⟨⟨rfl, h5, h6⟩, h7⟩
  unfold add_cont
  cases hx : B'.x with
  | none =>
    obtain ⟨k', nz', n', m', i', j', x', F'⟩ := B'
    simp only at hx
    subst hx
    exact add_entry_end_ref h5 h6 ⟨h0.1, hi⟩ ⟨h0.2, hj⟩
  | some a =>
    have hx' : B'.toT.x = some a := hx
    simp only [hx']
    refine Ref.same fun xp _ => ?_
    by_cases hz : xp = 0
    · rw [if_pos hz, if_pos hz]
      exact Ref.ok ⟨rfl, h5, by omega⟩
    · rw [if_neg hz, if_neg hz]
      refine Ref.same fun a' _ => ?_
      exact add_entry_end_ref (B := { B' with x := some a' }) h5 h6 ⟨h0.1, hi⟩ ⟨h0.2, hj⟩

/-- The states of the two loops. -/
structure RelS (c : Nat) (s : LoadStB) (t : LoadSt) : Prop where
  T : RelT c s.T t.T
  f : s.f = t.f
  ctx : s.ctx = t.ctx
  fin : s.fin = t.fin
  entries : s.entries = t.entries

theorem scanD_lt {bits : Nat} {s : List Char} {x : Int} {t : List Char} (h : scanD bits s = .ok (some x, t)) :
    x < 2 ^ bits := by
  unfold scanD at h
  split at h
  · cases h
  · split at h
    · cases h; omega
    · cases h

theorem scan3_lt {b : List Char} {i j x : Int} (h : scan3 b = .ok (some (i, j, x))) : i < 2 ^ 31 ∧ j < 2 ^ 31 := by
  unfold scan3 at h
  obtain ⟨⟨a, s⟩, h1, h⟩ := bind_ok_iff.mp h
  cases a with
  | none => cases h
  | some a =>
    simp only at h
    obtain ⟨⟨b, s2⟩, h2, h⟩ := bind_ok_iff.mp h
    cases b with
    | none => cases h
    | some b =>
      simp only at h
      obtain ⟨⟨c, s3⟩, h3, h⟩ := bind_ok_iff.mp h
      cases c with
      | none => cases h
      | some c =>
        cases h
        exact ⟨scanD_lt h1, scanD_lt h2⟩

theorem load_line_b_ref {ex : Prop} {grant : Nat → Bool} (hm : Mem ex grant) (jk : Junk) (hd : Header)
    (b f : List Char) (ctx : Option Ctx) {c : Nat} {s : LoadStB} {t : LoadSt} (hr : RelS c s t) (hc : c < 2 ^ 59) :
    Ref ex (RelS (c + 1)) (load_line_b grant jk hd b f ctx s) (load_line jk hd b f ctx t) := by
  unfold load_line_b load_line
  refine Ref.same fun o ho => ?_
  cases o with
  | none => exact Ref.err
  | some e =>
    obtain ⟨i, j, x⟩ := e
    simp only
    obtain ⟨g1, g2⟩ := scan3_lt ho
    obtain ⟨h1, h2, h3, h4, h5⟩ := hr
    by_cases hz : i = 0 ∧ j = 0 ∧ x = 0
    · rw [if_pos hz, if_pos hz]
      by_cases hmm : hd.mm = true
      · rw [if_pos hmm, if_pos hmm]; exact Ref.err
      · rw [if_neg hmm, if_neg hmm]
        exact Ref.ok ⟨⟨h1.toT, h1.nzmax, by have := h1.nz; simp only; omega⟩, rfl, rfl, rfl, h5⟩
    · rw [if_neg hz, if_neg hz]
      refine Ref.same fun i' hi' => ?_
      refine Ref.same fun j' hj' => ?_
      have hi'' : i' = i - 1 := by
        unfold i32 at hi'; split at hi' <;> cases hi'; rfl
      have hj'' : j' = j - 1 := by
        unfold i32 at hj'; split at hj' <;> cases hj'; rfl
      refine Ref.bind (add_entry_b_ref hm jk h1 i' j' x hc (by omega) (by omega)) ?_
      intro B' T' h
      exact Ref.ok ⟨h, rfl, rfl, by simp only [h5], by simp only [h5]⟩

theorem load_step_b_ref {ex : Prop} {grant : Nat → Bool} (hm : Mem ex grant) (jk : Junk) (jw : Nat → W) (hd : Header)
    {c : Nat} {s : LoadStB} {t : LoadSt} (hr : RelS c s t) (hc : c < 2 ^ 59) :
    Ref ex (Sim.StepR (RelS (c + 1))) (load_step_b grant jk jw hd s) (load_step jk jw hd t) := by
  unfold load_step_b load_step
  have hr0 := hr
  obtain ⟨h1, h2, h3, h4, h5⟩ := hr
  rw [h2, h3, h4]
  refine Ref.same fun r _ => ?_
  obtain ⟨l, f, ctx⟩ := r
  have h1' : RelT (c + 1) s.T t.T := ⟨h1.toT, h1.nzmax, by have := h1.nz; omega⟩
  cases l with
  | none =>
    simp only
    by_cases hf : t.fin = true
    · rw [if_pos hf, if_pos hf]; exact Ref.ok (R := Sim.StepR (RelS (c + 1))) ⟨h1', rfl, rfl, rfl, h5⟩
    · rw [if_neg hf, if_neg hf]; exact Ref.err
  | some b =>
    simp only
    by_cases hf : t.fin = true
    · rw [if_pos hf, if_pos hf]; exact Ref.ok (R := Sim.StepR (RelS (c + 1))) ⟨h1', rfl, rfl, rfl, h5⟩
    · rw [if_neg hf, if_neg hf]
      refine Ref.bind (load_line_b_ref hm jk hd b f ctx hr0 hc) ?_
      intro s' t' h
      exact Ref.ok (R := Sim.StepR (RelS (c + 1))) h

theorem load_end_b_ref {ex : Prop} {grant : Nat → Bool} (hm : Mem ex grant) (jk : Junk) (jw : Nat → W) (hd : Header)
    {c : Nat} {s : LoadStB} {t : LoadSt} (hr : RelS c s t) (hc : c < 2 ^ 60) (hash : Option (Array B)) :
    Ref ex (fun r r' => (r.1.toT, r.2) = r') (load_end_b grant jk jw hd s hash) (load_end jk jw hd t hash) := by
  unfold load_end_b load_end
  obtain ⟨h1, h2, h3, h4, h5⟩ := hr
  rw [h3]
  refine Ref.bind (R := fun (b : TripletB) T => b.toT = T) ?_ ?_
  · unfold load_trim_b load_trim
    by_cases hmm : hd.mm = true
    · rw [if_pos hmm, if_pos hmm]; exact Ref.ok h1.toT
    · rw [if_neg hmm, if_neg hmm]
      exact (triplet_realloc_b_ref hm jk h1 (-1) hc (by omega)).mono fun _ _ h => h.1.toT
  · rintro B' _ rfl
    cases t.ctx with
    | none => exact Ref.ok rfl
    | some c' =>
      cases hash with
      | none => exact Ref.ok rfl
      | some md =>
        refine Ref.same fun r _ => ?_
        exact Ref.ok rfl

/-- The loader of the other model, where negative dimensions are replaced by zero. -/
def load_clamped (jk : Junk) (jw : Nat → W) (f : List Char) (prime : Int) (hash : Option (Array B)) :
    C (Triplet × Option (Array B)) := do
  let (h, f, ctx) ← load_header jw f prime (hash.map fun _ => SHA256_init)
  let T ← triplet_alloc jk h.n.toNat h.m.toNat h.nnz.toNat prime (decide (prime ≠ -1))
  let s ← whileFuel (f.length + 1) ⟨T, f, ctx, false, 0⟩ fun s => load_step jk jw h s
  load_end jk jw h s hash

theorem load_clamped_ref {ex : Prop} {grant : Nat → Bool} (hm : Mem ex grant) (jk : Junk) (jw : Nat → W) (f : List Char)
    (prime : Int) (hash : Option (Array B)) (hf : f.length < 2 ^ 58)
    (hh : ∀ h f' ctx', load_header jw f prime (hash.map fun _ => SHA256_init) = .ok (h, f', ctx') →
      0 ≤ h.nnz ∧ h.nnz < 2 ^ 62 ∧ (ex ∨ h.nnz < 2 ^ 61)) :
    Ref ex (fun r r' => (r.1.toT, r.2) = r') (triplet_load_b grant jk jw f prime hash) (load_clamped jk jw f prime hash) := by
  unfold triplet_load_b load_clamped
  have hc : CtxOk [] (hash.map fun _ => SHA256_init) := by
    cases hash with
    | none => intro c h; cases h
    | some md => intro c h; cases h; exact Hashed.init
  refine Ref.same fun r hr => ?_
  obtain ⟨h, f', ctx'⟩ := r
  obtain ⟨h0, h1, h2⟩ := hh h f' ctx' hr
  have hlen : f'.length ≤ f.length := by
    obtain ⟨-, ⟨p, done, h3, -⟩, -⟩ := (load_header_any (E := fun _ => True) trivial jw (f := f) (.inr trivial) prime hc).val hr
    simp only at h3
    rw [h3]; simp
  simp only
  refine Ref.bind (triplet_alloc_b_ref hm jk h.n h.m h.nnz prime _ h0 h1 h2) ?_
  intro B' T' hBT
  refine Ref.bind (Ref.whileFuel (R := RelS) (N := 2 ^ 58) (fun c s t hc hst => load_step_b_ref hm jk jw h hst (by omega))
    _ 0 _ _ (by omega) ⟨hBT, rfl, rfl, rfl, rfl⟩) ?_
  rintro s t ⟨c, hc, hst⟩
  exact load_end_b_ref hm jk jw h hst (by omega) hash

theorem load_clamped_eq (jk : Junk) (jw : Nat → W) (f : List Char) (prime : Int) (hash : Option (Array B))
    (hh : ∀ h f' ctx', load_header jw f prime (hash.map fun _ => SHA256_init) = .ok (h, f', ctx') →
      0 ≤ h.nnz ∧ 0 ≤ h.n ∧ 0 ≤ h.m) : load_clamped jk jw f prime hash = triplet_load jk jw f prime hash := by
  unfold load_clamped triplet_load
  cases hl : load_header jw f prime (hash.map fun _ => SHA256_init) with
  | error e => rfl
  | ok r =>
    obtain ⟨h, f', ctx'⟩ := r
    obtain ⟨h0, h1, h2⟩ := hh h f' ctx' hl
    rw [bok_eq, bok_eq]
    simp only [load_alloc]
    rw [if_neg (by omega), if_neg (by omega)]

/-- The program ends if the number of entries is negative and its size does not wrap around to a small number. -/
theorem load_negative {grant : Nat → Bool} (hg : ∀ b, 2 ^ 63 ≤ b → grant b = false) (jk : Junk) (jw : Nat → W)
    (f : List Char) (prime : Int) (hash : Option (Array B)) {h : Header} {f' : List Char} {ctx' : Option Ctx}
    (hl : load_header jw f prime (hash.map fun _ => SHA256_init) = .ok (h, f', ctx')) (h0 : h.nnz < 0)
    (h1 : -2 ^ 61 ≤ h.nnz) (F : Field) (hF : field_init prime = .ok F) :
    triplet_load_b grant jk jw f prime hash = .error .exitErr := by
  unfold triplet_load_b
  rw [hl, bok_eq]
  simp only [triplet_alloc_b]
  rw [hF, bok_eq]
  have : alloc_cells grant h.nnz 4 = .error .exitErr := by
    unfold alloc_cells
    have hb : 2 ^ 63 ≤ bytes h.nnz 4 := by
      unfold bytes
      have : (h.nnz * (4 : ℕ)) % 2 ^ 64 = h.nnz * 4 + 2 ^ 64 := by
        push_cast
        rw [← Int.add_emod_right, Int.emod_eq_of_lt (by omega) (by omega)]
      rw [this]
      omega
    rw [hg _ hb]; rfl
  rw [this]
  rfl

theorem csr_alloc_b_ref {ex : Prop} {grant : Nat → Bool} (hm : Mem ex grant) (jk : Junk) {n m : Int} {nz : Nat} (prime : Int)
    (v : Bool) (hn : 0 ≤ n ∧ n < 2 ^ 31 - 1) (hz : nz < 2 ^ 61) :
    Ref ex Eq (csr_alloc_b grant jk n m nz prime v) (csr_alloc jk n.toNat m.toNat nz prime v) := by
  have ha := alloc_cells_exact hm (k := nz) (s := 4) (by omega) (by omega) (by push_cast; omega) (.inr (by push_cast; omega))
  rw [Int.toNat_natCast] at ha
  unfold csr_alloc_b csr_alloc
  refine Ref.same fun F _ => ?_
  rw [show i32 (n + 1) = .ok (n + 1) from if_pos (by omega), bok_eq]
  refine Ref.left (alloc_cells_exact hm (k := n + 1) (s := 8) (by omega) (by omega) (by push_cast; omega)
    (.inr (by push_cast; omega))) ?_
  rintro _ rfl
  rw [show (n + 1).toNat = n.toNat + 1 by omega]
  refine Ref.left ha ?_
  rintro _ rfl
  cases v
  · simp only [Bool.false_eq_true, if_false]
    exact Ref.same fun p _ => Ref.ok rfl
  · simp only [if_true]
    refine Ref.left ha ?_
    rintro _ rfl
    exact Ref.same fun p _ => Ref.ok rfl

theorem compress_sort_eq (jk : Junk) (T : Triplet) :
    compress_sort jk T = csr_alloc jk T.n T.m T.nz T.F.p T.x.isSome >>= compress_fill T := rfl

theorem compress_b_ref {ex : Prop} {grant : Nat → Bool} (hm : Mem ex grant) (jk : Junk) {T : TripletB}
    (hn : 0 ≤ T.n ∧ T.n < 2 ^ 31 - 1) (hm' : 0 ≤ T.m ∧ T.m < 2 ^ 31) (hz : T.nz < 2 ^ 61) :
    Ref ex Eq (compress_b grant jk T) (compress jk T.toT) := by
  unfold compress_b compress
  rw [compress_sort_eq, bind_assoc]
  refine Ref.bind (csr_alloc_b_ref hm jk (n := T.n) (m := T.m) (nz := T.nz) T.F.p T.x.isSome hn hz) ?_
  rintro A _ rfl
  refine Ref.left (alloc_cells_exact hm (k := T.n) (s := 8) (by omega) (by omega) (by push_cast; omega)
    (.inr (by push_cast; omega))) ?_
  intro _ _
  rw [if_neg (by omega)]
  refine Ref.same fun A' _ => ?_
  refine Ref.left (alloc_cells_exact hm (k := T.m) (s := 8) (by omega) (by omega) (by push_cast; omega)
    (.inr (by push_cast; omega))) ?_
  intro _ _
  rw [if_neg (by omega)]
  refine Ref.same fun A'' _ => ?_
  cases remove_explicit_zeroes jk A'' with
  | ok a => exact Ref.ok rfl
  | error e => exact Ref.err

end Spasm
