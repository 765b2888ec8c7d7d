import Verif.Prelude

/-
Programs that may fail in some ways.  `WpE E x Q`: either `x` ends normally with `Q`, or it fails with an
error in `E`.
-/

namespace Spasm

def WpE {α : Type} (E : Err → Prop) (x : C α) (Q : α → Prop) : Prop :=
  match x with
  | .ok a => Q a
  | .error e => E e

section
variable {α β σ : Type} {E : Err → Prop}

theorem Ok.wpe {x : C α} {Q : α → Prop} (h : Ok x Q) : WpE E x Q := by
  cases x with
  | ok a => exact h
  | error _ => exact h.elim

theorem WpE.ok {x : C α} {Q : α → Prop} (h : WpE (fun _ => False) x Q) : Ok x Q := by
  cases x with
  | ok a => exact h
  | error _ => exact h

theorem WpE_ok (a : α) (Q : α → Prop) : WpE E (.ok a) Q ↔ Q a := Iff.rfl

theorem WpE_bind (x : C α) (f : α → C β) (Q : β → Prop) :
    WpE E (x >>= f) Q ↔ WpE E x (fun a => WpE E (f a) Q) := by
  cases x <;> simp [Bind.bind, Except.bind, WpE]

theorem WpE.mono {x : C α} {Q R : α → Prop} (h : WpE E x Q) (hi : ∀ a, Q a → R a) : WpE E x R := by
  cases x with
  | ok a => exact hi a h
  | error _ => exact h

theorem WpE.val {x : C α} {Q : α → Prop} (h : WpE E x Q) {a : α} (ha : x = .ok a) : Q a := by
  subst ha; exact h

theorem WpE.err {x : C α} {Q : α → Prop} (h : WpE E x Q) {e : Err} (he : x = .error e) : E e := by
  subst he; exact h

theorem WpE_whileFuel {I Q : σ → Prop} {f : σ → C (Step σ)} (hE : E .fuel)
    (hs : ∀ s, I s → WpE E (f s) (fun r => match r with | .cont s' => I s' | .brk s' => Q s')) :
    ∀ k s, I s → WpE E (whileFuel k s f) Q := by
  intro k
  induction k with
  | zero => intro s _; exact hE
  | succ k ih =>
    intro s h
    rw [whileFuel, WpE_bind]
    refine (hs s h).mono ?_
    rintro (s' | s') h'
    · exact ih s' h'
    · exact h'

theorem WpE_forN {I : Nat → σ → Prop} {f : Nat → σ → C σ} :
    ∀ k lo s, I lo s → (∀ i s, lo ≤ i → i < lo + k → I i s → WpE E (f i s) (I (i + 1))) →
      WpE E (forN lo k s f) (I (lo + k)) := by
  intro k
  induction k with
  | zero => intro lo s h _; exact h
  | succ k ih =>
    intro lo s h hs
    rw [forN, WpE_bind]
    refine (hs lo s (Nat.le_refl _) (by omega) h).mono fun s' h' => ?_
    have := ih (lo + 1) s' h' (fun i s a b c => hs i s (by omega) (by omega) c)
    rwa [show lo + 1 + k = lo + (k + 1) by omega] at this

theorem WpE_forRange {I : Nat → σ → Prop} {f : Nat → σ → C σ} {lo hi : Nat} {s : σ}
    (hle : lo ≤ hi) (h0 : I lo s)
    (hs : ∀ i s, lo ≤ i → i < hi → I i s → WpE E (f i s) (I (i + 1))) :
    WpE E (forRange lo hi s f) (I hi) := by
  have := WpE_forN (I := I) (f := f) (hi - lo) lo s h0 (fun i s h1 h2 h3 => hs i s h1 (by omega) h3)
  rwa [show lo + (hi - lo) = hi by omega] at this

end

end Spasm
