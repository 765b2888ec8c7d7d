/-
The execution model shared by all modules.

C code is modelled by functions into `C α`: either a value or one of four
distinct failures.  Nothing here models a particular function of the library.
-/

namespace Spasm

/-- How a run can go wrong.  `ub`: undefined behaviour in C (out-of-bounds access, NULL
dereference, signed overflow, division by zero, float-to-integer conversion out of
range).  `assertFail`: an `assert` fails.  `exitErr`: the code calls `err`/`errx`.
`fuel`: a `while` loop exceeds the number of iterations allowed by the model (the theorems
show that it never happens, i.e. that the loop terminates). -/
inductive Err where
  | ub | assertFail | exitErr | fuel
  deriving DecidableEq, Repr

/-- A run of C code: a result or a failure. -/
abbrev C (α : Type) := Except Err α

deriving instance DecidableEq for Except

/-- "`x` ends normally and its result satisfies `Q`". -/
def Ok {α : Type} (x : C α) (Q : α → Prop) : Prop :=
  match x with
  | .ok a => Q a
  | .error _ => False

/-! ### Checked array accesses -/

/-- Value at index `i` (specification side; out of range: the default value). -/
def _root_.Array.g {α : Type} [Inhabited α] (a : Array α) (i : Nat) : α := a.getD i default

/-- Functional update (specification side; out of range: no effect). -/
def _root_.Array.upd {α : Type} (a : Array α) (i : Nat) (v : α) : Array α := a.setIfInBounds i v

/-- `a[i]` in C, `i` known to be non-negative. -/
def rd {α : Type} (a : Array α) (i : Nat) : C α :=
  match a[i]? with
  | some v => .ok v
  | none => .error .ub

/-- `a[i] = v` in C. -/
def wr {α : Type} (a : Array α) (i : Nat) (v : α) : C (Array α) :=
  if i < a.size then .ok (a.upd i v) else .error .ub

/-- A signed index: negative means out of bounds. -/
def idx (i : Int) : C Nat := if 0 ≤ i then .ok i.toNat else .error .ub

/-- `a[i]` in C for a signed index. -/
def rdI {α : Type} (a : Array α) (i : Int) : C α := do
  let k ← idx i
  rd a k

/-- `a[i] = v` in C for a signed index. -/
def wrI {α : Type} (a : Array α) (i : Int) (v : α) : C (Array α) := do
  let k ← idx i
  wr a k v

/-- `assert(b)`. -/
def cassert (b : Bool) : C Unit := if b then .ok () else .error .assertFail

/-- A pointer that may be `NULL`; dereferencing `NULL` is undefined. -/
def deref {α : Type} (o : Option α) : C α :=
  match o with
  | some v => .ok v
  | none => .error .ub

/-! ### Loops -/

/-- `k` iterations of `f`, with counter starting at `lo`. -/
def forN {σ : Type} (lo : Nat) : Nat → σ → (Nat → σ → C σ) → C σ
  | 0, s, _ => .ok s
  | k + 1, s, f => do
    let s' ← f lo s
    forN (lo + 1) k s' f

/-- `for (i = lo; i < hi; i++) s = f(i, s)`. -/
def forRange {σ : Type} (lo hi : Nat) (s : σ) (f : Nat → σ → C σ) : C σ :=
  forN lo (hi - lo) s f

/-- Outcome of one iteration of a loop that may `break`. -/
inductive Step (σ : Type) where
  | cont (s : σ)
  | brk (s : σ)

/-- at most `k` iterations of `f`; returns the counter at exit too. -/
def forBrkN {σ : Type} (lo : Nat) : Nat → σ → (Nat → σ → C (Step σ)) → C (Nat × σ)
  | 0, s, _ => .ok (lo, s)
  | k + 1, s, f => do
    match ← f lo s with
    | .cont s' => forBrkN (lo + 1) k s' f
    | .brk s' => .ok (lo, s')

/-- `for (i = lo; i < hi; i++) { ... break ... }`, returning the final `i` and the state. -/
def forBrk {σ : Type} (lo hi : Nat) (s : σ) (f : Nat → σ → C (Step σ)) : C (Nat × σ) := do
  let (k, s') ← forBrkN lo (hi - lo) s f
  .ok (k, s')

/-- `while (1) { ... break ... }` with an explicit bound on the number of iterations. -/
def whileFuel {σ : Type} : Nat → σ → (σ → C (Step σ)) → C σ
  | 0, _, _ => .error .fuel
  | k + 1, s, f => do
    match ← f s with
    | .cont s' => whileFuel k s' f
    | .brk s' => .ok s'

/-! ### Rules for `Ok` -/

section
variable {α β σ : Type}

@[simp] theorem Ok_ok (a : α) (Q : α → Prop) : Ok (.ok a) Q ↔ Q a := Iff.rfl
@[simp] theorem Ok_pure (a : α) (Q : α → Prop) : Ok (pure a) Q ↔ Q a := Iff.rfl
@[simp] theorem Ok_error (e : Err) (Q : α → Prop) : Ok (.error e) Q ↔ False := Iff.rfl
@[simp] theorem Ok_throw (e : Err) (Q : α → Prop) : Ok (throw e : C α) Q ↔ False := Iff.rfl

@[simp] theorem Ok_bind (x : C α) (f : α → C β) (Q : β → Prop) :
    Ok (x >>= f) Q ↔ Ok x (fun a => Ok (f a) Q) := by
  cases x <;> simp [bind, Except.bind, Ok]

theorem Ok.mono {x : C α} {Q R : α → Prop} (h : Ok x Q) (hi : ∀ a, Q a → R a) : Ok x R := by
  cases x with
  | ok a => exact hi a h
  | error e => exact h

theorem Ok.and {x : C α} {Q R : α → Prop} (h : Ok x Q) (h' : Ok x R) :
    Ok x (fun a => Q a ∧ R a) := by
  cases x with
  | ok a => exact ⟨h, h'⟩
  | error e => exact h

theorem Ok_iff {x : C α} {Q : α → Prop} : Ok x Q ↔ ∃ a, x = .ok a ∧ Q a := by
  cases x with
  | ok a =>
    constructor
    · intro h; exact ⟨a, rfl, h⟩
    · rintro ⟨b, hb, h⟩; cases hb; exact h
  | error e =>
    constructor
    · intro h; exact h.elim
    · rintro ⟨b, hb, _⟩; cases hb

theorem Ok.bind {x : C α} {f : α → C β} {R : α → Prop} {Q : β → Prop}
    (h : Ok x R) (hf : ∀ a, R a → Ok (f a) Q) : Ok (x >>= f) Q := by
  rw [Ok_bind]; exact h.mono hf

theorem Ok_ite {c : Prop} [Decidable c] {x y : C α} {Q : α → Prop}
    (hx : c → Ok x Q) (hy : ¬c → Ok y Q) : Ok (if c then x else y) Q := by
  split
  · exact hx ‹_›
  · exact hy ‹_›

@[simp] theorem Ok_cassert (b : Bool) (Q : Unit → Prop) :
    Ok (cassert b) Q ↔ b = true ∧ Q () := by
  unfold cassert; cases b <;> simp

@[simp] theorem Ok_deref_some (a : α) (Q : α → Prop) : Ok (deref (some a)) Q ↔ Q a := Iff.rfl

theorem Ok_forN {I : Nat → σ → Prop} {f : Nat → σ → C σ} (k : Nat) :
    ∀ (lo : Nat) (s : σ), I lo s →
    (∀ i s, lo ≤ i → i < lo + k → I i s → Ok (f i s) (I (i + 1))) →
    Ok (forN lo k s f) (I (lo + k)) := by
  induction k with
  | zero => intro lo s h0 _; simpa [forN] using h0
  | succ k ih =>
    intro lo s h0 hs
    rw [forN]
    refine Ok.bind (hs lo s (Nat.le_refl _) (by omega) h0) ?_
    intro s' hs'
    have := ih (lo + 1) s' hs' (fun i s h1 h2 h3 => hs i s (by omega) (by omega) h3)
    have e : lo + 1 + k = lo + (k + 1) := by omega
    rwa [e] at this

/-- Invariant rule for `for` loops. -/
theorem Ok_forRange {I : Nat → σ → Prop} {f : Nat → σ → C σ} {lo hi : Nat} {s : σ}
    (hle : lo ≤ hi) (h0 : I lo s)
    (hs : ∀ i s, lo ≤ i → i < hi → I i s → Ok (f i s) (I (i + 1))) :
    Ok (forRange lo hi s f) (I hi) := by
  have := Ok_forN (I := I) (f := f) (hi - lo) lo s h0
    (fun i s h1 h2 h3 => hs i s h1 (by omega) h3)
  have e : lo + (hi - lo) = hi := by omega
  rwa [e] at this

theorem Ok_forRange_imp {I : Nat → σ → Prop} {Q : σ → Prop} {f : Nat → σ → C σ} {lo hi : Nat}
    {s : σ} (hle : lo ≤ hi) (h0 : I lo s)
    (hs : ∀ i s, lo ≤ i → i < hi → I i s → Ok (f i s) (I (i + 1)))
    (hq : ∀ s, I hi s → Q s) :
    Ok (forRange lo hi s f) Q := (Ok_forRange hle h0 hs).mono hq

theorem forRange_ge {f : Nat → σ → C σ} {lo hi : Nat} {s : σ} (h : hi ≤ lo) :
    forRange lo hi s f = .ok s := by
  unfold forRange; rw [Nat.sub_eq_zero_of_le h]; rfl

theorem Ok_forBrkN {I : Nat → σ → Prop} {B : Nat → σ → Prop} {f : Nat → σ → C (Step σ)} (k : Nat) :
    ∀ (lo : Nat) (s : σ), I lo s →
    (∀ i s, lo ≤ i → i < lo + k → I i s →
      Ok (f i s) (fun r => match r with | .cont s' => I (i + 1) s' | .brk s' => B i s')) →
    Ok (forBrkN lo k s f) (fun r => (lo ≤ r.1 ∧ r.1 < lo + k ∧ B r.1 r.2) ∨
      (r.1 = lo + k ∧ I (lo + k) r.2)) := by
  induction k with
  | zero => intro lo s h0 _; simpa [forBrkN] using h0
  | succ k ih =>
    intro lo s h0 hs
    rw [forBrkN]
    refine Ok.bind (hs lo s (Nat.le_refl _) (by omega) h0) ?_
    intro r hr
    cases r with
    | cont s' =>
      have := ih (lo + 1) s' hr (fun i s h1 h2 h3 => hs i s (by omega) (by omega) h3)
      have e : lo + 1 + k = lo + (k + 1) := by omega
      rw [e] at this
      refine this.mono ?_
      rintro ⟨a, b⟩ (⟨h1, h2, h3⟩ | h)
      · exact Or.inl ⟨by simp only at h1 ⊢; omega, h2, h3⟩
      · exact Or.inr h
    | brk s' =>
      exact Or.inl ⟨Nat.le_refl _, by simp, hr⟩

/-- Invariant rule for `for` loops with `break`: `I` holds at each loop head, `B i s` when
the loop is left by `break` at counter `i`. -/
theorem Ok_forBrk {I : Nat → σ → Prop} {B : Nat → σ → Prop} {f : Nat → σ → C (Step σ)}
    {lo hi : Nat} {s : σ} (hle : lo ≤ hi) (h0 : I lo s)
    (hs : ∀ i s, lo ≤ i → i < hi → I i s →
      Ok (f i s) (fun r => match r with | .cont s' => I (i + 1) s' | .brk s' => B i s')) :
    Ok (forBrk lo hi s f) (fun r => (lo ≤ r.1 ∧ r.1 < hi ∧ B r.1 r.2) ∨ (r.1 = hi ∧ I hi r.2)) := by
  have := Ok_forBrkN (I := I) (B := B) (f := f) (hi - lo) lo s h0
    (fun i s h1 h2 h3 => hs i s h1 (by omega) h3)
  have e : lo + (hi - lo) = hi := by omega
  rw [e] at this
  unfold forBrk
  exact Ok.bind this (fun r hr => by simpa using hr)

/-- Rule for `while` loops: `I` is an invariant, the measure `μ` decreases, the fuel exceeds
the initial measure; at exit `Q` holds. -/
theorem Ok_whileFuel {I Q : σ → Prop} (μ : σ → Nat) {f : σ → C (Step σ)}
    (hs : ∀ s, I s →
      Ok (f s) (fun r => match r with | .cont s' => I s' ∧ μ s' < μ s | .brk s' => Q s')) :
    ∀ (k : Nat) (s : σ), I s → μ s < k → Ok (whileFuel k s f) Q := by
  intro k
  induction k with
  | zero => intro s _ h; omega
  | succ k ih =>
    intro s hI hk
    rw [whileFuel]
    refine Ok.bind (hs s hI) ?_
    intro r hr
    cases r with
    | cont s' => exact ih s' hr.1 (by have := hr.2; omega)
    | brk s' => exact hr

end

/-! ### Rules for arrays -/

section
variable {α : Type} [Inhabited α]

omit [Inhabited α] in
@[simp] theorem size_upd (a : Array α) (i : Nat) (v : α) : (a.upd i v).size = a.size := by
  simp [Array.upd]

theorem g_eq (a : Array α) (i : Nat) (h : i < a.size) : a.g i = a[i] := by
  simp [Array.g, h]

theorem g_ge (a : Array α) (i : Nat) (h : a.size ≤ i) : a.g i = default := by
  simp [Array.g, h]

theorem g_upd (a : Array α) (i k : Nat) (v : α) :
    (a.upd i v).g k = if k = i ∧ i < a.size then v else a.g k := by
  unfold Array.g Array.upd
  simp only [Array.getD_eq_getD_getElem?, Array.getElem?_setIfInBounds]
  by_cases h : i = k
  · subst h
    by_cases h2 : i < a.size
    · simp [h2]
    · simp [h2]
  · have : k ≠ i := fun e => h e.symm
    simp [h, this]

theorem g_upd_eq (a : Array α) (i : Nat) (v : α) (h : i < a.size) : (a.upd i v).g i = v := by
  simp [g_upd, h]

theorem g_upd_ne (a : Array α) (i k : Nat) (v : α) (h : k ≠ i) : (a.upd i v).g k = a.g k := by
  simp [g_upd, h]

@[simp] theorem Ok_rd (a : Array α) (i : Nat) (Q : α → Prop) :
    Ok (rd a i) Q ↔ i < a.size ∧ Q (a.g i) := by
  unfold rd
  by_cases h : i < a.size
  · simp [h, g_eq]
  · simp [h]

omit [Inhabited α] in
@[simp] theorem Ok_wr (a : Array α) (i : Nat) (v : α) (Q : Array α → Prop) :
    Ok (wr a i v) Q ↔ i < a.size ∧ Q (a.upd i v) := by
  unfold wr
  by_cases h : i < a.size
  · simp [h]
  · simp [h]

@[simp] theorem Ok_idx (i : Int) (Q : Nat → Prop) : Ok (idx i) Q ↔ 0 ≤ i ∧ Q i.toNat := by
  unfold idx
  by_cases h : 0 ≤ i
  · simp [h]
  · simp [h]

@[simp] theorem Ok_rdI (a : Array α) (i : Int) (Q : α → Prop) :
    Ok (rdI a i) Q ↔ 0 ≤ i ∧ i.toNat < a.size ∧ Q (a.g i.toNat) := by
  simp [rdI]

omit [Inhabited α] in
@[simp] theorem Ok_wrI (a : Array α) (i : Int) (v : α) (Q : Array α → Prop) :
    Ok (wrI a i v) Q ↔ 0 ≤ i ∧ i.toNat < a.size ∧ Q (a.upd i.toNat v) := by
  simp [wrI]

theorem array_ext_g {a b : Array α} (h : a.size = b.size) (hg : ∀ i < a.size, a.g i = b.g i) :
    a = b := by
  apply Array.ext h
  intro i h1 h2
  have := hg i h1
  rwa [g_eq _ _ h1, g_eq _ _ h2] at this

/-- A fresh array of size `k` with contents given by `f`. -/
def mkArr (k : Nat) (f : Nat → α) : Array α := Array.ofFn (n := k) (fun i => f i)

omit [Inhabited α] in
@[simp] theorem size_mkArr (k : Nat) (f : Nat → α) : (mkArr k f).size = k := by simp [mkArr]

theorem g_mkArr (k : Nat) (f : Nat → α) (i : Nat) (h : i < k) : (mkArr k f).g i = f i := by
  rw [g_eq _ _ (by simpa using h)]; simp [mkArr]

/-- `realloc`: keeps the common prefix, new cells hold arbitrary values `junk`. -/
def reallocArr (a : Array α) (k : Nat) (junk : Nat → α) : Array α :=
  mkArr k (fun i => if i < a.size then a.g i else junk i)

@[simp] theorem size_reallocArr (a : Array α) (k : Nat) (junk : Nat → α) :
    (reallocArr a k junk).size = k := by simp [reallocArr]

theorem g_reallocArr (a : Array α) (k : Nat) (junk : Nat → α) (i : Nat) (h : i < k)
    (h' : i < a.size) : (reallocArr a k junk).g i = a.g i := by
  simp [reallocArr, g_mkArr _ _ _ h, h']

end

end Spasm
