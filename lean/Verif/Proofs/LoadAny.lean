import Verif.Proofs.LoadHeader

/-! Loading any file. -/

namespace Spasm

open Sha

/-! ### Numbers -/

theorem Nums.suffix {p s : List Char} (h : Nums (p ++ s)) : Nums s := by
  intro a d t he
  exact h (p ++ a) d t (by rw [he]; simp)

theorem Nums.prefix {p s : List Char} (h : Nums (p ++ s)) : Nums p := by
  intro a d t he
  exact h a d (t ++ s) (by rw [he]; simp)

theorem skipWs_suffix (s : List Char) : ∃ p, s = p ++ skipWs s :=
  ⟨s.takeWhile isspace, List.takeWhile_append_dropWhile.symm⟩

theorem scanSign_suffix (s : List Char) : ∃ p, s = p ++ (scanSign s).2 ∧ ((scanSign s).1 = true → '-' ∈ p) := by
  unfold scanSign
  split
  · exact ⟨['-'], rfl, by simp⟩
  · exact ⟨['+'], rfl, by simp⟩
  · exact ⟨[], rfl, by simp⟩

/-- What `%d` reads. -/
theorem scanInt_spec (s : List Char) : ∃ p, s = p ++ (scanInt s).2 ∧
    ∀ x, (scanInt s).1 = some x → (Nums s → -2 ^ 31 < x ∧ x < 2 ^ 31) ∧ ('-' ∉ s → 0 ≤ x) := by
  obtain ⟨p, hp⟩ := skipWs_suffix s
  obtain ⟨p', hp', hs⟩ := scanSign_suffix (skipWs s)
  unfold scanInt
  have hd : (scanSign (skipWs s)).2 = (scanSign (skipWs s)).2.takeWhile Char.isDigit ++
    (scanSign (skipWs s)).2.dropWhile Char.isDigit := List.takeWhile_append_dropWhile.symm
  simp only
  by_cases h0 : ((scanSign (skipWs s)).2.takeWhile Char.isDigit).isEmpty = true
  · rw [if_pos h0]
    refine ⟨p ++ p', ?_, by simp⟩
    simp only
    rw [List.append_assoc, ← hp', ← hp]
  · rw [if_neg h0]
    refine ⟨p ++ p' ++ (scanSign (skipWs s)).2.takeWhile Char.isDigit, ?_, ?_⟩
    · simp only
      rw [List.append_assoc (p ++ p'), ← hd, List.append_assoc, ← hp', ← hp]
    · intro x hx
      simp only [Option.some.injEq] at hx
      constructor
      · intro hn
        have := hn (p ++ p') ((scanSign (skipWs s)).2.takeWhile Char.isDigit)
          ((scanSign (skipWs s)).2.dropWhile Char.isDigit)
          (by rw [List.append_assoc (p ++ p'), ← hd, List.append_assoc, ← hp', ← hp])
          (by simpa using h0) (fun c hc => List.all_eq_true.mp List.all_takeWhile c hc)
        split at hx <;> omega
      · intro hn
        split at hx
        · rename_i h1
          exfalso
          apply hn
          rw [hp, hp']
          simp [hs h1]
        · omega

/-- Errors of a file with numbers that fit. -/
def Ubs (E : Err → Prop) (s : List Char) : Prop := Nums s ∨ E .ub

theorem Ubs.suffix {E : Err → Prop} {p s : List Char} (h : Ubs E (p ++ s)) : Ubs E s := h.imp (·.suffix) id
theorem Ubs.prefix {E : Err → Prop} {p s : List Char} (h : Ubs E (p ++ s)) : Ubs E p := h.imp (·.prefix) id

theorem scanD_any {E : Err → Prop} {bits : Nat} (hb : 31 ≤ bits) {s : List Char} (h : Ubs E s) :
    WpE E (scanD bits s) (fun r => (∃ p, s = p ++ r.2) ∧ ∀ x, r.1 = some x → (-2 ^ bits ≤ x ∧ x < 2 ^ bits) ∧
      (Nums s → -2 ^ 31 < x ∧ x < 2 ^ 31) ∧ ('-' ∉ s → 0 ≤ x)) := by
  obtain ⟨p, h1, h2⟩ := scanInt_spec s
  unfold scanD
  generalize scanInt s = r at h1 h2
  obtain ⟨o, t⟩ := r
  simp only at h1 h2
  cases o with
  | none => exact ⟨⟨p, h1⟩, by simp⟩
  | some x =>
    simp only
    obtain ⟨h3, h4⟩ := h2 x rfl
    have hp : (2 : Int) ^ 31 ≤ 2 ^ bits := pow_le_pow_right₀ (by decide) hb
    split
    · rename_i hr
      refine ⟨⟨p, h1⟩, ?_⟩
      intro y hy
      simp only [Option.some.injEq] at hy
      subst hy
      exact ⟨hr, h3, h4⟩
    · rename_i hr
      rcases h with h | h
      · have := h3 h
        exfalso; apply hr
        constructor <;> omega
      · exact h

theorem minus_suffix {p s : List Char} (h : '-' ∉ p ++ s) : '-' ∉ s := fun hm => h (by simp [hm])

/-- What the three numbers of a line are. -/
def Three (s : List Char) (a b : Int) : Prop :=
  (-2 ^ 31 ≤ a ∧ a < 2 ^ 31) ∧ (-2 ^ 31 ≤ b ∧ b < 2 ^ 31) ∧ (Nums s → -2 ^ 31 < a ∧ -2 ^ 31 < b) ∧
    ('-' ∉ s → 0 ≤ a ∧ 0 ≤ b)

theorem scan3_any {E : Err → Prop} {s : List Char} (h : Ubs E s) :
    WpE E (scan3 s) (fun r => ∀ a b c, r = some (a, b, c) → Three s a b) := by
  unfold scan3
  rw [WpE_bind]
  refine (scanD_any (by decide) h).mono ?_
  rintro ⟨o, t⟩ ⟨⟨p, hp⟩, h1⟩
  simp only at hp h1 ⊢
  cases o with
  | none => intro a b c he; cases he
  | some a =>
    obtain ⟨a1, a2, a3⟩ := h1 a rfl
    obtain ⟨p2, hp2⟩ := skipWs_suffix t
    have hs2 : s = (p ++ p2) ++ skipWs t := by rw [List.append_assoc, ← hp2, ← hp]
    simp only
    rw [WpE_bind]
    refine (scanD_any (by decide) (Ubs.suffix (p := p ++ p2) (by rwa [← hs2]))).mono ?_
    rintro ⟨o, t'⟩ ⟨⟨p3, hp3⟩, h1⟩
    simp only at hp3 h1 ⊢
    cases o with
    | none => intro a b c he; cases he
    | some b =>
      obtain ⟨b1, b2, b3⟩ := h1 b rfl
      obtain ⟨p4, hp4⟩ := skipWs_suffix t'
      have hs3 : s = (p ++ p2 ++ (p3 ++ p4)) ++ skipWs t' := by
        rw [List.append_assoc _ _ (skipWs t'), List.append_assoc p3, ← hp4, ← hp3, ← hs2]
      simp only
      rw [WpE_bind]
      refine (scanD_any (by decide) (Ubs.suffix (p := p ++ p2 ++ (p3 ++ p4)) (by rwa [← hs3]))).mono ?_
      rintro ⟨o, t''⟩ ⟨-, -⟩
      simp only
      cases o with
      | none => intro a b c he; cases he
      | some c =>
        intro a' b' c' he
        simp only [Option.some.injEq, Prod.mk.injEq] at he
        obtain ⟨rfl, rfl, rfl⟩ := he
        refine ⟨a1, b1, ?_, ?_⟩
        · intro hn
          have h2 : Nums (skipWs t) := Nums.suffix (p := p ++ p2) (by rwa [← hs2])
          exact ⟨(a2 hn).1, (b2 h2).1⟩
        · intro hn
          exact ⟨a3 hn, b3 (minus_suffix (p := p ++ p2) (by rwa [← hs2]))⟩

theorem scan2c_any {E : Err → Prop} {s : List Char} (h : Ubs E s) :
    WpE E (scan2c s) (fun r => ∀ a b c, r = some (a, b, c) → Three s a b) := by
  unfold scan2c
  rw [WpE_bind]
  refine (scanD_any (by decide) h).mono ?_
  rintro ⟨o, t⟩ ⟨⟨p, hp⟩, h1⟩
  simp only at hp h1 ⊢
  cases o with
  | none => intro a b c he; cases he
  | some a =>
    obtain ⟨a1, a2, a3⟩ := h1 a rfl
    obtain ⟨p2, hp2⟩ := skipWs_suffix t
    have hs2 : s = (p ++ p2) ++ skipWs t := by rw [List.append_assoc, ← hp2, ← hp]
    simp only
    rw [WpE_bind]
    refine (scanD_any (by decide) (Ubs.suffix (p := p ++ p2) (by rwa [← hs2]))).mono ?_
    rintro ⟨o, t'⟩ ⟨⟨p3, hp3⟩, h1⟩
    simp only at hp3 h1 ⊢
    cases o with
    | none => intro a b c he; cases he
    | some b =>
      obtain ⟨b1, b2, b3⟩ := h1 b rfl
      simp only
      have key : ∀ c : Char, ∀ a' b' c', some (a, b, c) = some (a', b', c') → Three s a' b' := by
        intro c a' b' c' he
        simp only [Option.some.injEq, Prod.mk.injEq] at he
        obtain ⟨rfl, rfl, rfl⟩ := he
        refine ⟨a1, b1, ?_, ?_⟩
        · intro hn
          have h2 : Nums (skipWs t) := Nums.suffix (p := p ++ p2) (by rwa [← hs2])
          exact ⟨(a2 hn).1, (b2 h2).1⟩
        · intro hn
          exact ⟨a3 hn, b3 (minus_suffix (p := p ++ p2) (by rwa [← hs2]))⟩
      cases skipWs t' with
      | nil => intro a b c he; cases he
      | cons c _ => exact key c

/-! ### Words -/

theorem scanS_any {E : Err → Prop} {size : Nat} {s : List Char} (h : s.length < size) :
    WpE E (scanS size s) (fun r => r.2.length < size) := by
  have hl : (skipWs s).length ≤ s.length := (List.dropWhile_suffix _).length_le
  unfold scanS
  simp only
  split
  · rw [WpE_ok]; simp only; omega
  · have h1 := ((skipWs s).takeWhile_prefix (fun c => !isspace c)).length_le
    have h2 := ((skipWs s).dropWhile_suffix (fun c => !isspace c)).length_le
    rw [if_pos (by omega), WpE_ok]
    simp only; omega

theorem skipWs_length (s : List Char) : (skipWs s).length ≤ s.length :=
  (List.dropWhile_suffix _).length_le

theorem validate_any {E : Err → Prop} (hE : E .exitErr) {b : List Char} (h : b.length < 1024) :
    WpE E (validate_mm_header b) (fun _ => True) := by
  unfold validate_mm_header
  rw [WpE_bind]
  have h0 := skipWs_length (b.drop 14)
  refine (scanS_any (size := 1024) (by have : (b.drop 14).length ≤ b.length := (by simp); omega)).mono ?_
  rintro ⟨o, s⟩ hs
  simp only at hs ⊢
  cases o with
  | none => exact hE
  | some a =>
    simp only
    rw [WpE_bind]
    have h1 := skipWs_length s
    refine (scanS_any (size := 1024) (by omega)).mono ?_
    rintro ⟨o, s'⟩ hs'
    simp only at hs' ⊢
    cases o with
    | none => exact hE
    | some a2 =>
      simp only
      rw [WpE_bind]
      have h1 := skipWs_length s'
      refine (scanS_any (size := 1024) (by omega)).mono ?_
      rintro ⟨o, s''⟩ hs''
      simp only at hs'' ⊢
      cases o with
      | none => exact hE
      | some a3 =>
        simp only
        rw [WpE_bind]
        have h1 := skipWs_length s''
        refine (scanS_any (size := 1024) (by omega)).mono ?_
        rintro ⟨o, s3⟩ hs3
        simp only at hs3 ⊢
        cases o with
        | none => exact hE
        | some a4 =>
          simp only
          split
          · exact hE
          · split
            · exact hE
            · split
              · exact hE
              · split
                · exact hE
                · exact trivial

/-! ### Loops and lines -/

theorem WpE.and {α : Type} {E E' : Err → Prop} {x : C α} {P Q : α → Prop} (h : WpE E x P) (h' : WpE E' x Q) :
    WpE E x (fun a => P a ∧ Q a) := by
  cases x with
  | ok a => exact ⟨h, h'⟩
  | error _ => exact h

theorem WpE.weaken {α : Type} {E E' : Err → Prop} {x : C α} {P : α → Prop} (h : WpE E x P) (he : ∀ e, E e → E' e) :
    WpE E' x P := by
  cases x with
  | ok a => exact h
  | error e => exact he e h

theorem WpE_whileFuel_lt {σ : Type} {E : Err → Prop} {I Q : σ → Prop} (μ : σ → Nat) {f : σ → C (Step σ)}
    (hs : ∀ s, I s → WpE E (f s) (fun r => match r with | .cont s' => I s' ∧ μ s' < μ s | .brk s' => Q s')) :
    ∀ k s, I s → μ s < k → WpE E (whileFuel k s f) Q := by
  intro k
  induction k with
  | zero => intro s _ h; omega
  | succ k ih =>
    intro s h hk
    rw [whileFuel, WpE_bind]
    refine (hs s h).mono ?_
    rintro (s' | s') h'
    · exact ih s' h'.1 (by have := h'.2; omega)
    · exact h'

theorem takeLine_nl : ∀ (k : Nat) (s : List Char), (∃ c, '\n' ∉ c ∧ (takeLine k s).1 = c ++ ['\n']) ∨
    ('\n' ∉ (takeLine k s).1 ∧ ((takeLine k s).1.length = k ∨ (takeLine k s).2 = [])) := by
  intro k
  induction k with
  | zero => intro s; exact .inr ⟨by simp [takeLine], .inl rfl⟩
  | succ k ih =>
    intro s
    cases s with
    | nil => exact .inr ⟨by simp [takeLine], .inr rfl⟩
    | cons c s =>
      unfold takeLine
      by_cases hc : c = '\n'
      · rw [if_pos hc]
        exact .inl ⟨[], by simp, by simp [hc]⟩
      · rw [if_neg hc]
        rcases ih s with ⟨d, h1, h2⟩ | ⟨h1, h2⟩
        · refine .inl ⟨c :: d, ?_, by simp [h2]⟩
          simp only [List.mem_cons, not_or]
          exact ⟨fun h => hc h.symm, h1⟩
        · refine .inr ⟨?_, ?_⟩
          · simp only [List.mem_cons, not_or]
            exact ⟨fun h => hc h.symm, h1⟩
          · simp only [List.length_cons]
            exact h2.imp (fun h => by omega) id

theorem cstr_prefix (l : List Char) : ∃ t, l = cstr l ++ t :=
  ⟨l.dropWhile fun c => decide (c.toNat ≠ 0), List.takeWhile_append_dropWhile.symm⟩

/-- The shape of the lines. -/
theorem read_line_shape (jw : Nat → W) (f : List Char) (ctx : Option Ctx) :
    WpE (fun _ => True) (read_line jw f ctx) (fun r => ∀ b, r.1 = some b → ∃ c t, '\n' ∉ c ∧ f = c ++ t ∧
      (b = c ∨ b = c ++ ['\n']) ∧ (r.2.1 = [] ∨ (b = c ++ ['\n'] ∧ f = b ++ r.2.1))) := by
  unfold read_line
  by_cases hf : f.isEmpty = true
  · rw [if_pos hf]
    intro b hb; cases hb
  · rw [if_neg hf]
    obtain ⟨h1, h2⟩ := takeLine_spec 1023 f
    have h3 := takeLine_nl 1023 f
    obtain ⟨t, ht⟩ := cstr_prefix (takeLine 1023 f).1
    simp only
    split
    · trivial
    · split
      · trivial
      · rename_i h4
        have key : ∃ c t, '\n' ∉ c ∧ f = c ++ t ∧
            (cstr (takeLine 1023 f).1 = c ∨ cstr (takeLine 1023 f).1 = c ++ ['\n']) ∧
            ((takeLine 1023 f).2 = [] ∨ (cstr (takeLine 1023 f).1 = c ++ ['\n'] ∧
              f = cstr (takeLine 1023 f).1 ++ (takeLine 1023 f).2)) := by
          generalize (takeLine 1023 f).1 = l at *
          generalize (takeLine 1023 f).2 = f' at *
          rcases h3 with ⟨c, h5, h6⟩ | ⟨h5, h6⟩
          · have hb : cstr l = c ++ ['\n'] := by
              by_contra hne
              have hlast : (cstr l).getLast? ≠ some '\n' := by
                intro hl
                have hm : '\n' ∈ cstr l := List.mem_of_getLast? hl
                rw [ht] at h6
                have h7 : t = [] := by
                  by_contra ht0
                  obtain ⟨t', x, rfl⟩ : ∃ t' x, t = t' ++ [x] :=
                    ⟨_, _, (List.dropLast_append_getLast ht0).symm⟩
                  rw [← List.append_assoc] at h6
                  have h8 := List.append_inj_left' h6 rfl
                  exact h5 (by rw [← h8]; simp [hm])
                rw [h7, List.append_nil] at h6
                exact hne h6
              apply h4
              refine ⟨hlast, ?_⟩
              unfold atEof
              rw [h6]
              simp
            have hl : l = cstr l := by rw [hb, h6]
            refine ⟨c, ['\n'] ++ f', h5, ?_, .inr hb, .inr ⟨hb, ?_⟩⟩
            · rw [← h1, h6]; simp
            · rw [← hl, h1]
          · refine ⟨cstr l, t ++ f', ?_, ?_, .inl rfl, .inl ?_⟩
            · intro hm; exact h5 (by rw [ht]; simp [hm])
            · rw [← List.append_assoc, ← ht, h1]
            · rcases h6 with h6 | h6
              · exfalso
                apply h4
                refine ⟨?_, ?_⟩
                · intro hl
                  exact h5 (by rw [ht]; simp [List.mem_of_getLast? hl])
                · unfold atEof; rw [h6]; simp
              · exact h6
        cases ctx with
        | none =>
          intro b hb
          simp only [Option.some.injEq] at hb
          subst hb
          exact key
        | some c =>
          simp only
          rw [WpE_bind]
          have : WpE (fun _ => True) (SHA256_update jw c ((cstr (takeLine 1023 f).1).map byte).toArray
            (cstr (takeLine 1023 f).1).length) (fun _ => True) := by
            cases SHA256_update jw c ((cstr (takeLine 1023 f).1).map byte).toArray
              (cstr (takeLine 1023 f).1).length <;> trivial
          refine this.mono ?_
          intro c' _ b hb
          simp only [Option.some.injEq] at hb
          subst hb
          exact key

/-- What was read from the file `f0`, of which `rest` remains, and its hash. -/
def Track (f0 rest : List Char) (ctx : Option Ctx) : Prop :=
  ∃ p done, f0 = p ++ rest ∧ CtxOk done ctx ∧ (NoNul f0 → done = p)

theorem read_line_any {E : Err → Prop} (hE : E .exitErr) (jw : Nat → W) {f0 f : List Char} {ctx : Option Ctx}
    (h : Track f0 f ctx) :
    WpE E (read_line jw f ctx) (fun r => r.2.2.isSome = ctx.isSome ∧ Track f0 r.2.1 r.2.2 ∧
      ((r.1 = none ∧ r.2.1 = []) ∨ ∃ b, r.1 = some b ∧ b ≠ [] ∧ b.length < 1024 ∧
        r.2.1.length < f.length ∧ (∃ t, f = b ++ t) ∧ ∃ c t, '\n' ∉ c ∧ f = c ++ t ∧
      (b = c ∨ b = c ++ ['\n']) ∧ (r.2.1 = [] ∨ (b = c ++ ['\n'] ∧ f = b ++ r.2.1)))) := by
  obtain ⟨p, done, h1, h2, h3⟩ := h
  refine (((read_line_spec jw f done h2).weaken (fun e he => by rw [he]; exact hE)).and
    (read_line_shape jw f ctx)).mono ?_
  rintro ⟨o, f', ctx'⟩ ⟨h4, h5⟩
  simp only at h4 h5 ⊢
  rcases h4 with ⟨rfl, h4⟩ | ⟨l, b, a1, a2, a3, a4, a5, a6, a7⟩
  · simp only [Prod.mk.injEq] at h4
    obtain ⟨rfl, rfl, rfl⟩ := h4
    exact ⟨rfl, ⟨p, done, h1, h2, h3⟩, .inl ⟨rfl, rfl⟩⟩
  · obtain ⟨t, ht⟩ := cstr_prefix l
    rw [← a3] at ht
    refine ⟨a6, ⟨p ++ l, done ++ b, by rw [h1, a2]; simp, a7, ?_⟩, .inr ⟨b, a1, a4, by omega, ?_, ⟨t ++ f', ?_⟩, h5 b a1⟩⟩
    · intro hn
      rw [h3 hn, a3, cstr_eq]
      intro c hc
      exact hn c (by rw [h1, a2]; simp [hc])
    · rw [a2, ht]
      have := List.length_pos_iff.mpr a4
      simp only [List.length_append]; omega
    · rw [a2, ht]; simp

/-! ### The header -/

theorem Ubs.of_eq {E : Err → Prop} {f p t : List Char} (h : Ubs E f) (he : f = p ++ t) : Ubs E p := by
  rw [he] at h; exact h.prefix

theorem Track.ubs {E : Err → Prop} {f0 f : List Char} {ctx : Option Ctx} (h : Track f0 f ctx) (hu : Ubs E f0) :
    Ubs E f := by
  obtain ⟨p, done, h1, -, -⟩ := h
  rw [h1] at hu; exact hu.suffix

theorem scan2c_percent {b : List Char} (h : b.head? = some '%') : scan2c b = .ok none := by
  cases b with
  | nil => cases h
  | cons c t =>
    simp only [List.head?_cons, Option.some.injEq] at h
    subst h
    unfold scan2c scanD scanInt skipWs
    rw [List.dropWhile_cons_of_neg (by decide)]
    rfl

/-- The comments are skipped; `cs` are the lines before. -/
theorem skip_comments_any {E : Err → Prop} (hE : E .exitErr) (jw : Nat → W) {f0 f : List Char} {ctx : Option Ctx}
    (h : Track f0 f ctx) {cs : List (List Char)} (hcs : ∀ x ∈ cs, x.head? = some '%' ∧ '\n' ∉ x)
    (hf : f = [] ∨ f0 = unlines cs ++ f) :
    WpE E (skip_comments jw f ctx) (fun r => r.2.2.isSome = ctx.isSome ∧ Track f0 r.2.1 r.2.2 ∧
      (∃ p t, f0 = p ++ r.1 ++ t) ∧ (NoMinus f0 → '-' ∉ r.1)) := by
  unfold skip_comments
  refine WpE_whileFuel_lt (fun s => s.2.1.length)
    (I := fun s => s.2.2.isSome = ctx.isSome ∧ Track f0 s.2.1 s.2.2 ∧
      (s.2.1 = [] ∨ ∃ cs, (∀ x ∈ cs, x.head? = some '%' ∧ '\n' ∉ x) ∧ f0 = unlines cs ++ s.2.1)) ?_ _ _
    ⟨rfl, h, hf.imp id (fun h => ⟨cs, hcs, h⟩)⟩ (by simp)
  rintro ⟨x, f1, ctx1⟩ ⟨h1, h2, h3⟩
  simp only at h1 h2 h3 ⊢
  rw [WpE_bind]
  refine (read_line_any hE jw h2).mono ?_
  rintro ⟨o, f2, ctx2⟩ ⟨h4, h5, h6⟩
  simp only at h4 h5 h6 ⊢
  rcases h6 with ⟨rfl, -⟩ | ⟨b, rfl, a1, a2, a3, ⟨t0, a4⟩, c, t, b1, b2, b3, b4⟩
  · exact hE
  · simp only
    have h3' : ∃ cs, (∀ x ∈ cs, x.head? = some '%' ∧ '\n' ∉ x) ∧ f0 = unlines cs ++ f1 := by
      rcases h3 with h3 | h3
      · rw [h3] at a3; simp at a3
      · exact h3
    obtain ⟨cs, d1, d2⟩ := h3'
    have hhead : b.head? = some '%' → c.head? = some '%' := by
      intro hb
      rcases b3 with rfl | rfl
      · exact hb
      · cases c with
        | nil => simp at hb
        | cons x y => simpa using hb
    have hhead' : c.head? = some '%' → b.head? = some '%' := by
      intro hb
      rcases b3 with rfl | rfl
      · exact hb
      · cases c with
        | nil => simp at hb
        | cons x y => simpa using hb
    by_cases hb : b.head? = some '%'
    · rw [if_neg (not_not.mpr hb), WpE_ok]
      refine ⟨⟨h4.trans h1, h5, ?_⟩, a3⟩
      rcases b4 with b4 | ⟨b4, b5⟩
      · exact .inl b4
      · refine .inr ⟨cs ++ [c], ?_, ?_⟩
        · intro x hx
          rcases List.mem_append.mp hx with hx | hx
          · exact d1 x hx
          · rw [List.mem_singleton.mp hx]; exact ⟨hhead hb, b1⟩
        · rw [d2, unlines_append, b5, b4]; simp [unlines]
    · rw [if_pos hb, WpE_ok]
      refine ⟨h4.trans h1, h5, ⟨unlines cs, t0, by rw [d2, a4]; simp⟩, ?_⟩
      intro hn
      have := hn cs c t (by rw [d2, b2]; simp) d1 b1 (fun h => hb (hhead' h))
      rcases b3 with b3 | b3
      · rw [b3]; exact this
      · rw [b3]; simp [this]

theorem load_header_any {E : Err → Prop} (hE : E .exitErr) (jw : Nat → W) {f : List Char} (hu : Ubs E f)
    (prime : Int) {ctx : Option Ctx} (hc : CtxOk [] ctx) :
    WpE E (load_header jw f prime ctx) (fun r => r.2.2.isSome = ctx.isSome ∧ Track f r.2.1 r.2.2 ∧
      (NoMinus f → 0 ≤ r.1.n ∧ 0 ≤ r.1.m)) := by
  unfold load_header
  rw [WpE_bind]
  have h0 : Track f f ctx := ⟨[], [], rfl, hc, fun _ => rfl⟩
  refine (read_line_any hE jw h0).mono ?_
  rintro ⟨o, f2, ctx2⟩ ⟨h4, h5, h6⟩
  simp only at h4 h5 h6 ⊢
  rcases h6 with ⟨rfl, -⟩ | ⟨b, rfl, a1, a2, a3, ⟨t0, a4⟩, c, t, b1, b2, b3, b4⟩
  · exact hE
  · simp only
    split
    · rename_i hmm
      have hhead : c.head? = some '%' := by
        have : b.head? = some '%' := by
          have h : (b.take 14).head? = some '%' := by rw [hmm]; decide
          rwa [List.head?_take, if_neg (by decide)] at h
        rcases b3 with rfl | rfl
        · exact this
        · cases c with
          | nil => simp at this
          | cons x y => simpa using this
      rw [WpE_bind]
      refine (validate_any hE a2).mono ?_
      intro _ _
      rw [WpE_bind]
      refine (skip_comments_any hE jw h5 (cs := [c]) ?_ ?_).mono ?_
      · intro x hx
        rw [List.mem_singleton.mp hx]; exact ⟨hhead, b1⟩
      · rcases b4 with b4 | ⟨b4, b5⟩
        · exact .inl b4
        · right; conv_lhs => rw [b5, b4]
          simp [unlines]
      · rintro ⟨d, f3, ctx3⟩ ⟨g1, g2, ⟨p, t, g3⟩, g4⟩
        simp only at g1 g2 g3 g4 ⊢
        rw [WpE_bind]
        refine (scan3_any (Ubs.suffix (p := p) (hu.of_eq g3))).mono ?_
        intro o ho
        cases o with
        | none => exact hE
        | some e =>
          obtain ⟨i, j, z⟩ := e
          obtain ⟨-, -, -, e4⟩ := ho i j z rfl
          exact ⟨g1.trans h4, g2, fun hn => e4 (g4 hn)⟩
    · by_cases hp : b.head? = some '%'
      · rw [scan2c_percent hp, WpE_bind, WpE_ok]
        exact hE
      · rw [WpE_bind]
        refine (scan2c_any (hu.of_eq a4)).mono ?_
        intro o ho
        cases o with
        | none => exact hE
        | some e =>
          obtain ⟨i, j, z⟩ := e
          obtain ⟨-, -, -, e4⟩ := ho i j z rfl
          simp only
          split
          · exact hE
          · refine ⟨h4, h5, fun hn => e4 ?_⟩
            have := hn [] c t (by rw [b2]; rfl) (by simp) b1 (by
              intro h
              rcases b3 with rfl | rfl
              · exact hp h
              · apply hp
                cases c with
                | nil => simp at h
                | cons x y => simpa using h)
            rcases b3 with b3 | b3
            · rw [b3]; exact this
            · rw [b3]; simp [this]

/-! ### Entries -/

theorem add_entry_any {E : Err → Prop} (hA : E .assertFail) (jk : Junk) {vals : Bool} {q : ℕ} {F : Field} {n m : Int}
    {l : List (Int × Int × Int)} {T : Triplet} (h : LInv vals q F n m l T) (hF : vals = true → F.Good q)
    (i j x : Int) : WpE E (add_entry jk T i j x) (fun S => ∃ l', LInv vals q F n m l' S) := by
  by_cases hij : 0 ≤ i ∧ 0 ≤ j
  · have := h.add jk hF (e := (i + 1, j + 1, x)) (i := i.toNat) (j := j.toNat) (by simp only; omega)
      (by simp only; omega)
    rw [show ((i.toNat : Nat) : Int) = i by omega, show ((j.toNat : Nat) : Int) = j by omega] at this
    exact this.wpe.mono fun S hS => ⟨_, hS⟩
  · unfold add_entry
    rw [show (decide (i ≥ 0) && decide (j ≥ 0)) = false by simp; omega]
    exact hA

/-- What holds after each line. -/
structure LAny (vals : Bool) (q : ℕ) (F : Field) (n m : Int) (f0 : List Char) (c0 : Bool) (s : LoadSt) : Prop where
  inv : ∃ l, LInv vals q F n m l s.T
  track : Track f0 s.f s.ctx
  ctx : s.ctx.isSome = c0

theorem i32_any {E : Err → Prop} {x : Int} (h : (-2 ^ 31 ≤ x ∧ x < 2 ^ 31) ∨ E .ub) :
    WpE E (i32 x) (fun y => y = x) := by
  by_cases hr : -2 ^ 31 ≤ x ∧ x < 2 ^ 31
  · exact Ok.wpe ((Ok_i32 x _).mpr ⟨by simpa using hr, rfl⟩)
  · rcases h with h | h
    · exact absurd h hr
    · unfold i32
      rw [if_neg (by simpa using hr)]
      exact h

theorem load_line_any {E : Err → Prop} (hE : E .exitErr) (hA : E .assertFail) (jk : Junk) {vals : Bool} {q : ℕ}
    {F : Field} {n m : Int} {f0 : List Char} {c0 : Bool} (hF : vals = true → F.Good q) (hd : Header)
    {b f : List Char} {ctx : Option Ctx} (hu : Ubs E b) {s : LoadSt} (h : LAny vals q F n m f0 c0 s)
    (ht : Track f0 f ctx) (hc : ctx.isSome = c0) :
    WpE E (load_line jk hd b f ctx s) (fun s' => LAny vals q F n m f0 c0 s' ∧ s'.f = f) := by
  unfold load_line
  rw [WpE_bind]
  refine (scan3_any hu).mono ?_
  intro o ho
  cases o with
  | none => exact hE
  | some e =>
    obtain ⟨i, j, x⟩ := e
    obtain ⟨e1, e2, e3, -⟩ := ho i j x rfl
    simp only
    split
    · split
      · exact hE
      · exact ⟨⟨h.inv, ht, hc⟩, rfl⟩
    · rw [WpE_bind]
      refine (i32_any (hu.imp (fun hn => ?_) id)).mono ?_
      · have := (e3 hn).1
        constructor <;> omega
      rintro _ rfl
      rw [WpE_bind]
      refine (i32_any (hu.imp (fun hn => ?_) id)).mono ?_
      · have := (e3 hn).2
        constructor <;> omega
      rintro _ rfl
      rw [WpE_bind]
      obtain ⟨l, hl⟩ := h.inv
      refine (add_entry_any hA jk hl hF _ _ x).mono ?_
      intro T hT
      exact ⟨⟨hT, ht, hc⟩, rfl⟩

theorem load_loop_any {E : Err → Prop} (hE : E .exitErr) (hA : E .assertFail) (jk : Junk) (jw : Nat → W)
    {vals : Bool} {q : ℕ} {F : Field} {n m : Int} {f0 : List Char} {c0 : Bool} (hF : vals = true → F.Good q)
    (hd : Header) (hu : Ubs E f0) {s : LoadSt} (h : LAny vals q F n m f0 c0 s) {k : Nat} (hk : s.f.length < k) :
    WpE E (whileFuel k s fun s => load_step jk jw hd s) (fun s' => LAny vals q F n m f0 c0 s' ∧ s'.f = []) := by
  refine WpE_whileFuel_lt (fun s => s.f.length) (I := LAny vals q F n m f0 c0) ?_ _ _ h hk
  intro s h
  unfold load_step
  rw [WpE_bind]
  refine (read_line_any hE jw h.track).mono ?_
  rintro ⟨o, f2, ctx2⟩ ⟨h4, h5, h6⟩
  simp only at h4 h5 h6 ⊢
  rcases h6 with ⟨rfl, rfl⟩ | ⟨b, rfl, a1, a2, a3, ⟨t0, a4⟩, -⟩
  · simp only
    split
    · exact ⟨⟨h.inv, h5, h4.trans h.ctx⟩, rfl⟩
    · exact hE
  · simp only
    split
    · exact ⟨⟨h.inv, h5, h4.trans h.ctx⟩, a3⟩
    · rw [WpE_bind]
      refine (load_line_any hE hA jk hF hd ((h.track.ubs hu).of_eq a4) h h5 (h4.trans h.ctx)).mono ?_
      rintro s' ⟨g1, g2⟩
      exact ⟨g1, by rw [g2]; exact a3⟩

/-! ### The end -/

theorem load_end_hash (jk : Junk) (jw : Nat → W) (hd : Header) {s : LoadSt} {done : List Char}
    (hc : CtxOk done s.ctx) {hash : Option (Array B)} (hh : ∀ md, hash = some md → md.size = 32)
    (hs : s.ctx.isSome = hash.isSome) :
    WpE (fun _ => True) (load_end jk jw hd s hash) (fun r =>
      r.2.map Array.toList = hash.map fun _ => Fips.sha256 (done.map byte)) := by
  unfold load_end
  rw [WpE_bind]
  have : WpE (fun _ => True) (load_trim jk hd.mm s.T) (fun _ => True) := by
    cases load_trim jk hd.mm s.T <;> trivial
  refine this.mono ?_
  intro T _
  cases hsc : s.ctx with
  | none =>
    rw [hsc] at hs
    cases hash with
    | none => rfl
    | some _ => cases hs
  | some c =>
    rw [hsc] at hs
    cases hash with
    | none => cases hs
    | some md =>
      simp only
      rw [WpE_bind]
      refine (Ok.wpe (final_spec jw md (done.map byte) c (hh md rfl) ?_)).mono ?_
      · have := hc c hsc (fun i => (Fips.pad (done.map byte)).getD i 0) ?_
        · simpa using this
        · intro i hi
          rw [pad_lt _ _ (by simpa using hi)]
          simp [hi]
      · intro r hr
        rw [WpE_ok]
        simpa using hr

theorem load_alloc_any {E : Err → Prop} (hE : E .exitErr) (jk : Junk) {vals : Bool} {q : ℕ} {prime : Int}
    (hp : LoadField vals q prime) {h : Header} (hn : (0 ≤ h.n ∧ 0 ≤ h.m) ∨ E .ub) :
    WpE E (load_alloc jk h prime) (fun T => (0 ≤ h.n ∧ 0 ≤ h.m) ∧ LInv vals q T.F h.n h.m [] T ∧
      (vals = true → T.F.Good q) ∧ T.F.p = prime) := by
  by_cases hz : h.nnz < 0
  · unfold load_alloc
    rw [if_pos hz]; exact hE
  · by_cases hnm : 0 ≤ h.n ∧ 0 ≤ h.m
    · exact (Ok.wpe (load_alloc_spec jk hp hnm.1 hnm.2 (by omega))).mono fun T hT => ⟨hnm, hT⟩
    · unfold load_alloc
      rw [if_neg hz, if_pos (by omega)]
      exact hn.resolve_left hnm

/-- Loading any file: the errors are among those allowed, what is returned is a matrix, and the hash is that of
the file. -/
theorem triplet_load_any {E : Err → Prop} (hE : E .exitErr) (hA : E .assertFail) (jk : Junk) (jw : Nat → W)
    {vals : Bool} {q : ℕ} {prime : Int} (hp : LoadField vals q prime) {f : List Char}
    (hu : Nums f ∧ NoMinus f ∨ E .ub) {hash : Option (Array B)} (hh : ∀ md, hash = some md → md.size = 32) :
    WpE E (triplet_load jk jw f prime hash) (fun r =>
      ((∃ n m l, 0 ≤ n ∧ 0 ≤ m ∧ Loaded vals q n m l r.1) ∧ r.1.F.p = prime ∧
      (vals = true → r.1.F.Good q) ∧ (0 < r.1.nz → r.1.x.isSome = vals)) ∧
      (NoNul f → r.2.map Array.toList = hash.map fun _ => Fips.sha256 (f.map byte))) := by
  unfold triplet_load
  have hu' : Ubs E f := hu.imp (·.1) id
  have hc : CtxOk [] (hash.map fun _ => SHA256_init) := by
    intro c hc
    obtain ⟨_, _, rfl⟩ := Option.map_eq_some_iff.mp hc
    exact Hashed.init
  rw [WpE_bind]
  refine (load_header_any hE jw hu' prime hc).mono ?_
  rintro ⟨hd, f', ctx⟩ ⟨h1, h2, h3⟩
  simp only at h1 h2 h3 ⊢
  rw [WpE_bind]
  refine (load_alloc_any hE jk hp (hu.imp (fun h => h3 h.2) id)).mono ?_
  rintro T ⟨a1, a2, a3, a4⟩
  rw [WpE_bind]
  refine (load_loop_any hE hA jk jw (n := hd.n) (m := hd.m) (f0 := f) (c0 := hash.isSome) a3 hd hu'
    (s := ⟨T, f', ctx, false, 0⟩) ⟨⟨_, a2⟩, h2, by rw [h1]; simp⟩ (by simp)).mono ?_
  rintro s ⟨⟨⟨l, b1⟩, ⟨p, done, b2, b3, b4⟩, b5⟩, b6⟩
  refine ((Ok.wpe (load_end_spec jk jw hd b1 b3 hh)).and (load_end_hash jk jw hd b3 hh b5)).mono ?_
  rintro r ⟨⟨c1, c2, c3⟩, c4⟩
  refine ⟨⟨⟨_, _, l, a1.1, a1.2, c1⟩, by rw [c2, a4], fun hv => by rw [c2]; exact a3 hv, c3⟩, ?_⟩
  intro hn
  rw [c4, b4 hn]
  rw [b6, List.append_nil] at b2
  rw [← b2]

end Spasm
