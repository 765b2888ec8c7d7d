import Verif.Proofs.Lax

namespace Spasm

open Sha

/-! ### Lines -/

theorem NoNul.suffix {p s : List Char} (h : NoNul (p ++ s)) : NoNul s := fun c hc => h c (by simp [hc])

theorem Lines.of_nil {ls : List (List Char)} (h : Lines [] ls) : ls = [] := by
  generalize hf0 : ([] : List Char) = f0 at h
  cases h with
  | nil => rfl
  | last c _ h => exact absurd hf0.symm h
  | cons c f ls' => simp at hf0

/-- Reading one line of a file without NUL. -/
theorem read_line_lines (jw : Nat → W) {f : List Char} (hf : NoNul f) (ctx : Option Ctx) :
    WpE (fun _ => True) (read_line jw f ctx) (fun r => (f = [] ∧ r.1 = none ∧ r.2.1 = []) ∨
      ∃ b, r.1 = some b ∧ NoNul r.2.1 ∧ ∀ ls, Lines r.2.1 ls → Lines f (b :: ls)) := by
  unfold read_line
  by_cases he : f.isEmpty = true
  · rw [if_pos he, WpE_ok]
    have : f = [] := by simpa using he
    exact .inl ⟨this, rfl, this⟩
  · rw [if_neg he]
    obtain ⟨h1, h2⟩ := takeLine_spec 1023 f
    have h3 := takeLine_nl 1023 f
    simp only
    have hcs : cstr (takeLine 1023 f).1 = (takeLine 1023 f).1 := by
      refine cstr_eq fun c hc => hf c ?_
      rw [← h1]; simp [hc]
    rw [hcs]
    split
    · trivial
    rename_i hpos
    split
    · trivial
    rename_i hend
    have key : NoNul (takeLine 1023 f).2 ∧ ∀ ls, Lines (takeLine 1023 f).2 ls → Lines f ((takeLine 1023 f).1 :: ls) := by
      generalize (takeLine 1023 f).1 = l at *
      generalize (takeLine 1023 f).2 = t at *
      refine ⟨NoNul.suffix (p := l) (by rw [h1]; exact hf), ?_⟩
      intro ls hls
      rcases h3 with ⟨c, h5, h6⟩ | ⟨h5, h6⟩
      · rw [← h1, h6, List.append_assoc]
        refine Lines.cons c t ls h5 ?_ hls
        rw [h6, List.length_append] at h2
        simp at h2; omega
      · have hl : l.length ≠ 1023 := by
          intro hl
          apply hend
          refine ⟨fun h => h5 (List.mem_of_getLast? h), ?_⟩
          unfold atEof
          rw [hl]; simp
        have ht : t = [] := h6.resolve_left hl
        subst ht
        rw [List.append_nil] at h1
        subst h1
        rw [hls.of_nil]
        exact .last l h5 (fun h => hpos (by rw [h]; rfl)) (by omega)
    cases ctx with
    | none => exact .inr ⟨_, rfl, key.1, key.2⟩
    | some c =>
      simp only
      rw [WpE_bind]
      have : WpE (fun _ => True) (SHA256_update jw c ((takeLine 1023 f).1.map byte).toArray
        (takeLine 1023 f).1.length) (fun _ => True) := by
        cases SHA256_update jw c ((takeLine 1023 f).1.map byte).toArray (takeLine 1023 f).1.length <;> trivial
      refine this.mono ?_
      intro c' _
      exact .inr ⟨_, rfl, key.1, key.2⟩

theorem takeLine_lax : ∀ (k : Nat) (b : List Char), b.length ≤ k → '\n' ∉ b → takeLine k b = (b, []) := by
  intro k
  induction k with
  | zero =>
    intro b hb _
    have : b = [] := List.length_eq_zero_iff.mp (by omega)
    rw [this]; rfl
  | succ k ih =>
    intro b hb hn
    cases b with
    | nil => rfl
    | cons c b =>
      simp only [List.mem_cons, not_or] at hn
      simp only [takeLine]
      rw [if_neg (fun h => hn.1 h.symm), ih b (by simp at hb; omega) hn.2]

/-- The next line is read. -/
theorem read_line_next (jw : Nat → W) {f b : List Char} {ls : List (List Char)} (hf : NoNul f) (h : Lines f (b :: ls))
    (done : List Char) {ctx : Option Ctx} (hc : CtxOk done ctx) :
    Ok (read_line jw f ctx) (fun r => r.1 = some b ∧ Lines r.2.1 ls ∧ NoNul r.2.1 ∧ r.2.2.isSome = ctx.isSome ∧
      ∃ done', CtxOk done' r.2.2) := by
  have hne : f ≠ [] := by
    rintro rfl
    cases h.of_nil
  have key : (takeLine 1023 f).1 = b ∧ Lines (takeLine 1023 f).2 ls ∧ b ≠ [] ∧
      ¬ (b.getLast? ≠ some '\n' ∧ atEof 1023 b = false) := by
    cases h with
    | last c h1 h2 h3 =>
      rw [takeLine_lax 1023 f (by omega) h1]
      refine ⟨rfl, .nil, h2, ?_⟩
      rintro ⟨h4, h5⟩
      unfold atEof at h5
      rw [decide_eq_true (by omega : f.length < 1023)] at h5
      simp only [Bool.true_and, decide_eq_false_iff_not] at h5
      exact h5 h4
    | cons c f ls' h1 h2 h3 =>
      rw [takeLine_line 1023 c f (by omega) h1]
      exact ⟨rfl, h3, by simp, by simp⟩
  obtain ⟨k1, k2, k3, k4⟩ := key
  have hsp := (takeLine_spec 1023 f).1
  have hnul : NoNul (takeLine 1023 f).2 := NoNul.suffix (p := (takeLine 1023 f).1) (by rw [hsp]; exact hf)
  unfold read_line
  rw [if_neg (by simpa using hne)]
  simp only
  have hcs : cstr b = b := by
    refine cstr_eq fun c hc => hf c ?_
    rw [← hsp, k1]; simp [hc]
  rw [k1, hcs, if_neg (by simpa using k3), if_neg k4]
  cases ctx with
  | none =>
    refine ⟨rfl, k2, hnul, rfl, [], ?_⟩
    intro c h; cases h
  | some c =>
    simp only
    rw [Ok_bind]
    refine (Hashed.update jw (hc c rfl)).mono ?_
    intro c' hc'
    refine ⟨rfl, k2, hnul, rfl, done ++ b, ?_⟩
    intro d h
    simp only [Option.some.injEq] at h
    rw [← h]; exact hc'

theorem Lines.nil_inv {f : List Char} (h : Lines f []) : f = [] := by cases h; rfl

theorem Lines.length {f : List Char} {ls : List (List Char)} (h : Lines f ls) : ls.length ≤ f.length := by
  induction h with
  | nil => simp
  | last c _ h _ =>
    have := List.length_pos_iff.mpr h
    simp only [List.length_singleton]; omega
  | cons c f ls _ _ _ ih => simp only [List.length_cons, List.length_append]; omega

/-! ### What is accepted is in the format -/

theorem garbage_sound (jk : Junk) (jw : Nat → W) (hd : Header) : ∀ (k : Nat) (s : LoadSt), NoNul s.f → s.fin = true →
    WpE (fun _ => True) (whileFuel k s fun s => load_step jk jw hd s) (fun s' => s'.T = s.T ∧ ∃ g, Lines s.f g) := by
  intro k
  induction k with
  | zero => intro s _ _; trivial
  | succ k ih =>
    intro s hs hfin
    rw [whileFuel, WpE_bind]
    unfold load_step
    rw [WpE_bind]
    refine (read_line_lines jw hs s.ctx).mono ?_
    rintro ⟨o, f', ctx'⟩ (⟨h1, h2, h3⟩ | ⟨b, h1, h2, h3⟩)
    · simp only at h2
      subst h2
      simp only [hfin, if_true]
      exact ⟨rfl, [], by rw [h1]; exact .nil⟩
    · simp only at h1 h2 h3
      subst h1
      simp only [hfin, if_true]
      refine (ih ⟨s.T, f', ctx', true, s.entries⟩ h2 rfl).mono ?_
      rintro s' ⟨e1, g, e2⟩
      exact ⟨e1, b :: g, h3 g e2⟩

/-- What a line of the loop does. -/
theorem line_sound (jk : Junk) {vals : Bool} {q : ℕ} {F : Field} {n m : Int} {l : List (Int × Int × Int)} {s : LoadSt}
    (h : LInv vals q F n m l s.T) (hF : vals = true → F.Good q) (hd : Header) (b f : List Char) (ctx : Option Ctx) :
    WpE (fun _ => True) (load_line jk hd b f ctx s) (fun s' => s'.f = f ∧
      ((LaxEntry b (0, 0, 0) ∧ hd.mm = false ∧ s'.T = s.T ∧ s'.fin = true) ∨
      ∃ e, LaxEntry b e ∧ FitsEntry e ∧ LInv vals q F n m (l ++ [e]) s'.T ∧ s'.entries = s.entries + 1 ∧
        s'.fin = (hd.mm && decide (((s.entries + 1 : Nat) : Int) = hd.nnz)))) := by
  unfold load_line
  rw [WpE_bind]
  cases hs : scan3 b with
  | error e => trivial
  | ok o =>
    rw [WpE_ok]
    cases o with
    | none => trivial
    | some e =>
      obtain ⟨i, j, x⟩ := e
      obtain ⟨h1, f1, f2, f3⟩ := scan3_inv hs
      simp only at f1 f2 f3 ⊢
      split
      · rename_i h0
        obtain ⟨rfl, rfl, rfl⟩ := h0
        split
        · trivial
        · rename_i hmm
          exact ⟨rfl, .inl ⟨h1, by simpa using hmm, rfl, rfl⟩⟩
      · rw [WpE_bind]
        refine (i32_any (E := fun _ => True) (.inr trivial)).mono ?_
        rintro _ rfl
        rw [WpE_bind]
        refine (i32_any (E := fun _ => True) (.inr trivial)).mono ?_
        rintro _ rfl
        rw [WpE_bind]
        by_cases hij : 0 ≤ i - 1 ∧ 0 ≤ j - 1
        · have := h.add jk hF (e := (i, j, x)) (i := (i - 1).toNat) (j := (j - 1).toNat) (by simp only; omega)
            (by simp only; omega)
          rw [show (((i - 1).toNat : Nat) : Int) = i - 1 by omega,
            show (((j - 1).toNat : Nat) : Int) = j - 1 by omega] at this
          refine this.wpe.mono ?_
          intro T hT
          exact ⟨rfl, .inr ⟨(i, j, x), h1, ⟨by simp only; omega, f1.2, by simp only; omega, f2.2, f3.1, f3.2⟩, hT,
            rfl, rfl⟩⟩
        · unfold add_entry
          rw [show (decide (i - 1 ≥ 0) && decide (j - 1 ≥ 0)) = false by simp; omega]
          trivial

/-- The remaining lines. -/
def RestOf (hd : Header) (k : Nat) (f : List Char) (l : List (Int × Int × Int)) : Prop :=
  ∃ tl, List.Forall₂ LaxEntry tl l ∧ (∀ e ∈ l, FitsEntry e) ∧
    ((hd.mm = false ∧ ∃ z g, LaxEntry z (0, 0, 0) ∧ Lines f (tl ++ z :: g)) ∨
      (hd.mm = true ∧ l ≠ [] ∧ ((k + l.length : Nat) : Int) = hd.nnz ∧ ∃ g, Lines f (tl ++ g)))

theorem entries_sound (jk : Junk) (jw : Nat → W) {vals : Bool} {q : ℕ} {F : Field} {n m : Int} (hd : Header)
    (hF : vals = true → F.Good q) : ∀ (k : Nat) (l0 : List (Int × Int × Int)) (s : LoadSt), NoNul s.f → s.fin = false →
      LInv vals q F n m l0 s.T →
      WpE (fun _ => True) (whileFuel k s fun s => load_step jk jw hd s) (fun s' =>
        ∃ l, LInv vals q F n m (l0 ++ l) s'.T ∧ RestOf hd s.entries s.f l) := by
  intro k
  induction k with
  | zero => intro l0 s _ _ _; trivial
  | succ k ih =>
    intro l0 s hs hfin hT
    rw [whileFuel, WpE_bind]
    unfold load_step
    rw [WpE_bind]
    refine (read_line_lines jw hs s.ctx).mono ?_
    rintro ⟨o, f', ctx'⟩ (⟨h1, h2, h3⟩ | ⟨b, h1, h2, h3⟩)
    · simp only at h2
      subst h2
      simp only [hfin]
      trivial
    · simp only at h1 h2 h3
      subst h1
      simp only [hfin]
      rw [if_neg (by simp), WpE_bind]
      refine (line_sound jk hT hF hd b f' ctx').mono ?_
      rintro s1 ⟨a1, ⟨a2, a3, a4, a5⟩ | ⟨e, a2, a3, a4, a5, a6⟩⟩
      · simp only [WpE_ok]
        refine (garbage_sound jk jw hd k s1 (by rw [a1]; exact h2) a5).mono ?_
        rintro s' ⟨b1, g, b2⟩
        refine ⟨[], by rw [b1, a4, List.append_nil]; exact hT, [], .nil, by simp, .inl ⟨a3, b, g, a2, ?_⟩⟩
        rw [List.nil_append]
        exact h3 g (by rw [← a1]; exact b2)
      · simp only [WpE_ok]
        by_cases hf1 : s1.fin = true
        · refine (garbage_sound jk jw hd k s1 (by rw [a1]; exact h2) hf1).mono ?_
          rintro s' ⟨b1, g, b2⟩
          rw [hf1] at a6
          have a6 := a6.symm
          rw [Bool.and_eq_true, decide_eq_true_eq] at a6
          refine ⟨[e], by rw [b1]; exact a4, [b], .cons a2 .nil, by simpa using a3,
            .inr ⟨a6.1, by simp, by simpa using a6.2, g, ?_⟩⟩
          exact h3 g (by rw [← a1]; exact b2)
        · refine (ih (l0 ++ [e]) s1 (by rw [a1]; exact h2) (by simpa using hf1) a4).mono ?_
          rintro s' ⟨l, c1, tl, c2, c3, c4⟩
          refine ⟨e :: l, by simpa using c1, b :: tl, .cons a2 c2, ?_, ?_⟩
          · intro e' he'
            rcases List.mem_cons.mp he' with rfl | he'
            · exact a3
            · exact c3 e' he'
          · rw [a5, a1] at c4
            rcases c4 with ⟨d1, z, g, d2, d3⟩ | ⟨d1, d2, d3, g, d4⟩
            · exact .inl ⟨d1, z, g, d2, h3 _ d3⟩
            · refine .inr ⟨d1, by simp, ?_, g, h3 _ d4⟩
              rw [← d3]
              simp only [List.length_cons]
              omega

theorem comments_sound (jw : Nat → W) : ∀ (k : Nat) (x f : List Char) (ctx : Option Ctx), NoNul f →
    WpE (fun _ => True) (whileFuel k (x, f, ctx) fun s => do
      let (l, f, ctx) ← read_line jw s.2.1 s.2.2
      match l with
      | none => .error .exitErr
      | some buffer =>
        if buffer.head? ≠ some '%' then .ok (.brk (buffer, f, ctx)) else .ok (.cont (buffer, f, ctx))) (fun r =>
      NoNul r.2.1 ∧ ∃ cs, (∀ b ∈ cs, b.head? = some '%') ∧ ∀ ls, Lines r.2.1 ls → Lines f (cs ++ r.1 :: ls)) := by
  intro k
  induction k with
  | zero => intro x f ctx _; trivial
  | succ k ih =>
    intro x f ctx hf
    rw [whileFuel, WpE_bind]
    simp only
    rw [WpE_bind]
    refine (read_line_lines jw hf ctx).mono ?_
    rintro ⟨o, f', ctx'⟩ (⟨h1, h2, h3⟩ | ⟨b, h1, h2, h3⟩)
    · simp only at h2
      subst h2
      trivial
    · simp only at h1 h2 h3
      subst h1
      simp only
      by_cases hb : b.head? = some '%'
      · rw [if_neg (not_not.mpr hb), WpE_ok]
        refine (ih b f' ctx' h2).mono ?_
        rintro r ⟨c1, cs, c2, c3⟩
        refine ⟨c1, b :: cs, ?_, fun ls hls => h3 _ (c3 ls hls)⟩
        intro b' hb'
        rcases List.mem_cons.mp hb' with rfl | hb'
        · exact hb
        · exact c2 b' hb'
      · rw [if_pos hb, WpE_ok]
        exact ⟨h2, [], by simp, fun ls hls => h3 ls hls⟩

/-- The header. -/
def HeadOf (vals : Bool) (f : List Char) (hd : Header) (f' : List Char) : Prop :=
  ((-2 ^ 31 ≤ hd.n ∧ hd.n < 2 ^ 31) ∧ (-2 ^ 31 ≤ hd.m ∧ hd.m < 2 ^ 31)) ∧
  ((hd.mm = false ∧ ∃ h, LaxHeader vals h hd.n hd.m ∧ ∀ ls, Lines f' ls → Lines f (h :: ls)) ∨
   (hd.mm = true ∧ hd.nnz < 2 ^ 63 ∧ ∃ h cs d, LaxMmLine h ∧ (∀ b ∈ cs, b.head? = some '%') ∧
      LaxEntry d (hd.n, hd.m, hd.nnz) ∧ ∀ ls, Lines f' ls → Lines f (h :: (cs ++ d :: ls))))

theorem header_sound (jw : Nat → W) {vals : Bool} {q : ℕ} {prime : Int} (hp : LoadField vals q prime) {f : List Char}
    (hf : NoNul f) (ctx : Option Ctx) :
    WpE (fun _ => True) (load_header jw f prime ctx) (fun r => NoNul r.2.1 ∧ HeadOf vals f r.1 r.2.1) := by
  unfold load_header
  rw [WpE_bind]
  refine (read_line_lines jw hf ctx).mono ?_
  rintro ⟨o, f', ctx'⟩ (⟨h1, h2, h3⟩ | ⟨b, h1, h2, h3⟩)
  · simp only at h2
    subst h2
    trivial
  · simp only at h1 h2 h3
    subst h1
    simp only
    split
    · rename_i hmm
      rw [WpE_bind]
      cases hv : validate_mm_header b with
      | error e => trivial
      | ok u =>
        rw [WpE_ok, WpE_bind]
        have hb := validate_inv hmm hv
        unfold skip_comments
        refine (comments_sound jw _ _ f' ctx' h2).mono ?_
        rintro ⟨d, f2, ctx2⟩ ⟨c1, cs, c2, c3⟩
        simp only at c1 c3 ⊢
        rw [WpE_bind]
        cases hs : scan3 d with
        | error e => trivial
        | ok o =>
          rw [WpE_ok]
          cases o with
          | none => trivial
          | some e =>
            obtain ⟨i, j, z⟩ := e
            obtain ⟨e1, f1, f2, f3⟩ := scan3_inv hs
            exact ⟨c1, ⟨f1, f2⟩, .inr ⟨rfl, f3.2, b, cs, d, hb, c2, e1, fun ls hls => h3 _ (c3 ls hls)⟩⟩
    · rw [WpE_bind]
      cases hs : scan2c b with
      | error e => trivial
      | ok o =>
        rw [WpE_ok]
        cases o with
        | none => trivial
        | some e =>
          obtain ⟨i, j, c⟩ := e
          simp only
          split
          · trivial
          · rename_i hc
            have hM : vals = true → c = 'M' := by
              intro hv
              rcases hp with ⟨-, rfl, -⟩ | ⟨h, -⟩
              · by_contra hne
                exact hc ⟨by omega, hne⟩
              · rw [h] at hv; cases hv
            obtain ⟨e1, f1, f2⟩ := scan2c_inv hs hM
            exact ⟨h2, ⟨f1, f2⟩, .inl ⟨rfl, b, e1, h3⟩⟩

/-- What is accepted is in the format, and the matrix is the one described. -/
theorem load_sound (jk : Junk) (jw : Nat → W) {vals : Bool} {q : ℕ} {prime : Int} (hp : LoadField vals q prime)
    {f : List Char} (hf : NoNul f) {hash : Option (Array B)} (hh : ∀ md, hash = some md → md.size = 32) :
    WpE (fun _ => True) (triplet_load jk jw f prime hash) (fun r => ∃ n m l, LaxFile vals f n m l ∧ Fit n m l ∧
      Loaded vals q n m l r.1) := by
  unfold triplet_load
  have hc : CtxOk [] (hash.map fun _ => SHA256_init) := by
    intro c hc
    obtain ⟨_, _, rfl⟩ := Option.map_eq_some_iff.mp hc
    exact Hashed.init
  rw [WpE_bind]
  refine ((load_header_any (E := fun _ => True) trivial jw (.inr trivial) prime hc).and
    (header_sound jw hp hf (hash.map fun _ => SHA256_init))).mono ?_
  rintro ⟨hd, f', ctx⟩ ⟨⟨h1, h2, -⟩, h3, ⟨r1, r2⟩, h4⟩
  simp only at h1 h2 h3 h4 r1 r2 ⊢
  rw [WpE_bind]
  refine (load_alloc_any (E := fun _ => True) trivial jk hp (.inr trivial)).mono ?_
  rintro T ⟨a1, a2, a3, a4⟩
  rw [WpE_bind]
  refine ((load_loop_any (E := fun _ => True) trivial trivial jk jw (n := hd.n) (m := hd.m) (f0 := f)
    (c0 := hash.isSome) a3 hd (.inr trivial) (s := ⟨T, f', ctx, false, 0⟩) ⟨⟨_, a2⟩, h2, by rw [h1]; simp⟩
    (by simp)).and (entries_sound jk jw hd a3 (f'.length + 1) [] ⟨T, f', ctx, false, 0⟩ h3 rfl a2)).mono ?_
  rintro s ⟨⟨⟨-, ⟨p, done, -, b3, -⟩, -⟩, -⟩, l, c1, c2⟩
  rw [List.nil_append] at c1
  refine (Ok.wpe (load_end_spec jk jw hd c1 b3 hh)).mono ?_
  rintro r ⟨d1, -, -⟩
  obtain ⟨tl, e1, e2, e3⟩ := c2
  refine ⟨hd.n, hd.m, l, ?_, ⟨⟨a1.1, r1.2⟩, ⟨a1.2, r2.2⟩, fun e he => ⟨(e2 e he).i_pos, (e2 e he).i_lt⟩,
    fun e he => ⟨(e2 e he).j_pos, (e2 e he).j_lt⟩, fun e he => ⟨(e2 e he).x_ge, (e2 e he).x_lt⟩⟩, d1⟩
  rcases h4 with ⟨m1, h, m2, m3⟩ | ⟨m1, m0, h, cs, d, m2, m3, m4, m5⟩
  · rcases e3 with ⟨-, z, g, g1, g2⟩ | ⟨k1, -⟩
    · exact .inl ⟨h, tl, z, g, m2, e1, g1, m3 _ g2⟩
    · rw [m1] at k1; cases k1
  · rcases e3 with ⟨k1, -⟩ | ⟨-, k1, k2, g, k3⟩
    · rw [m1] at k1; cases k1
    · simp only [Nat.zero_add] at k2
      refine .inr ⟨h, cs, d, tl, g, m2, m3, by rw [k2]; exact m4, k1, ?_, e1, m5 _ k3⟩
      rw [← k2] at m0
      exact_mod_cast m0

/-! ### What is in the format is accepted -/

theorem garbage_lax (jk : Junk) (jw : Nat → W) (hd : Header) :
    ∀ (g : List (List Char)) (s : LoadSt) (fuel : Nat) (done : List Char), g.length < fuel → NoNul s.f → Lines s.f g →
      s.fin = true → CtxOk done s.ctx →
      Ok (whileFuel fuel s fun s => load_step jk jw hd s) (fun s' => s'.T = s.T ∧ ∃ done', CtxOk done' s'.ctx) := by
  intro g
  induction g with
  | nil =>
    intro s fuel done hfuel _ hf hfin hc
    refine Ok_whileFuel_succ (by simpa using hfuel) ?_
    unfold load_step read_line
    rw [hf.nil_inv, if_pos (by rfl)]
    simp only [Ok_bind, Ok_ok, hfin, if_true]
    exact ⟨trivial, done, hc⟩
  | cons b g ih =>
    intro s fuel done hfuel hnul hf hfin hc
    simp only [List.length_cons] at hfuel
    refine Ok_whileFuel_succ (by omega) ?_
    unfold load_step
    rw [Ok_bind]
    refine (read_line_next jw hnul hf done hc).mono ?_
    rintro ⟨x, f', ctx'⟩ ⟨h1, h2, h3, h4, done', h5⟩
    simp only at h1 h2 h3 h4 h5
    subst h1
    simp only [hfin, if_true, Ok_ok]
    exact ih ⟨s.T, f', ctx', true, s.entries⟩ (fuel - 1) _ (by omega) h3 h2 rfl h5

theorem FitsEntry.fit3 {e : Int × Int × Int} (h : FitsEntry e) : Fit3 e :=
  ⟨⟨by have := h.i_pos; omega, h.i_lt⟩, ⟨by have := h.j_pos; omega, h.j_lt⟩, h.x_ge, h.x_lt⟩

theorem line_lax (jk : Junk) {vals : Bool} {q : ℕ} {F : Field} {n m : Int} {l : List (Int × Int × Int)}
    {s : LoadSt} (h : LInv vals q F n m l s.T) (hF : vals = true → F.Good q) (hd : Header) {e : Int × Int × Int}
    (he : FitsEntry e) {b : List Char} (hb : LaxEntry b e) (f : List Char) (ctx : Option Ctx) :
    Ok (load_line jk hd b f ctx s) (fun s' => LInv vals q F n m (l ++ [e]) s'.T ∧ s'.f = f ∧
      s'.ctx = ctx ∧ s'.fin = (hd.mm && decide (((s.entries + 1 : Nat) : Int) = hd.nnz)) ∧
      s'.entries = s.entries + 1) := by
  unfold load_line
  rw [scan3_lax hb he.fit3, Ok_bind, Ok_ok]
  obtain ⟨i, j, x⟩ := e
  have h1 := he.i_pos
  have h2 := he.i_lt
  have h3 := he.j_pos
  have h4 := he.j_lt
  simp only at h1 h2 h3 h4 ⊢
  rw [if_neg (by omega), Ok_bind, Ok_i32]
  refine ⟨⟨by omega, by omega⟩, ?_⟩
  rw [Ok_bind, Ok_i32]
  refine ⟨⟨by omega, by omega⟩, ?_⟩
  rw [Ok_bind]
  have := h.add jk hF (e := (i, j, x)) (i := (i - 1).toNat) (j := (j - 1).toNat) (by simp only; omega)
    (by simp only; omega)
  rw [show (((i - 1).toNat : Nat) : Int) = i - 1 by omega, show (((j - 1).toNat : Nat) : Int) = j - 1 by omega] at this
  refine this.mono ?_
  intro T hT
  exact ⟨hT, rfl, rfl, rfl, rfl⟩

theorem entries_lax (jk : Junk) (jw : Nat → W) {vals : Bool} {q : ℕ} {F : Field} {n m : Int} (hd : Header)
    (hF : vals = true → F.Good q) {Q : LoadSt → Prop} (ls : List (List Char)) {tl : List (List Char)}
    {l : List (Int × Int × Int)} (hl : List.Forall₂ LaxEntry tl l) (hfit : ∀ e ∈ l, FitsEntry e) :
    ∀ (l0 : List (Int × Int × Int)) (s : LoadSt) (fuel : Nat) (done : List Char), tl.length ≤ fuel →
      LInv vals q F n m l0 s.T → NoNul s.f → Lines s.f (tl ++ ls) → s.fin = false → CtxOk done s.ctx →
      (hd.mm = true → ((s.entries + l.length : Nat) : Int) ≤ hd.nnz) →
      (∀ s' done', LInv vals q F n m (l0 ++ l) s'.T → NoNul s'.f → Lines s'.f ls →
        s'.entries = s.entries + l.length →
        s'.fin = (hd.mm && decide (l ≠ []) && decide ((s'.entries : Int) = hd.nnz)) → CtxOk done' s'.ctx →
        Ok (whileFuel (fuel - tl.length) s' fun s => load_step jk jw hd s) Q) →
      Ok (whileFuel fuel s fun s => load_step jk jw hd s) Q := by
  induction hl with
  | nil =>
    intro l0 s fuel done _ hT hnul hf hfin hc _ hQ
    exact hQ s done (by rwa [List.append_nil]) hnul hf rfl (by simp [hfin]) hc
  | @cons b e tl l hb hl ih =>
    intro l0 s fuel done hfuel hT hnul hf hfin hc hmm hQ
    simp only [List.length_cons] at hfuel hmm
    refine Ok_whileFuel_succ (by omega) ?_
    unfold load_step
    rw [Ok_bind]
    refine (read_line_next jw hnul hf done hc).mono ?_
    rintro ⟨x, f', ctx'⟩ ⟨h1, h2, h3, h4, done', h5⟩
    simp only at h1 h2 h3 h4 h5
    subst h1
    simp only
    rw [if_neg (by simp [hfin]), Ok_bind]
    refine (line_lax jk hT hF hd (hfit e (by simp)) hb _ _).mono ?_
    rintro s' ⟨a1, a2, a3, a4, a5⟩
    simp only [Ok_ok]
    have hfin' : l ≠ [] → s'.fin = false := by
      intro hne
      rw [a4]
      by_cases hm : hd.mm = true
      · have := hmm hm
        have hpos : 0 < l.length := List.length_pos_iff.mpr hne
        rw [hm]; simp; omega
      · simp [hm]
    by_cases hne : l = []
    · subst hne
      have : tl = [] := by cases hl; rfl
      subst this
      refine hQ s' _ a1 (by rw [a2]; exact h3) (by rw [a2]; exact h2) (by rw [a5]; rfl) ?_ (by rw [a3]; exact h5)
      rw [a4, a5]; simp
    · refine ih (fun e he => hfit e (by simp [he])) (l0 ++ [e]) s' (fuel - 1) _ (by omega) a1 (by rw [a2]; exact h3)
        (by rw [a2]; exact h2) (hfin' hne) (by rw [a3]; exact h5) (fun hm => by have := hmm hm; rw [a5]; omega) ?_
      intro s'' done'' b1 b0 b2 b3 b4 b5
      rw [show fuel - 1 - tl.length = fuel - (b :: tl).length by simp; omega]
      exact hQ s'' done'' (by simpa using b1) b0 b2 (by rw [b3, a5]; simp; omega) (by rw [b4]; simp [hne]) b5

theorem comments_lax (jw : Nat → W) {d : List Char} (hd : d.head? ≠ some '%') {ls : List (List Char)}
    {Q : List Char × List Char × Option Ctx → Prop} :
    ∀ (cs : List (List Char)), (∀ b ∈ cs, b.head? = some '%') → ∀ (fuel : Nat) (x f done : List Char)
      (ctx : Option Ctx), CtxOk done ctx → NoNul f → Lines f (cs ++ d :: ls) → cs.length < fuel →
      (∀ f' ctx' done', NoNul f' → Lines f' ls → CtxOk done' ctx' → Q (d, f', ctx')) →
      Ok (whileFuel fuel (x, f, ctx) fun s => do
        let (l, f, ctx) ← read_line jw s.2.1 s.2.2
        match l with
        | none => .error .exitErr
        | some buffer =>
          if buffer.head? ≠ some '%' then .ok (.brk (buffer, f, ctx)) else .ok (.cont (buffer, f, ctx))) Q := by
  intro cs
  induction cs with
  | nil =>
    intro _ fuel x f done ctx hc hnul hf hfuel hQ
    refine Ok_whileFuel_succ (by simpa using hfuel) ?_
    rw [Ok_bind]
    refine (read_line_next jw hnul hf done hc).mono ?_
    rintro ⟨y, f', ctx'⟩ ⟨h1, h2, h3, h4, done', h5⟩
    simp only at h1 h2 h3 h4 h5
    subst h1
    simp only
    rw [if_pos hd, Ok_ok]
    exact hQ f' ctx' _ h3 h2 h5
  | cons b cs ih =>
    intro hcs fuel x f done ctx hc hnul hf hfuel hQ
    simp only [List.length_cons] at hfuel
    refine Ok_whileFuel_succ (by omega) ?_
    rw [Ok_bind]
    refine (read_line_next jw hnul hf done hc).mono ?_
    rintro ⟨y, f', ctx'⟩ ⟨h1, h2, h3, h4, done', h5⟩
    simp only at h1 h2 h3 h4 h5
    subst h1
    simp only
    rw [if_neg (not_not.mpr (hcs b (by simp))), Ok_ok]
    exact ih (fun b hb => hcs b (by simp [hb])) (fuel - 1) _ f' _ ctx' h5 h3 h2 (by omega) hQ

theorem numeral_first {w s t : List Char} {x : Int} (hw : Spaces w) (hs : Numeral s x) :
    (w ++ (s ++ t)).head? ≠ some '%' := by
  intro hc
  cases w with
  | nil =>
    rcases hs.head t _ hc with h | h | h
    · exact absurd h (by decide)
    · exact absurd h (by decide)
    · exact absurd h (by decide)
  | cons d w =>
    simp only [List.cons_append, List.head?_cons, Option.some.injEq] at hc
    have := hw d (by simp)
    rw [hc] at this
    rcases this with h | h | h | h | h | h <;> exact absurd h (by decide)

theorem LaxEntry.first {b : List Char} {e : Int × Int × Int} (h : LaxEntry b e) : b.head? ≠ some '%' := by
  obtain ⟨w1, s1, w2, s2, w3, s3, t, v1, v2, v3, n1, n2, n3, d2, d3, dt, rfl⟩ := h
  simp only [List.append_assoc]
  exact numeral_first v1 n1

theorem LaxHeader.first {vals : Bool} {b : List Char} {n m : Int} (h : LaxHeader vals b n m) :
    b.head? ≠ some '%' := by
  obtain ⟨w1, s1, w2, s2, w3, c, t, v1, v2, v3, n1, n2, d2, d3, hc, hM, rfl⟩ := h
  simp only [List.append_assoc]
  exact numeral_first v1 n1

theorem header_sms_lax (jw : Nat → W) {vals : Bool} {q : ℕ} {prime : Int} (hp : LoadField vals q prime)
    {f h : List Char} {ls : List (List Char)} {n m : Int} (hh : LaxHeader vals h n m) (hf : NoNul f)
    (hl : Lines f (h :: ls)) (hn : -2 ^ 31 ≤ n ∧ n < 2 ^ 31) (hm : -2 ^ 31 ≤ m ∧ m < 2 ^ 31) {ctx : Option Ctx}
    (hc : CtxOk [] ctx) :
    Ok (load_header jw f prime ctx) (fun r => r.1 = ⟨false, n, m, 1⟩ ∧ NoNul r.2.1 ∧ Lines r.2.1 ls ∧
      ∃ done, CtxOk done r.2.2) := by
  unfold load_header
  rw [Ok_bind]
  refine (read_line_next jw hf hl [] hc).mono ?_
  rintro ⟨x, f', ctx'⟩ ⟨h1, h2, h3, h4, done', h5⟩
  simp only at h1 h2 h3 h4 h5
  subst h1
  simp only
  rw [if_neg]
  · obtain ⟨c, k1, k2⟩ := scan2c_lax hh hn hm
    rw [k1, Ok_bind, Ok_ok]
    simp only
    rw [if_neg, Ok_ok]
    · exact ⟨rfl, h3, h2, done', h5⟩
    · rintro ⟨k3, k4⟩
      rcases hp with ⟨hv, -⟩ | ⟨-, hv⟩
      · exact k4 (k2 hv)
      · exact k3 hv
  · intro hmm
    apply hh.first
    have h : (h.take 14).head? = some '%' := by rw [hmm]; decide
    rwa [List.head?_take, if_neg (by decide)] at h

theorem header_mm_lax (jw : Nat → W) (prime : Int) {f h d : List Char} {cs ls : List (List Char)} {n m z : Int}
    (hh : LaxMmLine h) (hcs : ∀ b ∈ cs, b.head? = some '%') (hd : LaxEntry d (n, m, z)) (hf : NoNul f)
    (hl : Lines f (h :: (cs ++ d :: ls))) (hfit : Fit3 (n, m, z)) {ctx : Option Ctx} (hc : CtxOk [] ctx) :
    Ok (load_header jw f prime ctx) (fun r => r.1 = ⟨true, n, m, z⟩ ∧ NoNul r.2.1 ∧ Lines r.2.1 ls ∧
      ∃ done, CtxOk done r.2.2) := by
  unfold load_header
  rw [Ok_bind]
  refine (read_line_next jw hf hl [] hc).mono ?_
  rintro ⟨x, f', ctx'⟩ ⟨h1, h2, h3, h4, done', h5⟩
  simp only at h1 h2 h3 h4 h5
  subst h1
  simp only
  rw [if_pos, validate_lax hh, Ok_bind, Ok_ok, Ok_bind]
  · unfold skip_comments
    refine comments_lax jw hd.first cs hcs _ _ f' done' ctx' h5 h3 h2 ?_ ?_
    · have := h2.length
      simp only [List.length_append, List.length_cons] at this
      omega
    · intro f2 ctx2 done2 k1 k2 k3
      simp only
      rw [scan3_lax hd hfit, Ok_bind, Ok_ok]
      exact ⟨rfl, k1, k2, done2, k3⟩
  · obtain ⟨w1, w2, w3, w4, a1, a2, a3, a4, t, -, -, -, -, -, -, -, -, -, -, -, -, rfl⟩ := hh
    simp only [List.append_assoc]
    exact List.take_left' (by decide)

theorem Fit.entry {n m : Int} {l : List (Int × Int × Int)} (h : Fit n m l) : ∀ e ∈ l, FitsEntry e := fun e he =>
  ⟨(h.row e he).1, (h.row e he).2, (h.col e he).1, (h.col e he).2, (h.val e he).1, (h.val e he).2⟩

/-- A file of the format is accepted. -/
theorem load_lax (jk : Junk) (jw : Nat → W) {vals : Bool} {q : ℕ} {prime : Int} (hp : LoadField vals q prime)
    {f : List Char} (hf : NoNul f) {n m : Int} {l : List (Int × Int × Int)} (hl : LaxFile vals f n m l)
    (hfit : Fit n m l) {hash : Option (Array B)} (hh : ∀ md, hash = some md → md.size = 32) :
    Ok (triplet_load jk jw f prime hash) (fun r => Loaded vals q n m l r.1) := by
  have hc : CtxOk [] (hash.map fun _ => SHA256_init) := by
    intro c hc
    obtain ⟨_, _, rfl⟩ := Option.map_eq_some_iff.mp hc
    exact Hashed.init
  have hn := hfit.n
  have hm := hfit.m
  unfold triplet_load
  rw [Ok_bind]
  rcases hl with ⟨h, tl, z, g, h1, h2, h3, h4⟩ | ⟨h, cs, d, tl, g, h1, h2, h3, hne, hlen, h4, h5⟩
  · refine (header_sms_lax jw hp h1 hf h4 ⟨by omega, hn.2⟩ ⟨by omega, hm.2⟩ hc).mono ?_
    rintro ⟨hd, f', ctx⟩ ⟨a1, a2, a3, done, a4⟩
    simp only at a1 a2 a3 a4
    subst a1
    simp only
    rw [Ok_bind]
    refine (load_alloc_spec jk hp (h := ⟨false, n, m, 1⟩) hn.1 hm.1 (by simp)).mono ?_
    rintro T ⟨b1, b2, b3⟩
    simp only at b1
    rw [Ok_bind]
    have hlen := a3.length
    simp only [List.length_append, List.length_cons] at hlen
    refine entries_lax jk jw ⟨false, n, m, 1⟩ b2 (z :: g) h2 hfit.entry [] _ _ done (by omega) b1
      a2 a3 rfl a4 (by simp) ?_
    intro s done' c1 c0 c2 c3 c4 c5
    rw [List.nil_append] at c1
    refine Ok_whileFuel_succ (by omega) ?_
    have hstep : Ok (load_step jk jw ⟨false, n, m, 1⟩ s) (fun r => ∃ f2 ctx' done'', CtxOk done'' ctx' ∧ NoNul f2 ∧
        Lines f2 g ∧ r = .cont ⟨s.T, f2, ctx', true, s.entries⟩) := by
      unfold load_step
      rw [Ok_bind]
      refine (read_line_next jw c0 c2 done' c5).mono ?_
      rintro ⟨x, f', ctx'⟩ ⟨d1, d2, d3, d4, done'', d5⟩
      simp only at d1 d2 d3 d4 d5
      subst d1
      simp only
      rw [if_neg (by rw [c4]; simp)]
      unfold load_line
      rw [scan3_lax h3 (by unfold Fit3; decide)]
      simp only [Ok_bind, Ok_ok]
      rw [if_pos ⟨trivial, trivial, trivial⟩, if_neg (by simp)]
      exact ⟨f', ctx', _, d5, d3, d2, rfl⟩
    refine hstep.mono ?_
    rintro r ⟨f2, ctx', done'', d1, d2, d3, rfl⟩
    simp only
    refine (garbage_lax jk jw _ g _ _ done'' (by omega) d2 d3 rfl d1).mono ?_
    rintro s' ⟨e1, done3, e3⟩
    simp only at e1
    refine (load_end_spec jk jw _ (by rw [e1]; exact c1) e3 hh).mono ?_
    rintro r ⟨g1, -, -⟩
    exact g1
  · refine (header_mm_lax jw prime h1 h2 h3 hf h5 ⟨⟨by simp only; omega, hn.2⟩, ⟨by simp only; omega, hm.2⟩,
      by simp only; omega, by simp only; omega⟩ hc).mono ?_
    rintro ⟨hd, f', ctx⟩ ⟨a1, a2, a3, done, a4⟩
    simp only at a1 a2 a3 a4
    subst a1
    simp only
    rw [Ok_bind]
    refine (load_alloc_spec jk hp (h := ⟨true, n, m, l.length⟩) hn.1 hm.1 (by simp)).mono ?_
    rintro T ⟨b1, b2, b3⟩
    simp only at b1
    rw [Ok_bind]
    have hlen2 := a3.length
    simp only [List.length_append] at hlen2
    refine entries_lax jk jw ⟨true, n, m, l.length⟩ b2 g h4 hfit.entry [] _ _ done (by omega) b1
      a2 a3 rfl a4 (by simp) ?_
    intro s done' c1 c0 c2 c3 c4 c5
    rw [List.nil_append] at c1
    simp only at c3
    refine (garbage_lax jk jw _ g _ _ done' (by omega) c0 c2 (by rw [c4, c3]; simp [hne]) c5).mono ?_
    rintro s' ⟨e1, done3, e3⟩
    refine (load_end_spec jk jw _ (by rw [e1]; exact c1) e3 hh).mono ?_
    rintro r ⟨g1, -, -⟩
    exact g1

end Spasm
