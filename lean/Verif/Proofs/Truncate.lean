import Verif.Proofs.Save
import Verif.Proofs.CertFile
import Verif.Proofs.Width

/-! Reading the beginning of a file. -/

namespace Spasm

open Sha

/-! ### The beginning of a text -/

theorem prefix_append_cases {t a b : List Char} (h : t <+: a ++ b) : t <+: a ∨ ∃ u, t = a ++ u ∧ u <+: b := by
  obtain ⟨v, hv⟩ := h
  rcases List.append_eq_append_iff.mp hv with ⟨w, h1, h2⟩ | ⟨w, h1, h2⟩
  · exact .inl ⟨w, h1.symm⟩
  · exact .inr ⟨w, h1, v, h2.symm⟩

/-- The beginning of a sequence of lines: some of the lines, then the beginning of the next one. -/
theorem prefix_unlines : ∀ {ls : List (List Char)} {t : List Char}, t <+: unlines ls →
    t = unlines ls ∨ ∃ l1 c l2 b, ls = l1 ++ c :: l2 ∧ b <+: c ∧ t = unlines l1 ++ b := by
  intro ls
  induction ls with
  | nil => intro t h; exact .inl (List.prefix_nil.mp h)
  | cons c ls ih =>
    intro t h
    rw [unlines_cons] at h ⊢
    rcases prefix_append_cases h with h | ⟨t', rfl, hp⟩
    · exact .inr ⟨[], c, ls, t, rfl, h, rfl⟩
    · replace h := hp
      clear hp
      cases t' with
      | nil => exact .inr ⟨[], c, ls, c, rfl, List.prefix_rfl, by simp [unlines]⟩
      | cons d t' =>
        obtain ⟨rfl, hp⟩ := List.cons_prefix_cons.mp h
        replace h := hp
        clear hp
        rcases ih h with rfl | ⟨l1, c', l2, b, rfl, h1, rfl⟩
        · exact .inl rfl
        · exact .inr ⟨c :: l1, c', l2, b, rfl, h1, by rw [unlines_cons]; simp⟩

/-- The beginning of the digits of a number are the digits of a number. -/
theorem prefix_digits : ∀ (n : Nat) {p : List Char}, p <+: Nat.toDigits 10 n → p ≠ [] →
    ∃ n', p = Nat.toDigits 10 n' ∧ n' ≤ n ∧ (0 < n → 0 < n') := by
  intro n
  induction n using Nat.strong_induction_on with
  | _ n ih =>
    intro p hp hne
    by_cases h : n < 10
    · rw [Nat.toDigits_of_lt_base h] at hp
      refine ⟨n, ?_, le_rfl, id⟩
      rw [Nat.toDigits_of_lt_base h]
      cases p with
      | nil => exact absurd rfl hne
      | cons c p =>
        obtain ⟨rfl, h2⟩ := List.cons_prefix_cons.mp hp
        rw [List.prefix_nil.mp h2]
    · have e := Nat.toDigits_of_base_le (b := 10) (n := n) (by decide) (by omega)
      rw [e] at hp
      rcases prefix_append_cases hp with h1 | ⟨t, rfl, h1⟩
      · obtain ⟨n', a1, a2, a3⟩ := ih (n / 10) (by omega) h1 hne
        exact ⟨n', a1, by omega, fun _ => a3 (by omega)⟩
      · cases t with
        | nil =>
          rw [List.append_nil]
          exact ⟨n / 10, rfl, by omega, fun _ => by omega⟩
        | cons d t =>
          obtain ⟨rfl, h2⟩ := List.cons_prefix_cons.mp h1
          rw [List.prefix_nil.mp h2]
          exact ⟨n, e.symm, le_rfl, id⟩

/-- The beginning of a number. -/
theorem prefix_fmtD {x : Int} {p : List Char} (h : p <+: fmtD x) :
    p = [] ∨ p = ['-'] ∨ ∃ x', p = fmtD x' ∧ |x'| ≤ |x| ∧ (0 < x → 0 < x') ∧ (0 ≤ x → 0 ≤ x') := by
  by_cases hne : p = []
  · exact .inl hne
  unfold fmtD at h
  by_cases hx : x < 0
  · rw [if_pos hx] at h
    cases p with
    | nil => exact absurd rfl hne
    | cons c p =>
      obtain ⟨rfl, h2⟩ := List.cons_prefix_cons.mp h
      by_cases hp : p = []
      · exact .inr (.inl (by rw [hp]))
      · obtain ⟨n', rfl, a2, a3⟩ := prefix_digits _ h2 hp
        have := a3 (by omega)
        refine .inr (.inr ⟨-(n' : Int), ?_, ?_, by omega, by omega⟩)
        · unfold fmtD
          rw [if_pos (by omega)]; simp
        · rw [abs_le]; constructor <;> (have := abs_of_neg hx; omega)
  · rw [if_neg hx] at h
    obtain ⟨n', rfl, a2, a3⟩ := prefix_digits _ h hne
    refine .inr (.inr ⟨n', ?_, ?_, fun _ => by have := a3 (by omega); omega, by omega⟩)
    · unfold fmtD
      rw [if_neg (by omega)]; simp
    · have := abs_of_nonneg (not_lt.mp hx)
      rw [abs_le]; constructor <;> omega

theorem fmtD_nonneg_ne_minus {x : Int} (hx : 0 ≤ x) {p : List Char} (h : p <+: fmtD x) : p ≠ ['-'] := by
  rintro rfl
  unfold fmtD at h
  rw [if_neg (by omega)] at h
  have := isDigit_digits '-' (h.subset (by simp))
  exact absurd this (by decide)

theorem scanD_nil (bits : Nat) : scanD bits [] = .ok (none, []) := rfl

theorem scanD_full {bits : Nat} {x : Int} (h1 : -2 ^ bits ≤ x) (h2 : x < 2 ^ bits) :
    scanD bits (fmtD x) = .ok (some x, []) := by
  have := scanD_dec (bits := bits) (w := []) blank_nil h1 h2 (s := []) (by simp)
  simpa using this

theorem scanD_sp {bits : Nat} {x : Int} (h1 : -2 ^ bits ≤ x) (h2 : x < 2 ^ bits) (s : List Char) :
    scanD bits (fmtD x ++ ' ' :: s) = .ok (some x, ' ' :: s) := by
  have := scanD_dec (bits := bits) (w := []) blank_nil h1 h2 (s := ' ' :: s)
    (by intro c hc; simp at hc; subst hc; decide)
  simpa using this

theorem skipWs_sp (s : List Char) : skipWs (' ' :: s) = skipWs s := rfl

theorem skipWs_fmtD (x : Int) (s : List Char) : skipWs (fmtD x ++ s) = fmtD x ++ s := skipWs_head (fmtD_head s)

/-- The beginning of a number, after a blank. -/
theorem skipWs_prefix {x : Int} {p : List Char} (h : p <+: fmtD x) : skipWs p = p := by
  refine skipWs_head ?_
  intro c hc
  obtain ⟨t, ht⟩ := h
  cases p with
  | nil => cases hc
  | cons d p =>
    refine fmtD_head (x := x) [] c ?_
    rw [List.append_nil, ← ht]
    simpa using hc

/-- The beginning of the line of an entry gives either nothing or another entry, which also fits. -/
theorem scan3_prefix {e : Int × Int × Int} (he : FitsEntry e) {b : List Char}
    (h : b <+: fmtD e.1 ++ ' ' :: (fmtD e.2.1 ++ ' ' :: fmtD e.2.2)) :
    scan3 b = .ok none ∨ ∃ e', scan3 b = .ok (some e') ∧ FitsEntry e' := by
  obtain ⟨h1, h2, h3, h4, h5, h6⟩ := he
  obtain ⟨i, j, x⟩ := e
  simp only at h1 h2 h3 h4 h5 h6 h
  unfold scan3
  rcases prefix_append_cases h with h | ⟨t, rfl, hp⟩
  · rcases prefix_fmtD h with rfl | rfl | ⟨i', rfl, a1, a2, -⟩
    · exact .inl rfl
    · exact absurd rfl (fmtD_nonneg_ne_minus (by omega) h)
    · have := a2 (by omega)
      rw [abs_of_pos (by omega), abs_of_pos (by omega)] at a1
      rw [scanD_full (by omega) (by omega)]
      exact .inl rfl
  replace h := hp
  clear hp
  cases t with
  | nil =>
    rw [List.append_nil, scanD_full (by omega) (by omega)]
    exact .inl rfl
  | cons d t =>
    obtain ⟨rfl, hp⟩ := List.cons_prefix_cons.mp h
    replace h := hp
    clear hp
    rw [scanD_sp (by omega) (by omega)]
    show (((scanD 31 (skipWs (' ' :: t))) >>= _) = _) ∨ ∃ e', (((scanD 31 (skipWs (' ' :: t))) >>= _) = _) ∧ _
    rw [skipWs_sp]
    rcases prefix_append_cases h with h | ⟨t, rfl, hp⟩
    · rw [skipWs_prefix h]
      rcases prefix_fmtD h with rfl | rfl | ⟨i', rfl, a1, a2, -⟩
      · exact .inl rfl
      · exact absurd rfl (fmtD_nonneg_ne_minus (by omega) h)
      · have := a2 (by omega)
        rw [abs_of_pos (by omega), abs_of_pos (by omega)] at a1
        rw [scanD_full (by omega) (by omega)]
        exact .inl rfl
    replace h := hp
    clear hp
    cases t with
    | nil =>
      rw [skipWs_fmtD, List.append_nil, scanD_full (by omega) (by omega)]
      exact .inl rfl
    | cons d t =>
      obtain ⟨rfl, hp⟩ := List.cons_prefix_cons.mp h
      replace h := hp
      clear hp
      rw [skipWs_fmtD, scanD_sp (by omega) (by omega)]
      show (((scanD 63 (skipWs (' ' :: t))) >>= _) = _) ∨ ∃ e', (((scanD 63 (skipWs (' ' :: t))) >>= _) = _) ∧ _
      rw [skipWs_sp, skipWs_prefix h]
      rcases prefix_fmtD h with rfl | rfl | ⟨x', rfl, a1, a2, a3⟩
      · exact .inl rfl
      · exact .inl rfl
      · have hb : -2 ^ 63 ≤ x' ∧ x' < 2 ^ 63 := by
          rcases lt_or_ge x 0 with hx | hx
          · rw [abs_of_neg hx] at a1
            have := abs_le.mp a1
            refine ⟨by omega, ?_⟩
            by_contra hc
            unfold fmtD at h
            rw [if_neg (by omega), if_pos hx] at h
            cases hd : Nat.toDigits 10 x'.natAbs with
            | nil => exact digits_ne_nil _ hd
            | cons c r =>
              rw [hd] at h
              have h9 := (List.cons_prefix_cons.mp h).1
              have := isDigit_digits c (by rw [hd]; simp)
              rw [h9] at this
              exact absurd this (by decide)
          · have := a3 hx
            rw [abs_of_nonneg hx, abs_of_nonneg this] at a1
            omega
        rw [scanD_full hb.1 hb.2]
        exact .inr ⟨(i, j, x'), rfl, h1, h2, h3, h4, hb.1, hb.2⟩

/-- The beginning of the header. -/
theorem scan2c_prefix {n m : Int} (hn : 0 ≤ n ∧ n < 2 ^ 31) (hm : 0 ≤ m ∧ m < 2 ^ 31) {b : List Char}
    (h : b <+: fmtD n ++ ' ' :: (fmtD m ++ [' ', 'M'])) :
    scan2c b = .ok none ∨ scan2c b = .ok (some (n, m, 'M')) := by
  unfold scan2c
  rcases prefix_append_cases h with h | ⟨t, rfl, hp⟩
  · rcases prefix_fmtD h with rfl | rfl | ⟨i', rfl, a1, a2, a3⟩
    · exact .inl rfl
    · exact absurd rfl (fmtD_nonneg_ne_minus (by omega) h)
    · have := a3 (by omega)
      rw [abs_of_nonneg (by omega), abs_of_nonneg (by omega)] at a1
      rw [scanD_full (by omega) (by omega)]
      exact .inl rfl
  replace h := hp
  clear hp
  cases t with
  | nil =>
    rw [List.append_nil, scanD_full (by omega) (by omega)]
    exact .inl rfl
  | cons d t =>
    obtain ⟨rfl, hp⟩ := List.cons_prefix_cons.mp h
    replace h := hp
    clear hp
    rw [scanD_sp (by omega) (by omega)]
    show (((scanD 31 (skipWs (' ' :: t))) >>= _) = _) ∨ (((scanD 31 (skipWs (' ' :: t))) >>= _) = _)
    rw [skipWs_sp]
    rcases prefix_append_cases h with h | ⟨t, rfl, hp⟩
    · rw [skipWs_prefix h]
      rcases prefix_fmtD h with rfl | rfl | ⟨i', rfl, a1, a2, a3⟩
      · exact .inl rfl
      · exact absurd rfl (fmtD_nonneg_ne_minus (by omega) h)
      · have := a3 (by omega)
        rw [abs_of_nonneg (by omega), abs_of_nonneg (by omega)] at a1
        rw [scanD_full (by omega) (by omega)]
        exact .inl rfl
    replace h := hp
    clear hp
    cases t with
    | nil =>
      rw [skipWs_fmtD, List.append_nil, scanD_full (by omega) (by omega)]
      exact .inl rfl
    | cons d t =>
      obtain ⟨rfl, hp⟩ := List.cons_prefix_cons.mp h
      replace h := hp
      clear hp
      rw [skipWs_fmtD, scanD_sp (by omega) (by omega)]
      cases t with
      | nil => exact .inl rfl
      | cons d t =>
        obtain ⟨rfl, hp⟩ := List.cons_prefix_cons.mp h
        replace h := hp
        clear hp
        rw [List.prefix_nil.mp h]
        exact .inr rfl

/-! ### The last line, without newline -/

theorem takeLine_last : ∀ (k : Nat) {b : List Char}, '\n' ∉ b → b.length ≤ k → takeLine k b = (b, []) := by
  intro k
  induction k with
  | zero => intro b _ h; have : b = [] := by cases b <;> simp_all
            subst this; rfl
  | succ k ih =>
    intro b hb h
    cases b with
    | nil => rfl
    | cons c b =>
      simp only [List.mem_cons, not_or] at hb
      simp only [takeLine]
      rw [if_neg (fun e => hb.1 e.symm), ih hb.2 (by simpa using h)]

theorem read_line_last (jw : Nat → W) {b : List Char} (hb : Short b) (hne : b ≠ []) (done : List Char)
    {ctx : Option Ctx} (hc : CtxOk done ctx) :
    ∃ ctx', read_line jw b ctx = .ok (some b, [], ctx') ∧ CtxOk (done ++ b) ctx' := by
  unfold read_line
  have hl := hb.len
  rw [if_neg (by simpa using hne), takeLine_last 1023 hb.nonl (by omega)]
  simp only
  rw [cstr_eq hb.nonul, if_neg (by simpa using hne), if_neg]
  · cases ctx with
    | none => exact ⟨none, rfl, by intro c h; cases h⟩
    | some c =>
      obtain ⟨c', h1, h2⟩ := Ok_iff.mp (Hashed.update jw (b := b) (hc c rfl))
      refine ⟨some c', ?_, ?_⟩
      · simp only
        rw [h1]; rfl
      · intro d h
        simp only [Option.some.injEq] at h
        rw [← h]; exact h2
  · rintro ⟨h1, h2⟩
    unfold atEof at h2
    simp only [Bool.and_eq_false_iff, decide_eq_false_iff_not] at h2
    rcases h2 with h2 | h2
    · omega
    · exact h2 h1

/-! ### Loading -/

/-- The entries are read, then the rest. -/
theorem load_entries_eq (jk : Junk) (jw : Nat → W) {vals : Bool} {q : ℕ} {F : Field} {n m : Int} (hd : Header)
    (hmm : hd.mm = false) (hF : vals = true → F.Good q) (rest : List Char) {tl : List (List Char)}
    {l : List (Int × Int × Int)} (hl : List.Forall₂ EntryLine tl l) (hfit : ∀ e ∈ l, FitsEntry e) :
    ∀ (l0 : List (Int × Int × Int)) (s : LoadSt) (fuel : Nat) (done : List Char), tl.length ≤ fuel →
      LInv vals q F n m l0 s.T → s.f = unlines tl ++ rest → s.fin = false → CtxOk done s.ctx →
      ∃ s' done', (whileFuel fuel s fun s => load_step jk jw hd s) =
          (whileFuel (fuel - tl.length) s' fun s => load_step jk jw hd s) ∧
        LInv vals q F n m (l0 ++ l) s'.T ∧ s'.f = rest ∧ s'.fin = false ∧ CtxOk done' s'.ctx := by
  induction hl with
  | nil =>
    intro l0 s fuel done _ hT hf hfin hc
    exact ⟨s, done, rfl, by rwa [List.append_nil], by rw [hf]; rfl, hfin, hc⟩
  | @cons b e tl l hb hl ih =>
    intro l0 s fuel done hfuel hT hf hfin hc
    simp only [List.length_cons] at hfuel
    obtain ⟨k, rfl⟩ : ∃ k, fuel = k + 1 := ⟨fuel - 1, by omega⟩
    have hstep : Ok (load_step jk jw hd s) (fun r => ∃ s' done', r = .cont s' ∧ LInv vals q F n m (l0 ++ [e]) s'.T ∧
        s'.f = unlines tl ++ rest ∧ s'.fin = false ∧ CtxOk done' s'.ctx) := by
      unfold load_step
      rw [Ok_bind, hf, unlines_cons, List.append_assoc, List.cons_append]
      refine (read_line_short jw hb.1 _ done hc).mono ?_
      rintro ⟨x, f', ctx'⟩ ⟨h1, h2, h3, h4⟩
      simp only at h1 h2 h3 h4
      subst h1 h2
      simp only
      rw [if_neg (by simp [hfin]), Ok_bind]
      refine (load_line_entry jk hT hF hd (hfit e (by simp)) hb _ _).mono ?_
      rintro s' ⟨a1, a2, a3, a4, a5⟩
      exact ⟨s', _, rfl, a1, a2, by rw [a4, hmm]; rfl, by rw [a3]; exact h4⟩
    obtain ⟨r, h1, s', done', rfl, h2, h3, h4, h5⟩ := Ok_iff.mp hstep
    obtain ⟨s'', done'', g1, g2, g3, g4, g5⟩ := ih (fun e he => hfit e (by simp [he])) (l0 ++ [e]) s' k done'
      (by omega) h2 h3 h4 h5
    refine ⟨s'', done'', ?_, by simpa using g2, g3, g4, g5⟩
    rw [whileFuel, h1]
    show (whileFuel k s' fun s => load_step jk jw hd s) = _
    rw [g1]
    simp

/-- The end of the file, before the end of the matrix. -/
theorem load_step_eof (jk : Junk) (jw : Nat → W) (hd : Header) {s : LoadSt} (hf : s.f = []) (hfin : s.fin = false) :
    load_step jk jw hd s = .error .exitErr := by
  unfold load_step read_line
  rw [hf]
  show (if s.fin = true then _ else _) = _
  rw [hfin]; rfl

theorem while_err {σ : Type} {f : σ → C (Step σ)} {k : Nat} {s : σ} {e : Err} (hk : 0 < k) (h : f s = .error e) :
    whileFuel k s f = .error e := by
  obtain ⟨k, rfl⟩ : ∃ j, k = j + 1 := ⟨k - 1, by omega⟩
  rw [whileFuel, h]; rfl

theorem while_cont {σ : Type} {f : σ → C (Step σ)} {k : Nat} {s s' : σ} (hk : 0 < k) (h : f s = .ok (.cont s')) :
    whileFuel k s f = whileFuel (k - 1) s' f := by
  obtain ⟨k, rfl⟩ : ∃ j, k = j + 1 := ⟨k - 1, by omega⟩
  rw [whileFuel, h]; rfl

/-- The file ends in the middle of the line of an entry. -/
theorem load_last (jk : Junk) (jw : Nat → W) {vals : Bool} {q : ℕ} {F : Field} {n m : Int}
    {l : List (Int × Int × Int)} (hd : Header) (hmm : hd.mm = false) (hF : vals = true → F.Good q) {s : LoadSt}
    {b done : List Char} {fuel : Nat} (hfuel : b.length < fuel) (hT : LInv vals q F n m l s.T) (hf : s.f = b)
    (hfin : s.fin = false) (hc : CtxOk done s.ctx) (hb : Short b)
    (hs : scan3 b = .ok none ∨ ∃ e', scan3 b = .ok (some e') ∧ FitsEntry e') :
    (whileFuel fuel s fun s => load_step jk jw hd s) = .error .exitErr := by
  by_cases hne : b = []
  · exact while_err (by omega) (load_step_eof jk jw hd (by rw [hf, hne]) hfin)
  have hlen : 0 < b.length := List.length_pos_iff.mpr hne
  obtain ⟨ctx', h1, h2⟩ := read_line_last jw hb hne done hc
  have hstep : load_step jk jw hd s = (load_line jk hd b [] ctx' s >>= fun s => .ok (.cont s)) := by
    unfold load_step
    rw [hf, h1]
    show (if s.fin = true then _ else _) = _
    rw [hfin]; rfl
  rcases hs with hs | ⟨e, hs, he⟩
  · refine while_err (by omega) ?_
    show load_step jk jw hd s = _
    rw [hstep]
    unfold load_line
    rw [hs]; rfl
  · have hline : Ok (load_line jk hd b [] ctx' s) (fun s' => s'.f = [] ∧ s'.fin = false) := by
      unfold load_line
      rw [hs, Ok_bind, Ok_ok]
      obtain ⟨i, j, x⟩ := e
      have h1 := he.i_pos
      have h2 := he.i_lt
      have h3 := he.j_pos
      have h4 := he.j_lt
      simp only at h1 h2 h3 h4 ⊢
      rw [if_neg (by omega), Ok_bind, Ok_i32]
      refine ⟨⟨by omega, by omega⟩, ?_⟩
      rw [Ok_bind, Ok_i32]
      refine ⟨⟨by omega, by omega⟩, ?_⟩
      rw [Ok_bind]
      have := hT.add jk hF (e := (i, j, x)) (i := (i - 1).toNat) (j := (j - 1).toNat) (by simp only; omega)
        (by simp only; omega)
      rw [show (((i - 1).toNat : Nat) : Int) = i - 1 by omega,
        show (((j - 1).toNat : Nat) : Int) = j - 1 by omega] at this
      refine this.mono ?_
      intro T hT
      exact ⟨rfl, by rw [hmm]; rfl⟩
    obtain ⟨s', h3, h4, h5⟩ := Ok_iff.mp hline
    rw [h3] at hstep
    rw [while_cont (by omega) (s' := s') hstep]
    exact while_err (by omega) (load_step_eof jk jw hd h4 h5)

theorem take_not_mm {b : List Char} {x : Int} {r : List Char} (h : b <+: fmtD x ++ r) :
    b.take 14 ≠ "%%MatrixMarket".toList := by
  intro h2
  cases b with
  | nil => exact absurd h2 (by decide)
  | cons c b =>
    have hc : c = '%' := by
      have := congrArg List.head? h2
      simpa using this
    obtain ⟨t, ht⟩ := h
    have := number_head blank_nil x r c (by rw [List.nil_append, ← ht]; rfl)
    exact this hc

theorem short_prefix {b c : List Char} (h : b <+: c) (hc : Short c) : Short b :=
  ⟨h.length_le.trans hc.len, fun hm => hc.nonl (h.subset hm), fun d hd => hc.nonul d (h.subset hd)⟩

theorem forall₂_split {α β : Type} {R : α → β → Prop} : ∀ {l1 l2 : List α} {l : List β},
    List.Forall₂ R (l1 ++ l2) l → ∃ m1 m2, l = m1 ++ m2 ∧ List.Forall₂ R l1 m1 ∧ List.Forall₂ R l2 m2 := by
  intro l1
  induction l1 with
  | nil => intro l2 l h; exact ⟨[], l, rfl, .nil, h⟩
  | cons a l1 ih =>
    intro l2 l h
    cases h with
    | @cons _ b _ l' h1 h2 =>
      obtain ⟨m1, m2, rfl, h3, h4⟩ := ih h2
      exact ⟨b :: m1, m2, rfl, .cons h1 h3, h4⟩

/-! ### Saved matrices -/

/-- The line of an entry. -/
def entryText (e : Nat × Nat × Int) : List Char :=
  fmtD ((e.1 + 1 : Nat) : Int) ++ ' ' :: (fmtD ((e.2.1 + 1 : Nat) : Int) ++ ' ' :: fmtD e.2.2)

/-- The line of the dimensions. -/
def dimText (n m : Nat) : List Char := fmtD n ++ ' ' :: (fmtD m ++ [' ', 'M'])

theorem saveText_lines (n m : Nat) (l : List (Nat × Nat × Int)) :
    saveText n m l = unlines (dimText n m :: l.map entryText ++ ["0 0 0".toList]) := by
  unfold saveText save_header unlines
  rw [List.cons_append, List.flatMap_cons, List.flatMap_append, List.flatMap_map]
  have : (fun e : Nat × Nat × Int => save_line e.1 e.2.1 e.2.2) = fun e => entryText e ++ ['\n'] := by
    funext e; simp [save_line, entryText]
  rw [this]
  simp [dimText]

theorem dimText_header {n m : Nat} (hn : n < 2 ^ 31) (hm : m < 2 ^ 31) : HeaderLine (dimText n m) n m := by
  refine ⟨short_of ?_ ?_, [], [' '], [' '], [], blank_nil, blank_one, blank_one, by simp, ?_⟩
  · have h1 := fmtD_length (x := n) (k := 10) (by decide) (by simp; omega)
    have h2 := fmtD_length (x := m) (k := 10) (by decide) (by simp; omega)
    simp only [dimText, List.length_append, List.length_cons, List.length_nil]
    omega
  · intro c hc
    simp only [dimText, List.mem_append, List.mem_cons, List.not_mem_nil, or_false] at hc
    rcases hc with hc | hc | hc | hc | hc
    · exact short_mem hc
    · subst hc; decide
    · exact short_mem hc
    · subst hc; decide
    · subst hc; decide
  · simp [dec_eq, dimText]

theorem entryText_line {n m : Nat} {l : List (Nat × Nat × Int)} (h : Fits n m l) {e : Nat × Nat × Int} (he : e ∈ l) :
    EntryLine (entryText e) ((e.1 : Int) + 1, (e.2.1 : Int) + 1, e.2.2) := by
  have hn := h.n_lt
  have hm := h.m_lt
  have h1 := h.i_lt e he
  have h2 := h.j_lt e he
  have h3 := abs_lt.mp (h.x_lt e he)
  refine ⟨short_of ?_ ?_, [], [' '], [' '], [], blank_nil, blank_one, blank_one, by simp, by simp, by simp, ?_⟩
  · have h1 := fmtD_length (x := ((e.1 + 1 : Nat) : Int)) (k := 10) (by decide) (by omega)
    have h2 := fmtD_length (x := ((e.2.1 + 1 : Nat) : Int)) (k := 10) (by decide) (by omega)
    have h2 := fmtD_length (x := e.2.2) (k := 20) (by decide) (by omega)
    simp only [entryText, List.length_append, List.length_cons]
    omega
  · intro c hc
    simp only [entryText, List.mem_append, List.mem_cons] at hc
    rcases hc with hc | hc | hc | hc | hc
    · exact short_mem hc
    · subst hc; decide
    · exact short_mem hc
    · subst hc; decide
    · exact short_mem hc
  · simp [dec_eq, entryText]

theorem zero_short : Short "0 0 0".toList := short_of (by decide) (by decide)

/-- The beginning of the last line gives nothing. -/
theorem scan3_zero {b : List Char} (h : b <+: "0 0 0".toList) (hne : b ≠ "0 0 0".toList) : scan3 b = .ok none := by
  have : b ∈ "0 0 0".toList.inits := List.mem_inits _ _ |>.mpr h
  have key : ∀ b ∈ "0 0 0".toList.inits, b ≠ "0 0 0".toList → scan3 b = .ok none := by
    intro b hb hn
    rw [show "0 0 0".toList.inits = [[], ['0'], ['0', ' '], ['0', ' ', '0'], ['0', ' ', '0', ' '],
      ['0', ' ', '0', ' ', '0']] from by decide +kernel] at hb
    simp only [List.mem_cons, List.not_mem_nil, or_false] at hb
    rcases hb with rfl | rfl | rfl | rfl | rfl | rfl
    · rfl
    · rfl
    · rfl
    · rfl
    · rfl
    · exact absurd rfl hn
  exact key b this hne

/-- A file that ends before the last line of zeroes is refused. -/
theorem load_truncated (jk : Junk) (jw : Nat → W) {vals : Bool} {q : ℕ} {prime : Int} (hp : LoadField vals q prime)
    {n m : Nat} {l : List (Nat × Nat × Int)} (h : Fits n m l) (hash : Option (Array B)) {t u : List Char}
    (he : saveText n m l = t ++ u) (hu : u ≠ []) (hu' : u ≠ ['\n']) :
    triplet_load jk jw t prime hash = .error .exitErr := by
  have hn := h.n_lt
  have hm := h.m_lt
  have hfit := fits_one h
  have hc : CtxOk [] (hash.map fun _ => SHA256_init) := by
    intro c hc
    obtain ⟨_, _, rfl⟩ := Option.map_eq_some_iff.mp hc
    exact Hashed.init
  rw [saveText_lines] at he
  have hpre : t <+: unlines (dimText n m :: l.map entryText ++ ["0 0 0".toList]) := ⟨u, he.symm⟩
  rcases prefix_unlines hpre with rfl | ⟨l1, c, l2, b, h1, h2, rfl⟩
  · exact absurd (by simpa using he) hu
  cases l1 with
  | nil =>
    simp only [List.cons_append, List.nil_append, List.cons.injEq] at h1
    obtain ⟨rfl, -⟩ := h1
    have hs := short_prefix h2 (dimText_header hn hm).1
    rw [show unlines [] ++ b = b from rfl]
    unfold triplet_load load_header
    by_cases hne : b = []
    · subst hne; rfl
    obtain ⟨ctx', g1, g2⟩ := read_line_last jw hs hne [] hc
    rw [g1]
    simp only [ok_bind_eq]
    rw [if_neg (take_not_mm h2)]
    rcases scan2c_prefix (by omega) (by omega) h2 with hx | hx
    · rw [hx]; rfl
    · rw [hx]
      simp only [ok_bind_eq]
      rw [if_neg (by simp)]
      simp only [ok_bind_eq]
      obtain ⟨T, k1, -⟩ := Ok_iff.mp (load_alloc_spec jk hp (h := ⟨false, n, m, 1⟩) (by simp) (by simp) (by simp))
      rw [k1]
      simp only [ok_bind_eq]
      rw [while_err (by simp) (load_step_eof jk jw _ rfl rfl)]
      rfl
  | cons d l1 =>
    simp only [List.cons_append, List.cons.injEq] at h1
    obtain ⟨rfl, h1⟩ := h1
    unfold triplet_load
    rw [unlines_cons, List.append_assoc, List.cons_append]
    obtain ⟨⟨hd, f', ctx⟩, k0, a1, a2, -, done, a4⟩ := Ok_iff.mp (load_header_sms jw (dimText_header hn hm) (by omega)
      (by omega) (unlines l1 ++ b) prime hc)
    simp only at a1 a2 a4
    subst a1 a2
    rw [k0]
    simp only [ok_bind_eq]
    obtain ⟨T, k1, b1, b2, b3⟩ := Ok_iff.mp (load_alloc_spec jk hp (h := ⟨false, n, m, 1⟩) (by simp) (by simp)
      (by simp))
    simp only at b1
    rw [k1]
    simp only [ok_bind_eq]
    -- the complete lines and the one that is not complete
    have hcase : ∃ l', List.Forall₂ EntryLine l1 l' ∧ (∀ e ∈ l', FitsEntry e) ∧ Short b ∧
        (scan3 b = .ok none ∨ ∃ e', scan3 b = .ok (some e') ∧ FitsEntry e') := by
      have hlines : List.Forall₂ EntryLine (l.map entryText) (fromOne l) := by
        unfold fromOne
        rw [List.forall₂_map_left_iff, List.forall₂_map_right_iff, List.forall₂_same]
        intro e he
        exact entryText_line h he
      rcases List.append_eq_append_iff.mp h1 with ⟨w, g1, g2⟩ | ⟨w, g1, g2⟩
      · -- the line of zeroes
        cases w with
        | cons x w =>
          simp only [List.cons_append, List.cons.injEq] at g2
          exact absurd g2.2 (by simp)
        | nil =>
          simp only [List.nil_append, List.cons.injEq] at g2
          obtain ⟨rfl, rfl⟩ := g2
          rw [List.append_nil] at g1
          subst g1
          refine ⟨_, hlines, hfit, short_prefix h2 zero_short, .inl (scan3_zero h2 ?_)⟩
          rintro rfl
          apply hu'
          rw [List.cons_append, unlines_cons, unlines_cons, unlines_append] at he
          simpa [unlines] using he.symm
      · cases w with
        | nil =>
          simp only [List.nil_append, List.cons.injEq] at g2
          obtain ⟨rfl, -⟩ := g2
          rw [List.append_nil] at g1
          rw [g1] at hlines
          refine ⟨_, hlines, hfit, short_prefix h2 zero_short, .inl (scan3_zero h2 ?_)⟩
          rintro rfl
          apply hu'
          rw [g1, List.cons_append, unlines_cons, unlines_cons, unlines_append] at he
          simpa [unlines] using he.symm
        | cons x w =>
          simp only [List.cons_append, List.cons.injEq] at g2
          obtain ⟨rfl, -⟩ := g2
          rw [g1] at hlines
          obtain ⟨m1, m2, hm12, k3, k4⟩ := forall₂_split hlines
          have hmem : c ∈ l.map entryText := by rw [g1]; simp
          obtain ⟨e, he1, rfl⟩ := List.mem_map.mp hmem
          refine ⟨m1, k3, fun e' he' => hfit e' (by rw [hm12]; simp [he']), short_prefix h2 (entryText_line h he1).1, ?_⟩
          refine scan3_prefix (e := ((e.1 : Int) + 1, (e.2.1 : Int) + 1, e.2.2)) (hfit _ ?_) ?_
          · unfold fromOne; exact List.mem_map.mpr ⟨e, he1, rfl⟩
          · simpa [entryText] using h2
    obtain ⟨l', k2, k3, k4, k5⟩ := hcase
    have hlen := unlines_length l1
    have hlen2 : (unlines l1 ++ b).length = (unlines l1).length + b.length := List.length_append
    obtain ⟨s', done', e1, e2, e3, e4, e5⟩ := load_entries_eq jk jw ⟨false, n, m, 1⟩ rfl b2 b k2 k3 []
      ⟨T, unlines l1 ++ b, ctx, false, 0⟩ ((unlines l1 ++ b).length + 1) done (by omega) b1 rfl rfl a4
    rw [e1, load_last jk jw ⟨false, n, m, 1⟩ rfl b2 (by omega) e2 e3 e4 e5 k4 k5]
    rfl

/-- A file that lacks only its last newline is read. -/
theorem load_newline (jk : Junk) (jw : Nat → W) {vals : Bool} {q : ℕ} {prime : Int} (hp : LoadField vals q prime)
    {n m : Nat} {l : List (Nat × Nat × Int)} (h : Fits n m l) {hash : Option (Array B)}
    (hh : ∀ md, hash = some md → md.size = 32) :
    Ok (triplet_load jk jw (saveText n m l).dropLast prime hash) (fun r => Loaded vals q n m (fromOne l) r.1 ∧
      r.1.F.p = prime) := by
  have hn := h.n_lt
  have hm := h.m_lt
  have hc : CtxOk [] (hash.map fun _ => SHA256_init) := by
    intro c hc
    obtain ⟨_, _, rfl⟩ := Option.map_eq_some_iff.mp hc
    exact Hashed.init
  have e : (saveText n m l).dropLast = dimText n m ++ '\n' :: (unlines (l.map entryText) ++ "0 0 0".toList) := by
    rw [saveText_lines, List.cons_append, unlines_cons, unlines_append,
      show unlines ["0 0 0".toList] = "0 0 0".toList ++ ['\n'] from by simp [unlines],
      ← List.append_assoc, ← List.cons_append, ← List.append_assoc, List.dropLast_concat]
  rw [e]
  unfold triplet_load
  rw [Ok_bind]
  refine (load_header_sms jw (dimText_header hn hm) (by omega) (by omega) _ prime hc).mono ?_
  rintro ⟨hd, f', ctx⟩ ⟨a1, a2, -, done, a4⟩
  simp only at a1 a2 a4
  subst a1 a2
  simp only
  rw [Ok_bind]
  refine (load_alloc_spec jk hp (h := ⟨false, n, m, 1⟩) (by simp) (by simp) (by simp)).mono ?_
  rintro T ⟨b1, b2, b3⟩
  simp only at b1
  have hlines : List.Forall₂ EntryLine (l.map entryText) (fromOne l) := by
    unfold fromOne
    rw [List.forall₂_map_left_iff, List.forall₂_map_right_iff, List.forall₂_same]
    intro e he
    exact entryText_line h he
  have hlen := unlines_length (l.map entryText)
  have hlen2 : (unlines (l.map entryText) ++ "0 0 0".toList).length = (unlines (l.map entryText)).length + 5 :=
    List.length_append
  obtain ⟨s', done', e1, e2, e3, e4, e5⟩ := load_entries_eq jk jw ⟨false, n, m, 1⟩ rfl b2 "0 0 0".toList hlines
    (fits_one h) [] ⟨T, unlines (l.map entryText) ++ "0 0 0".toList, ctx, false, 0⟩
    ((unlines (l.map entryText) ++ "0 0 0".toList).length + 1) done (by omega) b1 rfl rfl a4
  rw [e1]
  obtain ⟨ctx', g1, g2⟩ := read_line_last jw zero_short (by decide) done' e5
  have hstep : load_step jk jw ⟨false, n, m, 1⟩ s' = .ok (.cont ⟨s'.T, [], ctx', true, s'.entries⟩) := by
    unfold load_step
    rw [e3, g1]
    show (if s'.fin = true then _ else _) = _
    rw [e4]
    rfl
  rw [while_cont (by omega) hstep]
  have hstep2 : load_step jk jw ⟨false, n, m, 1⟩ ⟨s'.T, [], ctx', true, s'.entries⟩ =
      .ok (.brk ⟨s'.T, [], ctx', true, s'.entries⟩) := rfl
  have hw : (whileFuel ((unlines (l.map entryText) ++ "0 0 0".toList).length + 1 - (l.map entryText).length - 1)
      ⟨s'.T, [], ctx', true, s'.entries⟩ fun s => load_step jk jw ⟨false, n, m, 1⟩ s) =
      .ok ⟨s'.T, [], ctx', true, s'.entries⟩ := by
    obtain ⟨k, hk⟩ : ∃ k, (unlines (l.map entryText) ++ "0 0 0".toList).length + 1 - (l.map entryText).length - 1 =
      k + 1 := ⟨(unlines (l.map entryText) ++ "0 0 0".toList).length + 1 - (l.map entryText).length - 2, by omega⟩
    rw [hk, whileFuel, hstep2]; rfl
  rw [hw, Ok_bind, Ok_ok]
  refine (load_end_spec jk jw _ (s := ⟨s'.T, [], ctx', true, s'.entries⟩) e2 g2 hh).mono ?_
  rintro r ⟨k1, k2, k3⟩
  exact ⟨k1, by rw [k2, b3]⟩

/-! ### Certificates -/

theorem load_list_white {r : Nat} (a : Array Int) {w : List Char} (hw : White w) :
    ∃ w', White w' ∧ load_list r a w = .ok (a, w') := by
  have key : Ok (load_list r a w) (fun s => s.1 = a ∧ White s.2) := by
    unfold load_list
    refine Ok_forRange (I := fun _ (s : Array Int × List Char) => s.1 = a ∧ White s.2) (Nat.zero_le r) ⟨rfl, hw⟩ ?_
    rintro k s - - ⟨g1, g2⟩
    have e : scanD 31 s.2 = .ok (none, []) := by
      unfold scanD scanInt
      have : skipWs s.2 = [] := by
        have := skipWs_white g2 []
        rw [List.append_nil] at this
        rw [this]; rfl
      rw [this]; rfl
    rw [e]
    exact ⟨g1, white_nil⟩
  obtain ⟨⟨x, w'⟩, h1, h2, h3⟩ := Ok_iff.mp key
  simp only at h2 h3
  subst h2
  exact ⟨w', h3, h1⟩

/-- The first three lines of a certificate. -/
def certHead (c : Cert) : List Char := fmtD c.r ++ '\n' :: (fmtD c.prime ++ '\n' :: (hashText c.hash ++ ['\n']))

theorem certText_head (c : Cert) : certHead c <+: certText c := by
  refine ⟨listText c.i.toList ++ ['\n'] ++ listText c.j.toList ++ ['\n'] ++ listText c.x.toList ++ ['\n'] ++
    listText c.y.toList ++ ['\n'], ?_⟩
  unfold certHead certText
  simp

theorem cert_load_head (jk : Junk) (jc : Nat → Char) {c0 c : Cert} (h0 : c0.hash.size = 32) (h : c.Fits) :
    certificate_load jk jc c0 (certHead c) = .ok (true, ⟨c.r, c.prime, c.hash, mkArr c.r jk.int, mkArr c.r jk.int,
      mkArr c.r jk.int, mkArr c.r jk.int⟩) := by
  have hr := h.r_lt
  have e : certHead c = [] ++ (fmtD c.r ++ ('\n' :: (fmtD c.prime ++ ('\n' :: (hashText c.hash ++ ['\n']))))) := by
    unfold certHead; simp
  rw [e]
  unfold certificate_load
  have hnl : ∀ s : List Char, ∀ d, ('\n' :: s).head? = some d → d.isDigit = false := by
    intro s d hd; simp at hd; subst hd; decide
  rw [scanD_white white_nil (by omega) (by omega) (hnl _)]
  simp only [ok_bind_eq]
  rw [← List.singleton_append (l := fmtD c.prime ++ _), scanD_white white_nl h.prime_ge h.prime_lt (hnl _)]
  simp only [ok_bind_eq]
  have hl : (hashText c.hash).length = 64 := by
    unfold hashText; rw [flatMap_pair_length]; simp [h.hash_size]
  have hmem : ∀ d ∈ hashText c.hash, isspace d = false ∧ d ≠ '\n' ∧ d.toNat ≠ 0 := by
    intro d hd
    obtain ⟨b, -, hb⟩ := List.mem_flatMap.mp hd
    exact hex_ok b d hb
  rw [← List.singleton_append (l := hashText c.hash ++ _), skipWs_white white_nl, skipWs_head]
  · rw [if_neg (by
      intro h1
      rw [List.isEmpty_iff, List.append_eq_nil_iff] at h1
      simp at h1)]
    have ht := takeLine_full (hashText c.hash) ['\n'] (fun hm => (hmem _ hm).2.1 rfl)
    rw [hl] at ht
    rw [ht]
    simp only
    obtain ⟨x, h1, h2⟩ := Ok_iff.mp (load_hash_spec jc h0 h.hash_size)
    rw [h1, h2]
    simp only [ok_bind_eq]
    rw [show (c.r : Int).toNat = c.r by omega]
    obtain ⟨w1, g1, e1⟩ := load_list_white (r := c.r) (mkArr c.r jk.int) white_nl
    rw [e1]
    simp only [ok_bind_eq]
    obtain ⟨w2, g2, e2⟩ := load_list_white (r := c.r) (mkArr c.r jk.int) g1
    rw [e2]
    simp only [ok_bind_eq]
    obtain ⟨w3, g3, e3⟩ := load_list_white (r := c.r) (mkArr c.r jk.int) g2
    rw [e3]
    simp only [ok_bind_eq]
    obtain ⟨w4, g4, e4⟩ := load_list_white (r := c.r) (mkArr c.r jk.int) g3
    rw [e4]
    rfl
  · intro d hd
    have : d ∈ hashText c.hash := by
      cases hx : hashText c.hash with
      | nil => rw [hx] at hl; simp at hl
      | cons y z =>
        rw [hx] at hd
        simp only [List.cons_append, List.head?_cons, Option.some.injEq] at hd
        subst hd; simp
    exact (hmem d this).1

/-- A file that ends before the third line is refused. -/
theorem cert_load_short (jk : Junk) (jc : Nat → Char) (c0 : Cert) {c : Cert} (h : c.Fits) {t : List Char}
    (ht : t <+: fmtD c.r ++ '\n' :: (fmtD c.prime ++ ['\n'])) :
    Ok (certificate_load jk jc c0 t) (fun x => x.1 = false) := by
  have hr := h.r_lt
  have hp1 := h.prime_ge
  have hp2 := h.prime_lt
  unfold certificate_load
  have nil : ∀ {x : Int} {bits : Nat}, -2 ^ bits ≤ x → x < 2 ^ bits → ∀ {w : List Char}, White w →
      scanD bits (w ++ fmtD x) = .ok (some x, []) := by
    intro x bits a1 a2 w hw
    have := scanD_white (bits := bits) hw a1 a2 (s := []) (by simp)
    simpa using this
  rcases prefix_append_cases ht with ht | ⟨u, rfl, hu⟩
  · rcases prefix_fmtD ht with rfl | rfl | ⟨x, rfl, a1, -, a3⟩
    · rfl
    · rfl
    · have := a3 (by omega)
      rw [abs_of_nonneg this, abs_of_nonneg (by omega)] at a1
      rw [scanD_full (by omega) (by omega)]
      rfl
  · cases u with
    | nil =>
      rw [List.append_nil, scanD_full (by omega) (by omega)]
      rfl
    | cons d u =>
      obtain ⟨rfl, hp⟩ := List.cons_prefix_cons.mp hu
      have e1 : scanD 31 (fmtD c.r ++ '\n' :: u) = .ok (some (c.r : Int), '\n' :: u) := by
        have := scanD_white (bits := 31) white_nil (x := (c.r : Int)) (by omega) (by omega) (s := '\n' :: u)
          (by intro d hd; simp at hd; subst hd; decide)
        simpa using this
      rw [e1]
      simp only [ok_bind_eq]
      rcases prefix_append_cases hp with hp | ⟨v, rfl, hv⟩
      · rcases prefix_fmtD hp with rfl | rfl | ⟨x, rfl, a1, a2, a3⟩
        · rfl
        · rfl
        · by_cases hb : -2 ^ 63 ≤ x ∧ x < 2 ^ 63
          · have := nil (bits := 63) hb.1 hb.2 white_nl
            rw [List.singleton_append] at this
            rw [this]
            rfl
          · exfalso
            rcases lt_or_ge c.prime 0 with hx | hx
            · rw [abs_of_neg hx] at a1
              have := abs_le.mp a1
              have hx' : ¬ x < 0 := by omega
              unfold fmtD at hp
              rw [if_neg hx', if_pos hx] at hp
              cases hd : Nat.toDigits 10 x.natAbs with
              | nil => exact digits_ne_nil _ hd
              | cons c' r =>
                rw [hd] at hp
                have h9 := (List.cons_prefix_cons.mp hp).1
                have := isDigit_digits c' (by rw [hd]; simp)
                rw [h9] at this
                exact absurd this (by decide)
            · have := a3 hx
              rw [abs_of_nonneg hx, abs_of_nonneg this] at a1
              omega
      · have hw : White v := by
          intro d hd
          have := hv.subset hd
          rw [List.mem_singleton.mp this]; decide
        have e2 : scanD 63 ('\n' :: (fmtD c.prime ++ v)) = .ok (some c.prime, v) := by
          have := scanD_white (bits := 63) white_nl hp1 hp2 (s := v) (by
            intro d hd
            cases v with
            | nil => cases hd
            | cons y v =>
              simp only [List.head?_cons, Option.some.injEq] at hd
              subst hd
              have := hv.subset (List.mem_cons_self)
              rw [List.mem_singleton.mp this]; decide)
          simpa using this
        rw [e2]
        simp only [ok_bind_eq]
        have : skipWs v = [] := by
          have := skipWs_white hw []
          rw [List.append_nil] at this
          rw [this]; rfl
        rw [this]
        rfl

end Spasm
