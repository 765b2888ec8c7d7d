import Verif.Proofs.Load

namespace Spasm

open Sha

/-! ### Headers -/

theorem number_head {w : List Char} (hw : Blank w) (x : Int) (s : List Char) :
    ∀ c, (w ++ (fmtD x ++ s)).head? = some c → c ≠ '%' := by
  intro c hc
  cases w with
  | nil =>
    cases h : fmtD x with
    | nil => exact absurd h (fmtD_ne_nil x)
    | cons d t =>
      rw [h] at hc
      simp only [List.nil_append, List.cons_append, List.head?_cons, Option.some.injEq] at hc
      subst hc
      rcases mem_fmtD (x := x) (c := d) (by rw [h]; simp) with h1 | h1
      · subst h1; decide
      · rintro rfl; exact absurd h1 (by decide)
  | cons d t =>
    simp only [List.cons_append, List.head?_cons, Option.some.injEq] at hc
    subst hc
    rcases hw d (by simp) with rfl | rfl <;> decide

theorem EntryLine.head {b : List Char} {e : Int × Int × Int} (h : EntryLine b e) (s : List Char) :
    (b ++ s).head? ≠ some '%' := by
  obtain ⟨-, w1, w2, w3, t, b1, b2, b3, n2, n3, ht, rfl⟩ := h
  simp only [dec_eq, List.append_assoc]
  exact fun h => number_head b1 e.1 _ _ h rfl

theorem HeaderLine.head {b : List Char} {n m : Int} (h : HeaderLine b n m) (s : List Char) :
    (b ++ s).head? ≠ some '%' := by
  obtain ⟨-, w1, w2, w3, t, b1, b2, b3, n2, rfl⟩ := h
  simp only [dec_eq, List.append_assoc]
  exact fun h => number_head b1 n _ _ h rfl

/-- The header of a SMS file. -/
theorem load_header_sms (jw : Nat → W) {b : List Char} {n m : Int} (hb : HeaderLine b n m)
    (hn : -2 ^ 31 ≤ n ∧ n < 2 ^ 31) (hm : -2 ^ 31 ≤ m ∧ m < 2 ^ 31) (rest : List Char) (prime : Int)
    {ctx : Option Ctx} (hc : CtxOk [] ctx) :
    Ok (load_header jw (b ++ '\n' :: rest) prime ctx) (fun r => r.1 = ⟨false, n, m, 1⟩ ∧ r.2.1 = rest ∧
      r.2.2.isSome = ctx.isSome ∧ ∃ done, CtxOk done r.2.2) := by
  unfold load_header
  rw [Ok_bind]
  refine (read_line_short jw hb.1 rest [] hc).mono ?_
  rintro ⟨x, f', ctx'⟩ ⟨h1, h2, h3, h4⟩
  simp only at h1 h2 h3 h4
  subst h1 h2
  simp only
  rw [if_neg]
  · rw [scan2c_header hb hn hm, Ok_bind, Ok_ok]
    simp only
    rw [if_neg (by simp), Ok_ok]
    exact ⟨rfl, rfl, h3, _, h4⟩
  · intro h
    have := hb.head ['\n']
    cases hbb : b ++ ['\n'] with
    | nil => rw [hbb] at h; exact absurd h (by decide)
    | cons c t =>
      rw [hbb] at h this
      simp only [List.take_succ_cons] at h
      have h5 : c = '%' := by
        have := congrArg List.head? h
        simpa using this
      exact this (by rw [h5]; rfl)

theorem toLower_space {c : Char} (h : isspace c = true) : c.toLower = c := by
  have h1 : c.toNat < 65 := by
    unfold isspace at h
    simp only [Bool.or_eq_true, decide_eq_true_eq, Bool.and_eq_true] at h
    rcases h with rfl | h
    · decide
    · omega
  unfold Char.toLower
  rw [dif_neg]
  intro h2
  have : 65 ≤ c.toNat := h2.1
  omega

theorem word_no_space {a : List Char} {s : List Char} (h : a.map Char.toLower = s)
    (hs : ∀ c ∈ s, isspace c = false) : ∀ c ∈ a, isspace c = false := by
  intro c hc
  by_contra hsp
  rw [Bool.not_eq_false] at hsp
  have h1 : c.toLower ∈ s := by rw [← h]; exact List.mem_map_of_mem hc
  rw [toLower_space hsp] at h1
  rw [hs c h1] at hsp
  cases hsp

/-- Reading a word. -/
theorem scanS_word {w a s : List Char} (hw : Blank w) (ha : ∀ c ∈ a, isspace c = false) (hne : a ≠ [])
    (hl : a.length < 1024) (hs : ∀ c, s.head? = some c → isspace c = true) :
    scanS 1024 (skipWs (w ++ (a ++ s))) = .ok (some a, s) := by
  have h2 : skipWs (a ++ s) = a ++ s := by
    apply skipWs_head
    intro c hc
    cases a with
    | nil => exact absurd rfl hne
    | cons d t =>
      simp only [List.cons_append, List.head?_cons, Option.some.injEq] at hc
      subst hc
      exact ha d (by simp)
  have h1 : skipWs (w ++ (a ++ s)) = a ++ s := by rw [skipWs_append hw, h2]
  have h3 : (a ++ s).takeWhile (fun c => !isspace c) = a ∧ (a ++ s).dropWhile (fun c => !isspace c) = s := by
    rw [List.takeWhile_append_of_pos (by intro c hc; simp [ha c hc]),
      List.dropWhile_append_of_pos (by intro c hc; simp [ha c hc])]
    cases s with
    | nil => simp
    | cons c s =>
      have := hs c rfl
      rw [List.takeWhile_cons_of_neg (by simp [this]), List.dropWhile_cons_of_neg (by simp [this])]
      simp
  unfold scanS
  simp only
  rw [h1, h2, h3.1, h3.2, if_neg (by simp [hne]), if_pos hl]

theorem blank_head_space {w : List Char} (hw : Blank w) (hne : w ≠ []) (s : List Char) :
    ∀ c, (w ++ s).head? = some c → isspace c = true := by
  intro c hc
  cases w with
  | nil => exact absurd rfl hne
  | cons d t =>
    simp only [List.cons_append, List.head?_cons, Option.some.injEq] at hc
    subst hc
    exact blank_space hw d (by simp)

theorem map_ne_nil {a s : List Char} (h : a.map Char.toLower = s) (hs : s ≠ []) : a ≠ [] := by
  rintro rfl
  exact hs (by rw [← h]; rfl)

/-- The first line of a MatrixMarket file is accepted. -/
theorem validate_spec {b : List Char} (h : MmLine b) : validate_mm_header (b ++ ['\n']) = .ok () := by
  obtain ⟨hsh, w1, w2, w3, w4, a1, a2, a3, a4, t, b1, b2, b3, b4, n2, n3, n4, m1, m2, m3, m4, ht, rfl⟩ := h
  have hlen := hsh.len
  simp only [List.length_append] at hlen
  have e0 : ("%%MatrixMarket".toList ++ w1 ++ a1 ++ w2 ++ a2 ++ w3 ++ a3 ++ w4 ++ a4 ++ t ++ ['\n']).drop 14 =
      w1 ++ (a1 ++ (w2 ++ (a2 ++ (w3 ++ (a3 ++ (w4 ++ (a4 ++ (t ++ ['\n'])))))))) := by
    simp only [List.append_assoc]
    exact List.drop_left' (by decide)
  unfold validate_mm_header
  rw [e0, scanS_word b1 (word_no_space m1 (by decide)) (map_ne_nil m1 (by decide)) (by omega)
    (blank_head_space b2 n2 _)]
  show (scanS 1024 (skipWs (w2 ++ _)) >>= _) = _
  rw [scanS_word b2 (word_no_space m2 (by decide)) (map_ne_nil m2 (by decide)) (by omega)
    (blank_head_space b3 n3 _)]
  show (scanS 1024 (skipWs (w3 ++ _)) >>= _) = _
  rw [scanS_word b3 (word_no_space m3 (by decide)) (map_ne_nil m3 (by decide)) (by omega)
    (blank_head_space b4 n4 _)]
  show (scanS 1024 (skipWs (w4 ++ _)) >>= _) = _
  rw [scanS_word b4 (word_no_space m4 (by decide)) (map_ne_nil m4 (by decide)) (by omega) ?_]
  · show (if a1.map Char.toLower ≠ "matrix".toList then (.error .exitErr : C Unit)
      else if a2.map Char.toLower ≠ "coordinate".toList then .error .exitErr
      else if a3.map Char.toLower ≠ "integer".toList then .error .exitErr
      else if a4.map Char.toLower ≠ "general".toList then .error .exitErr
      else .ok ()) = _
    rw [if_neg (not_not.mpr m1), if_neg (not_not.mpr m2), if_neg (not_not.mpr m3), if_neg (not_not.mpr m4)]
  · intro c hc
    cases t with
    | nil =>
      simp only [List.nil_append, List.head?_cons, Option.some.injEq] at hc
      subst hc; decide
    | cons d t =>
      simp only [List.cons_append, List.head?_cons, Option.some.injEq] at hc
      subst hc
      rcases ht d rfl with rfl | rfl <;> decide

/-- The comments. -/
theorem skip_comments_spec (jw : Nat → W) {d : List Char} (hd : Short d) (hd' : (d ++ ['\n']).head? ≠ some '%')
    (rest : List Char) {Q : List Char × List Char × Option Ctx → Prop} :
    ∀ (cs : List (List Char)), (∀ b ∈ cs, Short b ∧ b.head? = some '%') → ∀ (fuel : Nat) (x done : List Char)
      (ctx : Option Ctx), CtxOk done ctx → cs.length < fuel →
      (∀ ctx' done', ctx'.isSome = ctx.isSome → CtxOk done' ctx' → Q (d ++ ['\n'], rest, ctx')) →
      Ok (whileFuel fuel (x, unlines cs ++ (d ++ '\n' :: rest), ctx) fun s => do
        let (l, f, ctx) ← read_line jw s.2.1 s.2.2
        match l with
        | none => .error .exitErr
        | some buffer =>
          if buffer.head? ≠ some '%' then .ok (.brk (buffer, f, ctx)) else .ok (.cont (buffer, f, ctx))) Q := by
  intro cs
  induction cs with
  | nil =>
    intro _ fuel x done ctx hc hfuel hQ
    refine Ok_whileFuel_succ (by simpa using hfuel) ?_
    rw [Ok_bind]
    refine (read_line_short jw hd rest done hc).mono ?_
    rintro ⟨y, f', ctx'⟩ ⟨h1, h2, h3, h4⟩
    simp only at h1 h2 h3 h4
    subst h1 h2
    simp only
    rw [if_pos hd', Ok_ok]
    exact hQ ctx' _ h3 h4
  | cons b cs ih =>
    intro hcs fuel x done ctx hc hfuel hQ
    simp only [List.length_cons] at hfuel
    refine Ok_whileFuel_succ (by omega) ?_
    obtain ⟨hb, hb'⟩ := hcs b (by simp)
    rw [Ok_bind]
    have e : unlines (b :: cs) ++ (d ++ '\n' :: rest) = b ++ '\n' :: (unlines cs ++ (d ++ '\n' :: rest)) := by
      rw [unlines_cons]; simp
    simp only
    rw [e]
    refine (read_line_short jw hb _ done hc).mono ?_
    rintro ⟨y, f', ctx'⟩ ⟨h1, h2, h3, h4⟩
    simp only at h1 h2 h3 h4
    subst h1 h2
    simp only
    rw [if_neg, Ok_ok]
    · refine ih (fun b hb => hcs b (by simp [hb])) (fuel - 1) _ _ ctx' h4 (by omega) ?_
      intro c2 d2 g1 g2
      exact hQ c2 d2 (g1.trans h3) g2
    · cases b with
      | nil => cases hb'
      | cons c t => simpa using hb'

/-- The header of a MatrixMarket file. -/
theorem load_header_mm (jw : Nat → W) {b d : List Char} {cs : List (List Char)} {n m z : Int} (hb : MmLine b)
    (hcs : ∀ b ∈ cs, Short b ∧ b.head? = some '%') (hd : EntryLine d (n, m, z))
    (hn : -2 ^ 31 ≤ n ∧ n < 2 ^ 31) (hm : -2 ^ 31 ≤ m ∧ m < 2 ^ 31) (hz : -2 ^ 63 ≤ z ∧ z < 2 ^ 63)
    (rest : List Char) (prime : Int) {ctx : Option Ctx} (hc : CtxOk [] ctx) :
    Ok (load_header jw (b ++ '\n' :: (unlines cs ++ (d ++ '\n' :: rest))) prime ctx) (fun r =>
      r.1 = ⟨true, n, m, z⟩ ∧ r.2.1 = rest ∧ r.2.2.isSome = ctx.isSome ∧ ∃ done, CtxOk done r.2.2) := by
  unfold load_header
  rw [Ok_bind]
  refine (read_line_short jw hb.1 _ [] hc).mono ?_
  rintro ⟨x, f', ctx'⟩ ⟨h1, h2, h3, h4⟩
  simp only at h1 h2 h3 h4
  subst h1 h2
  simp only
  rw [if_pos, validate_spec hb, Ok_bind, Ok_ok, Ok_bind]
  · unfold skip_comments
    refine skip_comments_spec jw hd.1 (hd.head _) rest cs hcs _ _ _ ctx' h4 ?_ ?_
    · have := unlines_length cs
      simp only [List.length_append]
      omega
    · intro c2 d2 g1 g2
      simp only
      rw [scan3_entry hd hn hm hz, Ok_bind, Ok_ok]
      exact ⟨rfl, rfl, g1.trans h3, d2, g2⟩
  · obtain ⟨-, w1, w2, w3, w4, a1, a2, a3, a4, t, -, -, -, -, -, -, -, -, -, -, -, -, rfl⟩ := hb
    simp only [List.append_assoc]
    exact List.take_left' (by decide)

/-! ### Whole files -/

/-- The field of the matrix read. -/
def LoadField (vals : Bool) (q : ℕ) (prime : Int) : Prop :=
  (vals = true ∧ prime = q ∧ 2 ≤ q ∧ q ≤ 0xfffffffb) ∨ (vals = false ∧ prime = -1)

theorem load_alloc_spec (jk : Junk) {vals : Bool} {q : ℕ} {prime : Int} (hp : LoadField vals q prime) {h : Header}
    (hn : 0 ≤ h.n) (hm : 0 ≤ h.m) (hz : 0 ≤ h.nnz) :
    Ok (load_alloc jk h prime) (fun T => LInv vals q T.F h.n h.m [] T ∧ (vals = true → T.F.Good q) ∧
      T.F.p = prime) := by
  unfold load_alloc
  rw [if_neg (by omega), if_neg (by omega)]
  unfold triplet_alloc
  rw [Ok_bind]
  have key : ∀ F : Field, (F.p < 0 ∨ (2 ≤ F.p ∧ F.p ≤ 0xfffffffb)) → decide (prime ≠ -1) = vals →
      LInv vals q F h.n h.m [] ⟨h.n.toNat, h.m.toNat, 0, mkArr h.nnz.toNat jk.nat, mkArr h.nnz.toNat jk.nat,
        if decide (prime ≠ -1) = true then some (mkArr h.nnz.toNat jk.int) else none, F⟩ := by
    intro F hF hv
    refine ⟨⟨⟨by simp, by simp, ?_, by intro k hk; simp at hk, by intro k hk; simp at hk, hF⟩, ?_, ?_, ?_⟩,
      rfl, ?_⟩
    · intro a ha
      simp only at ha
      split at ha
      · simp only [Option.some.injEq] at ha
        rw [← ha]; simp
      · cases ha
    · simp only [List.filter_nil, List.foldl_nil]; omega
    · simp only [List.filter_nil, List.foldl_nil]; omega
    · simp [Triplet.lst]
    · rw [← hv]
      by_cases h : prime = -1 <;> simp [h]
  rcases hp with ⟨rfl, rfl, h2, hq⟩ | ⟨rfl, rfl⟩
  · refine (field_init_good q h2 hq).mono ?_
    intro F hF
    have hpq := hF.p_eq
    refine ⟨key F (.inr ⟨by omega, by omega⟩) (by simp), fun _ => hF, hpq⟩
  · unfold field_init
    rw [if_pos (by decide), Ok_ok, Ok_ok]
    exact ⟨key _ (.inl (show (-1 : Int) < 0 by decide)) (by decide), by simp, rfl⟩

/-- A SMS file is read correctly. -/
theorem triplet_load_sms (jk : Junk) (jw : Nat → W) {vals : Bool} {q : ℕ} {prime : Int}
    (hp : LoadField vals q prime) {f : List Char} {n m : Int} {l : List (Int × Int × Int)} (hf : IsSms f n m l)
    (hn : 0 ≤ n ∧ n < 2 ^ 31) (hm : 0 ≤ m ∧ m < 2 ^ 31) (hl : ∀ e ∈ l, FitsEntry e) {hash : Option (Array B)}
    (hh : ∀ md, hash = some md → md.size = 32) :
    Ok (triplet_load jk jw f prime hash) (fun r => Loaded vals q n m l r.1 ∧ r.1.F.p = prime ∧
      (vals = true → r.1.F.Good q) ∧ (0 < r.1.nz → r.1.x.isSome = vals)) := by
  obtain ⟨h, tl, z, g, h1, h2, h3, h4, rfl⟩ := hf
  unfold triplet_load
  rw [List.cons_append, unlines_cons, Ok_bind]
  have hc : CtxOk [] (hash.map fun _ => SHA256_init) := by
    intro c hc
    obtain ⟨_, _, rfl⟩ := Option.map_eq_some_iff.mp hc
    exact Hashed.init
  refine (load_header_sms jw h1 ⟨by omega, hn.2⟩ ⟨by omega, hm.2⟩ _ prime hc).mono ?_
  rintro ⟨hd, f', ctx⟩ ⟨a1, a2, -, done, a4⟩
  simp only at a1 a2 a4
  subst a1 a2
  simp only
  rw [Ok_bind]
  refine (load_alloc_spec jk hp (h := ⟨false, n, m, 1⟩) hn.1 hm.1 (by simp)).mono ?_
  rintro T ⟨b1, b2, b3⟩
  simp only at b1
  rw [Ok_bind]
  have hlen := unlines_length (tl ++ z :: g)
  simp only [List.length_append, List.length_cons] at hlen
  refine load_entries jk jw ⟨false, n, m, 1⟩ b2 (unlines (z :: g)) h2 hl [] _ _ done (by omega) b1
    (by simp only; rw [unlines_append]) rfl a4 (by simp) ?_
  intro s done' c1 c2 c3 c4 c5 c6
  rw [List.nil_append] at c1
  refine Ok_whileFuel_succ (by omega) ?_
  have hstep : Ok (load_step jk jw ⟨false, n, m, 1⟩ s) (fun r => ∃ ctx' done'', CtxOk done'' ctx' ∧
      r = .cont ⟨s.T, unlines g, ctx', true, s.entries⟩) := by
    unfold load_step
    rw [Ok_bind, c2, unlines_cons]
    refine (read_line_short jw h3.1 _ done' c5).mono ?_
    rintro ⟨x, f', ctx'⟩ ⟨d1, d2, d3, d4⟩
    simp only at d1 d2 d3 d4
    subst d1 d2
    simp only
    rw [if_neg (by rw [c4]; simp)]
    unfold load_line
    rw [scan3_entry h3 (by simp) (by simp) (by simp)]
    simp only [Ok_bind, Ok_ok]
    rw [if_pos ⟨trivial, trivial, trivial⟩, if_neg (by simp)]
    exact ⟨ctx', _, d4, rfl⟩
  refine hstep.mono ?_
  rintro r ⟨ctx', done'', d1, rfl⟩
  simp only
  refine (load_garbage jk jw _ g h4 _ _ done'' (by omega) rfl rfl d1).mono ?_
  rintro s' ⟨e1, e2, done3, e3⟩
  simp only at e1 e2
  refine (load_end_spec jk jw _ (by rw [e1]; exact c1) e3 hh).mono ?_
  rintro r ⟨g1, g2, g3⟩
  exact ⟨g1, by rw [g2, b3], fun h => by rw [g2]; exact b2 h, g3⟩

/-- A MatrixMarket file with at least one entry is read correctly. -/
theorem triplet_load_mm (jk : Junk) (jw : Nat → W) {vals : Bool} {q : ℕ} {prime : Int}
    (hp : LoadField vals q prime) {f : List Char} {n m : Int} {l : List (Int × Int × Int)} (hf : IsMm f n m l)
    (hn : 0 ≤ n ∧ n < 2 ^ 31) (hm : 0 ≤ m ∧ m < 2 ^ 31) (hl : ∀ e ∈ l, FitsEntry e) (hne : l ≠ [])
    (hlen : l.length < 2 ^ 63) {hash : Option (Array B)} (hh : ∀ md, hash = some md → md.size = 32) :
    Ok (triplet_load jk jw f prime hash) (fun r => Loaded vals q n m l r.1 ∧ r.1.F.p = prime ∧
      (vals = true → r.1.F.Good q) ∧ (0 < r.1.nz → r.1.x.isSome = vals)) := by
  obtain ⟨h, cs, d, tl, g, h1, h2, h3, h4, h5, rfl⟩ := hf
  unfold triplet_load
  have e : unlines (h :: cs ++ d :: tl ++ g) =
      h ++ '\n' :: (unlines cs ++ (d ++ '\n' :: (unlines tl ++ unlines g))) := by
    simp only [unlines_cons, unlines_append, List.cons_append, List.append_assoc]
  rw [e, Ok_bind]
  have hc : CtxOk [] (hash.map fun _ => SHA256_init) := by
    intro c hc
    obtain ⟨_, _, rfl⟩ := Option.map_eq_some_iff.mp hc
    exact Hashed.init
  refine (load_header_mm jw h1 h2 h3 ⟨by omega, hn.2⟩ ⟨by omega, hm.2⟩ ⟨by omega, by omega⟩ _ prime hc).mono ?_
  rintro ⟨hd, f', ctx⟩ ⟨a1, a2, -, done, a4⟩
  simp only at a1 a2 a4
  subst a1 a2
  simp only
  rw [Ok_bind]
  refine (load_alloc_spec jk hp (h := ⟨true, n, m, l.length⟩) hn.1 hm.1 (by simp)).mono ?_
  rintro T ⟨b1, b2, b3⟩
  simp only at b1
  rw [Ok_bind]
  have hl1 := unlines_length tl
  have hl2 := unlines_length g
  simp only [List.length_append]
  refine load_entries jk jw ⟨true, n, m, l.length⟩ b2 (unlines g) h4 hl [] _ _ done (by omega) b1
    rfl rfl a4 (by simp) ?_
  intro s done' c1 c2 c3 c4 c5 c6
  rw [List.nil_append] at c1
  simp only at c3
  refine (load_garbage jk jw _ g h5 _ _ done' (by omega) c2 (by rw [c4, c3]; simp [hne]) c5).mono ?_
  rintro s' ⟨e1, e2, done3, e3⟩
  refine (load_end_spec jk jw _ (by rw [e1]; exact c1) e3 hh).mono ?_
  rintro r ⟨g1, g2, g3⟩
  exact ⟨g1, by rw [g2, b3], fun h => by rw [g2]; exact b2 h, g3⟩

end Spasm
