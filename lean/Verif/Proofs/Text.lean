import Verif.Model.Io
import Verif.Spec.Text
import Verif.Proofs.Wp

/-! Reading back what was printed. -/

namespace Spasm

theorem dec_eq (x : Int) : dec x = fmtD x := by
  unfold dec fmtD
  cases x with
  | ofNat k => simp [toString, Int.repr]
  | negSucc k => simp [toString, Int.repr]

theorem isDigit_range {c : Char} (h : c.isDigit = true) : 48 ≤ c.toNat ∧ c.toNat ≤ 57 := by
  simp only [Char.isDigit, Bool.and_eq_true, decide_eq_true_eq] at h
  exact ⟨h.1, h.2⟩

theorem isDigit_not_space {c : Char} (h : c.isDigit = true) : isspace c = false := by
  have := isDigit_range h
  unfold isspace
  have h1 : c ≠ ' ' := by rintro rfl; exact absurd this.1 (by decide)
  simp [h1]
  omega

theorem digits_ne_nil (n : Nat) : Nat.toDigits 10 n ≠ [] := by
  have := @Nat.length_toDigits_pos 10 n
  intro h
  rw [h] at this
  exact absurd this (by decide)

theorem isDigit_digits {n : Nat} : ∀ c ∈ Nat.toDigits 10 n, c.isDigit = true :=
  fun _ h => Nat.isDigit_of_mem_toDigits (by decide) (by decide) h

/-- The characters of a number. -/
theorem mem_fmtD {x : Int} {c : Char} (h : c ∈ fmtD x) : c = '-' ∨ c.isDigit = true := by
  unfold fmtD at h
  split at h
  · rcases List.mem_cons.mp h with h | h
    · exact .inl h
    · exact .inr (isDigit_digits c h)
  · exact .inr (isDigit_digits c h)

theorem fmtD_toNat {x : Int} {c : Char} (h : c ∈ fmtD x) : 45 ≤ c.toNat ∧ c.toNat ≤ 57 := by
  rcases mem_fmtD h with rfl | h
  · decide
  · have := isDigit_range h; omega

theorem fmtD_ne_nil (x : Int) : fmtD x ≠ [] := by
  unfold fmtD
  split
  · simp
  · exact digits_ne_nil _

theorem fmtD_length {x : Int} {k : Nat} (hk : 0 < k) (h : x.natAbs < 10 ^ k) : (fmtD x).length ≤ k + 1 := by
  have := (Nat.length_toDigits_le_iff (b := 10) (n := x.natAbs) (by decide) hk).mpr h
  unfold fmtD
  split
  · simpa using this
  · omega

theorem blank_space {w : List Char} (h : Blank w) : ∀ c ∈ w, isspace c = true := by
  intro c hc
  rcases h c hc with rfl | rfl <;> decide

theorem skipWs_append {w : List Char} (h : Blank w) (s : List Char) : skipWs (w ++ s) = skipWs s :=
  List.dropWhile_append_of_pos (blank_space h)

theorem skipWs_head {s : List Char} (h : ∀ c, s.head? = some c → isspace c = false) : skipWs s = s := by
  cases s with
  | nil => rfl
  | cons c s => unfold skipWs; rw [List.dropWhile_cons_of_neg (by simp [h c rfl])]

theorem fmtD_head {x : Int} (s : List Char) : ∀ c, (fmtD x ++ s).head? = some c → isspace c = false := by
  intro c hc
  have hm : c ∈ fmtD x := by
    cases h : fmtD x with
    | nil => exact absurd h (fmtD_ne_nil x)
    | cons d t =>
      rw [h] at hc
      simp only [List.cons_append, List.head?_cons, Option.some.injEq] at hc
      rw [hc]; exact List.mem_cons_self
  rcases mem_fmtD hm with rfl | h
  · decide
  · exact isDigit_not_space h

theorem takeWhile_digits {d s : List Char} (hd : ∀ c ∈ d, c.isDigit = true)
    (hs : ∀ c, s.head? = some c → c.isDigit = false) :
    (d ++ s).takeWhile Char.isDigit = d ∧ (d ++ s).dropWhile Char.isDigit = s := by
  rw [List.takeWhile_append_of_pos hd, List.dropWhile_append_of_pos hd]
  cases s with
  | nil => simp
  | cons c s =>
    have := hs c rfl
    rw [List.takeWhile_cons_of_neg (by simp [this]), List.dropWhile_cons_of_neg (by simp [this])]
    simp

/-- Reading a number. -/
theorem scanInt_dec {w : List Char} (hw : Blank w) (x : Int) {s : List Char}
    (hs : ∀ c, s.head? = some c → c.isDigit = false) : scanInt (w ++ (fmtD x ++ s)) = (some x, s) := by
  have hd := @isDigit_digits x.natAbs
  have hne := digits_ne_nil x.natAbs
  obtain ⟨h1, h2⟩ := takeWhile_digits hd hs
  have h3 : Nat.ofDigitChars 10 (Nat.toDigits 10 x.natAbs) 0 = x.natAbs :=
    Nat.ofDigitChars_toDigits (by decide) (by decide)
  unfold scanInt
  rw [skipWs_append hw, skipWs_head (fmtD_head s)]
  unfold fmtD
  by_cases hx : x < 0
  · rw [if_pos hx]
    simp only [List.cons_append, scanSign]
    rw [h1, h2, h3, if_neg (by simp [hne])]
    simp only [if_true]
    congr 2
    omega
  · rw [if_neg hx]
    have h4 : scanSign (Nat.toDigits 10 x.natAbs ++ s) = (false, Nat.toDigits 10 x.natAbs ++ s) := by
      cases h : Nat.toDigits 10 x.natAbs with
      | nil => exact absurd h hne
      | cons c t =>
        have hc := hd c (by rw [h]; exact List.mem_cons_self)
        have hr := isDigit_range hc
        rw [List.cons_append]
        unfold scanSign
        split
        · rename_i h5
          simp only [List.cons.injEq] at h5
          rw [h5.1] at hr
          exact absurd hr.1 (by decide)
        · rename_i h5
          simp only [List.cons.injEq] at h5
          rw [h5.1] at hr
          exact absurd hr.1 (by decide)
        · rfl
    rw [h4]
    simp only
    rw [h1, h2, h3, if_neg (by simp [hne])]
    simp only [Bool.false_eq_true, if_false]
    congr 2
    omega

theorem scanD_dec {bits : Nat} {w : List Char} (hw : Blank w) {x : Int} (h1 : -2 ^ bits ≤ x) (h2 : x < 2 ^ bits)
    {s : List Char} (hs : ∀ c, s.head? = some c → c.isDigit = false) :
    scanD bits (w ++ (fmtD x ++ s)) = .ok (some x, s) := by
  unfold scanD
  rw [scanInt_dec hw x hs]
  simp only
  rw [if_pos ⟨h1, h2⟩]

theorem blank_head {w : List Char} (hw : Blank w) (hne : w ≠ []) (s : List Char) :
    ∀ c, (w ++ s).head? = some c → c.isDigit = false := by
  intro c hc
  cases w with
  | nil => exact absurd rfl hne
  | cons d t =>
    simp only [List.cons_append, List.head?_cons, Option.some.injEq] at hc
    subst hc
    rcases hw d List.mem_cons_self with rfl | rfl <;> decide

/-- Reading three numbers. -/
theorem scan3_entry {b : List Char} {e : Int × Int × Int} (h : EntryLine b e)
    (h1 : -2 ^ 31 ≤ e.1 ∧ e.1 < 2 ^ 31) (h2 : -2 ^ 31 ≤ e.2.1 ∧ e.2.1 < 2 ^ 31)
    (h3 : -2 ^ 63 ≤ e.2.2 ∧ e.2.2 < 2 ^ 63) : scan3 (b ++ ['\n']) = .ok (some e) := by
  obtain ⟨-, w1, w2, w3, t, b1, b2, b3, n2, n3, ht, rfl⟩ := h
  have e1 : scanD 31 (w1 ++ dec e.1 ++ w2 ++ dec e.2.1 ++ w3 ++ dec e.2.2 ++ t ++ ['\n']) =
      .ok (some e.1, w2 ++ (fmtD e.2.1 ++ (w3 ++ (fmtD e.2.2 ++ (t ++ ['\n']))))) := by
    simp only [dec_eq, List.append_assoc]
    exact scanD_dec b1 h1.1 h1.2 (blank_head b2 n2 _)
  have e2 : scanD 31 (skipWs (w2 ++ (fmtD e.2.1 ++ (w3 ++ (fmtD e.2.2 ++ (t ++ ['\n'])))))) =
      .ok (some e.2.1, w3 ++ (fmtD e.2.2 ++ (t ++ ['\n']))) := by
    rw [skipWs_append b2, skipWs_head (fmtD_head _)]
    exact scanD_dec (w := []) (by simp [Blank]) h2.1 h2.2 (blank_head b3 n3 _)
  have e3 : scanD 63 (skipWs (w3 ++ (fmtD e.2.2 ++ (t ++ ['\n'])))) = .ok (some e.2.2, t ++ ['\n']) := by
    rw [skipWs_append b3, skipWs_head (fmtD_head _)]
    refine scanD_dec (w := []) (by simp [Blank]) h3.1 h3.2 ?_
    intro c hc
    cases t with
    | nil =>
      simp only [List.nil_append, List.head?_cons, Option.some.injEq] at hc
      subst hc; decide
    | cons d t =>
      simp only [List.cons_append, List.head?_cons, Option.some.injEq] at hc
      exact ht c (by simp [hc])
  unfold scan3
  rw [e1]
  show ((scanD 31 _) >>= _) = _
  rw [e2]
  show ((scanD 63 _) >>= _) = _
  rw [e3]
  rfl

/-- Reading the header. -/
theorem scan2c_header {b : List Char} {n m : Int} (h : HeaderLine b n m)
    (h1 : -2 ^ 31 ≤ n ∧ n < 2 ^ 31) (h2 : -2 ^ 31 ≤ m ∧ m < 2 ^ 31) :
    scan2c (b ++ ['\n']) = .ok (some (n, m, 'M')) := by
  obtain ⟨-, w1, w2, w3, t, b1, b2, b3, n2, rfl⟩ := h
  have e1 : scanD 31 (w1 ++ dec n ++ w2 ++ dec m ++ w3 ++ 'M' :: t ++ ['\n']) =
      .ok (some n, w2 ++ (fmtD m ++ (w3 ++ 'M' :: (t ++ ['\n'])))) := by
    simp only [dec_eq, List.append_assoc, List.cons_append]
    exact scanD_dec b1 h1.1 h1.2 (blank_head b2 n2 _)
  have e2 : scanD 31 (skipWs (w2 ++ (fmtD m ++ (w3 ++ 'M' :: (t ++ ['\n']))))) =
      .ok (some m, w3 ++ 'M' :: (t ++ ['\n'])) := by
    rw [skipWs_append b2, skipWs_head (fmtD_head _)]
    refine scanD_dec (w := []) (by simp [Blank]) h2.1 h2.2 ?_
    by_cases h : w3 = []
    · subst h
      intro c hc
      simp only [List.nil_append, List.head?_cons, Option.some.injEq] at hc
      subst hc; decide
    · exact blank_head b3 h _
  unfold scan2c
  rw [e1]
  show ((scanD 31 _) >>= _) = _
  rw [e2]
  show (match skipWs (w3 ++ 'M' :: (t ++ ['\n'])) with
      | [] => (.ok none : C (Option (Int × Int × Char)))
      | c :: _ => .ok (some (n, m, c))) = _
  rw [skipWs_append b3, skipWs_head (by intro c hc; simp at hc; subst hc; decide)]

/-! ### Lines -/

theorem takeLine_spec : ∀ (k : Nat) (s : List Char), (takeLine k s).1 ++ (takeLine k s).2 = s ∧
    (takeLine k s).1.length ≤ k := by
  intro k
  induction k with
  | zero => intro s; simp [takeLine]
  | succ k ih =>
    intro s
    cases s with
    | nil => simp [takeLine]
    | cons c s =>
      unfold takeLine
      split
      · simp
      · simpa using ih s

theorem takeLine_line : ∀ (k : Nat) (b s : List Char), b.length + 1 ≤ k → '\n' ∉ b →
    takeLine k (b ++ '\n' :: s) = (b ++ ['\n'], s) := by
  intro k
  induction k with
  | zero => intro b s h; omega
  | succ k ih =>
    intro b s h hn
    cases b with
    | nil => simp [takeLine]
    | cons c b =>
      simp only [List.mem_cons, not_or] at hn
      simp only [List.cons_append, takeLine]
      rw [if_neg (fun h => hn.1 h.symm), ih b s (by simp at h; omega) hn.2]

theorem cstr_eq {b : List Char} (h : ∀ c ∈ b, c.toNat ≠ 0) : cstr b = b := by
  have := List.takeWhile_append_of_pos (p := fun c : Char => decide (c.toNat ≠ 0)) (l₁ := b) (l₂ := [])
    (fun c hc => by simp [h c hc])
  unfold cstr
  simpa using this

theorem unlines_cons (b : List Char) (l : List (List Char)) : unlines (b :: l) = b ++ '\n' :: unlines l := by
  unfold unlines
  rw [List.flatMap_cons]
  simp

theorem unlines_append (l l' : List (List Char)) : unlines (l ++ l') = unlines l ++ unlines l' := by
  unfold unlines
  rw [List.flatMap_append]

theorem unlines_length (l : List (List Char)) : l.length ≤ (unlines l).length := by
  induction l with
  | nil => simp
  | cons b l ih => rw [unlines_cons]; simp; omega

end Spasm
