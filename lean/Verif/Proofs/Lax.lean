import Verif.Spec.Lax
import Verif.Proofs.LoadAny

/-! Exactly the files of Spec/Lax.lean are accepted. -/

namespace Spasm

open Sha

/-! ### Numbers -/

theorem isspace_iff (c : Char) : isspace c = true ↔ Space c := by
  unfold isspace Space
  simp only [Bool.or_eq_true, decide_eq_true_eq, Bool.and_eq_true]
  constructor
  · rintro (h | ⟨h1, h2⟩)
    · exact .inl h
    · have key : ∀ k, c.toNat = k → c = Char.ofNat k := fun k hk => by rw [← hk, Char.ofNat_toNat]
      obtain h | h | h | h | h : c.toNat = 9 ∨ c.toNat = 10 ∨ c.toNat = 11 ∨ c.toNat = 12 ∨ c.toNat = 13 := by omega
      · exact .inr (.inl (key _ h))
      · exact .inr (.inr (.inl (key _ h)))
      · exact .inr (.inr (.inr (.inl (key _ h))))
      · exact .inr (.inr (.inr (.inr (.inl (key _ h)))))
      · exact .inr (.inr (.inr (.inr (.inr (key _ h)))))
  · rintro (rfl | rfl | rfl | rfl | rfl | rfl)
    · exact .inl rfl
    all_goals exact .inr (by decide)

theorem Space.notDigit {c : Char} (h : Space c) : c.isDigit = false := by
  rcases h with rfl | rfl | rfl | rfl | rfl | rfl <;> decide

theorem skipWs_spaces {w : List Char} (h : Spaces w) (s : List Char) : skipWs (w ++ s) = skipWs s :=
  List.dropWhile_append_of_pos fun c hc => (isspace_iff c).mpr (h c hc)

theorem skipWs_split (s : List Char) : ∃ w, Spaces w ∧ s = w ++ skipWs s ∧
    ∀ c, (skipWs s).head? = some c → ¬ Space c := by
  refine ⟨s.takeWhile isspace, ?_, List.takeWhile_append_dropWhile.symm, ?_⟩
  · intro c hc
    exact (isspace_iff c).mp (List.all_eq_true.mp List.all_takeWhile c hc)
  · intro c hc hs
    have := List.head?_dropWhile_not isspace s
    unfold skipWs at hc
    rw [hc] at this
    simp only at this
    rw [(isspace_iff c).mpr hs] at this
    cases this

theorem skipWs_idem (s : List Char) : skipWs (skipWs s) = skipWs s := by
  obtain ⟨w, -, -, h⟩ := skipWs_split s
  refine skipWs_head fun c hc => ?_
  rw [← Bool.not_eq_true, isspace_iff]
  exact h c hc

theorem Numeral.head {s : List Char} {x : Int} (h : Numeral s x) (t : List Char) :
    ∀ c, (s ++ t).head? = some c → c = '+' ∨ c = '-' ∨ c.isDigit = true := by
  obtain ⟨sg, d, rfl, hd, hdig, h⟩ := h
  intro c hc
  have hdd : ∀ c, (d ++ t).head? = some c → c.isDigit = true := by
    intro c hc
    cases d with
    | nil => exact absurd rfl hd
    | cons y d =>
      simp only [List.cons_append, List.head?_cons, Option.some.injEq] at hc
      exact hdig c (by simp [hc])
  rcases h with ⟨rfl | rfl, -⟩ | ⟨rfl, -⟩
  · exact .inr (.inr (hdd c hc))
  · simp only [List.cons_append, List.head?_cons, Option.some.injEq] at hc
    exact .inl hc.symm
  · simp only [List.cons_append, List.head?_cons, Option.some.injEq] at hc
    exact .inr (.inl hc.symm)

theorem Numeral.ne_nil {s : List Char} {x : Int} (h : Numeral s x) : s ≠ [] := by
  obtain ⟨sg, d, rfl, hd, -⟩ := h
  simp [hd]

theorem Numeral.noSpace {s : List Char} {x : Int} (h : Numeral s x) (t : List Char) :
    ∀ c, (s ++ t).head? = some c → isspace c = false := by
  intro c hc
  rcases h.head t c hc with rfl | rfl | h
  · decide
  · decide
  · exact isDigit_not_space h

theorem scanSign_digits {d t : List Char} (hd : d ≠ []) (hdig : ∀ c ∈ d, c.isDigit = true) :
    scanSign (d ++ t) = (false, d ++ t) := by
  cases d with
  | nil => exact absurd rfl hd
  | cons c d =>
    have hr := isDigit_range (hdig c (by simp))
    rw [List.cons_append]
    unfold scanSign
    split
    · rename_i h5
      simp only [List.cons.injEq] at h5
      rw [h5.1] at hr
      exact absurd hr.1 (by decide)
    · rename_i h5
      simp only [List.cons.injEq] at h5
      rw [h5.1] at hr
      exact absurd hr.1 (by decide)
    · rfl

/-- Reading a number. -/
theorem scanInt_numeral {w s t : List Char} {x : Int} (hw : Spaces w) (hs : Numeral s x) (ht : NotDigit t) :
    scanInt (w ++ (s ++ t)) = (some x, t) := by
  have h0 := hs.noSpace t
  obtain ⟨sg, d, rfl, hd, hdig, h⟩ := hs
  obtain ⟨h1, h2⟩ := takeWhile_digits hdig ht
  unfold scanInt
  rw [skipWs_spaces hw, skipWs_head h0]
  rcases h with ⟨rfl | rfl, rfl⟩ | ⟨rfl, rfl⟩
  · rw [List.nil_append, scanSign_digits hd hdig]
    simp only [h1, h2]
    rw [if_neg (by simp [hd])]
    simp
  · simp only [List.cons_append, List.nil_append, scanSign, h1, h2]
    rw [if_neg (by simp [hd])]
    simp
  · simp only [List.cons_append, List.nil_append, scanSign, h1, h2]
    rw [if_neg (by simp [hd])]
    simp

/-- What was read is a number. -/
theorem scanInt_inv {s t : List Char} {x : Int} (h : scanInt s = (some x, t)) :
    ∃ w n, Spaces w ∧ Numeral n x ∧ NotDigit t ∧ s = w ++ (n ++ t) := by
  obtain ⟨w, hw, hs, -⟩ := skipWs_split s
  unfold scanInt at h
  simp only at h
  split at h
  · cases h
  · rename_i hne
    simp only [Prod.mk.injEq, Option.some.injEq] at h
    obtain ⟨h1, h2⟩ := h
    have hd : ∀ c ∈ (scanSign (skipWs s)).2.takeWhile Char.isDigit, c.isDigit = true :=
      fun c hc => List.all_eq_true.mp List.all_takeWhile c hc
    have hsp : (scanSign (skipWs s)).2 = (scanSign (skipWs s)).2.takeWhile Char.isDigit ++ t := by
      rw [← h2]; exact List.takeWhile_append_dropWhile.symm
    have ht : NotDigit t := by
      intro c hc
      have := List.head?_dropWhile_not Char.isDigit (scanSign (skipWs s)).2
      rw [h2, hc] at this
      simpa using this
    generalize hdd : (scanSign (skipWs s)).2.takeWhile Char.isDigit = d at *
    have hdne : d ≠ [] := by simpa using hne
    have key : ∃ sg, skipWs s = sg ++ (scanSign (skipWs s)).2 ∧
        (((sg = [] ∨ sg = ['+']) ∧ (scanSign (skipWs s)).1 = false) ∨ (sg = ['-'] ∧ (scanSign (skipWs s)).1 = true)) := by
      unfold scanSign
      split
      · rename_i hq
        exact ⟨['-'], hq, .inr ⟨rfl, rfl⟩⟩
      · rename_i hq
        exact ⟨['+'], hq, .inl ⟨.inr rfl, rfl⟩⟩
      · exact ⟨[], rfl, .inl ⟨.inl rfl, rfl⟩⟩
    obtain ⟨sg, k1, k2⟩ := key
    refine ⟨w, sg ++ d, hw, ⟨sg, d, rfl, hdne, hd, ?_⟩, ht, ?_⟩
    · rcases k2 with ⟨k2, k3⟩ | ⟨k2, k3⟩
      · rw [k3] at h1
        exact .inl ⟨k2, by rw [← h1]; simp⟩
      · rw [k3] at h1
        exact .inr ⟨k2, by rw [← h1]; simp⟩
    · rw [List.append_assoc, ← hsp, ← k1, ← hs]

theorem scanInt_skipWs (s : List Char) : scanInt (skipWs s) = scanInt s := by
  unfold scanInt
  rw [skipWs_idem]

theorem scanD_skipWs (bits : Nat) (s : List Char) : scanD bits (skipWs s) = scanD bits s := by
  unfold scanD
  rw [scanInt_skipWs]

theorem scanD_numeral {bits : Nat} {w s t : List Char} {x : Int} (hw : Spaces w) (hs : Numeral s x) (ht : NotDigit t)
    (hx : -2 ^ bits ≤ x ∧ x < 2 ^ bits) : scanD bits (w ++ (s ++ t)) = .ok (some x, t) := by
  unfold scanD
  rw [scanInt_numeral hw hs ht]
  simp only
  rw [if_pos hx]

theorem scanD_inv {bits : Nat} {s t : List Char} {x : Int} (h : scanD bits s = .ok (some x, t)) :
    (-2 ^ bits ≤ x ∧ x < 2 ^ bits) ∧ ∃ w n, Spaces w ∧ Numeral n x ∧ NotDigit t ∧ s = w ++ (n ++ t) := by
  unfold scanD at h
  cases hs : scanInt s with
  | mk o u =>
    rw [hs] at h
    cases o with
    | none => simp at h
    | some y =>
      simp only at h
      split at h
      · rename_i hr
        simp only [Except.ok.injEq, Prod.mk.injEq, Option.some.injEq] at h
        obtain ⟨rfl, rfl⟩ := h
        exact ⟨hr, scanInt_inv hs⟩
      · cases h

/-! ### Lines of numbers -/

/-- The three numbers fit. -/
def Fit3 (e : Int × Int × Int) : Prop :=
  (-2 ^ 31 ≤ e.1 ∧ e.1 < 2 ^ 31) ∧ (-2 ^ 31 ≤ e.2.1 ∧ e.2.1 < 2 ^ 31) ∧ (-2 ^ 63 ≤ e.2.2 ∧ e.2.2 < 2 ^ 63)

theorem notDigit_append {a : List Char} (h : NotDigit a) (hne : a ≠ []) (t : List Char) : NotDigit (a ++ t) := by
  intro c hc
  cases a with
  | nil => exact absurd rfl hne
  | cons d a => exact h c hc

theorem scan3_lax {b : List Char} {e : Int × Int × Int} (h : LaxEntry b e) (hf : Fit3 e) :
    scan3 b = .ok (some e) := by
  obtain ⟨w1, s1, w2, s2, w3, s3, t, v1, v2, v3, n1, n2, n3, d2, d3, dt, rfl⟩ := h
  obtain ⟨f1, f2, f3⟩ := hf
  have m2 : NotDigit (w2 ++ (s2 ++ (w3 ++ (s3 ++ t)))) := by
    rw [← List.append_assoc]
    exact notDigit_append d2 (by simp [n2.ne_nil]) _
  have m3 : NotDigit (w3 ++ (s3 ++ t)) := by
    rw [← List.append_assoc]
    exact notDigit_append d3 (by simp [n3.ne_nil]) _
  unfold scan3
  simp only [List.append_assoc]
  rw [scanD_numeral v1 n1 m2 f1]
  show ((scanD 31 _) >>= _) = _
  rw [scanD_skipWs, scanD_numeral v2 n2 m3 f2]
  show ((scanD 63 _) >>= _) = _
  rw [scanD_skipWs, scanD_numeral v3 n3 dt f3]
  rfl

theorem notDigit_prefix {a t : List Char} (h : NotDigit (a ++ t)) : NotDigit a := by
  intro c hc
  cases a with
  | nil => cases hc
  | cons d a => exact h c hc

theorem bind_inv {α β : Type} {x : C α} {f : α → C β} {r : β} (h : (x >>= f) = .ok r) : ∃ a, x = .ok a ∧ f a = .ok r := by
  cases x with
  | error e => cases h
  | ok a => exact ⟨a, rfl, h⟩

theorem scan3_inv {b : List Char} {e : Int × Int × Int} (h : scan3 b = .ok (some e)) : LaxEntry b e ∧ Fit3 e := by
  unfold scan3 at h
  obtain ⟨⟨o1, t1⟩, h1, h⟩ := bind_inv h
  cases o1 with
  | none => cases h
  | some x1 =>
    simp only at h
    obtain ⟨⟨o2, t2⟩, h2, h⟩ := bind_inv h
    cases o2 with
    | none => cases h
    | some x2 =>
      simp only at h
      obtain ⟨⟨o3, t3⟩, h3, h⟩ := bind_inv h
      cases o3 with
      | none => cases h
      | some x3 =>
        simp only [Except.ok.injEq, Option.some.injEq] at h
        subst h
        rw [scanD_skipWs] at h2 h3
        obtain ⟨f1, w1, s1, v1, n1, d1, e1⟩ := scanD_inv h1
        obtain ⟨f2, w2, s2, v2, n2, d2, e2⟩ := scanD_inv h2
        obtain ⟨f3, w3, s3, v3, n3, d3, e3⟩ := scanD_inv h3
        refine ⟨⟨w1, s1, w2, s2, w3, s3, t3, v1, v2, v3, n1, n2, n3, ?_, ?_, d3, ?_⟩, f1, f2, f3⟩
        · rw [e2, ← List.append_assoc] at d1
          exact notDigit_prefix d1
        · rw [e3, ← List.append_assoc] at d2
          exact notDigit_prefix d2
        · rw [e1, e2, e3]; simp

theorem scan2c_lax {vals : Bool} {b : List Char} {n m : Int} (h : LaxHeader vals b n m)
    (hn : -2 ^ 31 ≤ n ∧ n < 2 ^ 31) (hm : -2 ^ 31 ≤ m ∧ m < 2 ^ 31) :
    ∃ c, scan2c b = .ok (some (n, m, c)) ∧ (vals = true → c = 'M') := by
  obtain ⟨w1, s1, w2, s2, w3, c, t, v1, v2, v3, n1, n2, d2, d3, hc, hM, rfl⟩ := h
  have m2 : NotDigit (w2 ++ (s2 ++ (w3 ++ c :: t))) := by
    rw [← List.append_assoc]
    exact notDigit_append d2 (by simp [n2.ne_nil]) _
  have m3 : NotDigit (w3 ++ c :: t) := by
    rw [show w3 ++ c :: t = (w3 ++ [c]) ++ t by simp]
    exact notDigit_append d3 (by simp) _
  refine ⟨c, ?_, hM⟩
  unfold scan2c
  simp only [List.append_assoc]
  rw [scanD_numeral v1 n1 m2 hn]
  show ((scanD 31 _) >>= _) = _
  rw [scanD_skipWs, scanD_numeral v2 n2 m3 hm]
  show (match skipWs (w3 ++ c :: t) with
      | [] => (.ok none : C (Option (Int × Int × Char)))
      | c :: _ => .ok (some (n, m, c))) = _
  rw [skipWs_spaces v3, skipWs_head]
  intro c' hc'
  simp only [List.head?_cons, Option.some.injEq] at hc'
  subst hc'
  rw [← Bool.not_eq_true, isspace_iff]
  exact hc

theorem scan2c_inv {vals : Bool} {b : List Char} {n m : Int} {c : Char} (h : scan2c b = .ok (some (n, m, c)))
    (hM : vals = true → c = 'M') :
    LaxHeader vals b n m ∧ (-2 ^ 31 ≤ n ∧ n < 2 ^ 31) ∧ (-2 ^ 31 ≤ m ∧ m < 2 ^ 31) := by
  unfold scan2c at h
  obtain ⟨⟨o1, t1⟩, h1, h⟩ := bind_inv h
  cases o1 with
  | none => cases h
  | some x1 =>
    simp only at h
    obtain ⟨⟨o2, t2⟩, h2, h⟩ := bind_inv h
    cases o2 with
    | none => cases h
    | some x2 =>
      simp only at h
      obtain ⟨w3, v3, e3, k3⟩ := skipWs_split t2
      cases hs : skipWs t2 with
      | nil => rw [hs] at h; cases h
      | cons c' t =>
        rw [hs] at h e3 k3
        simp only [Except.ok.injEq, Option.some.injEq, Prod.mk.injEq] at h
        obtain ⟨rfl, rfl, rfl⟩ := h
        rw [scanD_skipWs] at h2
        obtain ⟨f1, w1, s1, v1, n1, d1, e1⟩ := scanD_inv h1
        obtain ⟨f2, w2, s2, v2, n2, d2, e2⟩ := scanD_inv h2
        refine ⟨⟨w1, s1, w2, s2, w3, c', t, v1, v2, v3, n1, n2, ?_, ?_, k3 c' rfl, hM, ?_⟩, f1, f2⟩
        · rw [e2, ← List.append_assoc] at d1
          exact notDigit_prefix d1
        · rw [e3, show w3 ++ c' :: t = (w3 ++ [c']) ++ t by simp] at d2
          exact notDigit_prefix d2
        · rw [e1, e2, e3]; simp

/-! ### Words -/

theorem scanS_lax {w a s : List Char} (hw : Spaces w) (ha : ∀ c ∈ a, isspace c = false) (hne : a ≠ [])
    (hl : a.length < 1024) (hs : ∀ c, s.head? = some c → Space c) :
    scanS 1024 (skipWs (w ++ (a ++ s))) = .ok (some a, s) := by
  rw [skipWs_spaces hw]
  exact scanS_word (w := []) (by simp [Blank]) ha hne hl (fun c hc => (isspace_iff c).mpr (hs c hc))

theorem scanS_inv {s t a : List Char} (h : scanS 1024 (skipWs s) = .ok (some a, t)) :
    ∃ w, Spaces w ∧ a ≠ [] ∧ (∀ c, t.head? = some c → Space c) ∧ s = w ++ (a ++ t) := by
  unfold scanS at h
  rw [skipWs_idem] at h
  simp only at h
  split at h
  · cases h
  · rename_i hne
    split at h
    · simp only [Except.ok.injEq, Prod.mk.injEq, Option.some.injEq] at h
      obtain ⟨rfl, rfl⟩ := h
      obtain ⟨w, hw, hs, -⟩ := skipWs_split s
      refine ⟨w, hw, by simpa using hne, ?_, by rw [List.takeWhile_append_dropWhile]; exact hs⟩
      intro c hc
      have := List.head?_dropWhile_not (fun c => !isspace c) (skipWs s)
      rw [hc] at this
      rw [← isspace_iff]
      simpa using this
    · cases h

theorem space_head {w : List Char} (hw : Spaces w) (hne : w ≠ []) (s : List Char) :
    ∀ c, (w ++ s).head? = some c → Space c := by
  intro c hc
  cases w with
  | nil => exact absurd rfl hne
  | cons d t =>
    simp only [List.cons_append, List.head?_cons, Option.some.injEq] at hc
    subst hc
    exact hw d (by simp)

theorem validate_lax {b : List Char} (h : LaxMmLine b) : validate_mm_header b = .ok () := by
  obtain ⟨w1, w2, w3, w4, a1, a2, a3, a4, t, b1, b2, b3, b4, n2, n3, n4, l1, l2, l3, l4, ht, rfl⟩ := h
  have len : ∀ {a s : List Char}, a.map Char.toLower = s → s.length < 1024 → a.length < 1024 := by
    intro a s h hs
    rw [← h, List.length_map] at hs
    exact hs
  unfold validate_mm_header
  simp only [List.append_assoc]
  rw [show List.drop 14 ("%%MatrixMarket".toList ++ (w1 ++ (a1 ++ (w2 ++ (a2 ++ (w3 ++ (a3 ++ (w4 ++ (a4 ++ t))))))))) =
    w1 ++ (a1 ++ (w2 ++ (a2 ++ (w3 ++ (a3 ++ (w4 ++ (a4 ++ t))))))) from List.drop_left' (by decide)]
  rw [scanS_lax b1 (word_no_space l1 (by decide)) (map_ne_nil l1 (by decide)) (len l1 (by decide)) (space_head b2 n2 _)]
  show ((scanS 1024 _) >>= _) = _
  rw [scanS_lax b2 (word_no_space l2 (by decide)) (map_ne_nil l2 (by decide)) (len l2 (by decide)) (space_head b3 n3 _)]
  show ((scanS 1024 _) >>= _) = _
  rw [scanS_lax b3 (word_no_space l3 (by decide)) (map_ne_nil l3 (by decide)) (len l3 (by decide)) (space_head b4 n4 _)]
  show ((scanS 1024 _) >>= _) = _
  rw [scanS_lax b4 (word_no_space l4 (by decide)) (map_ne_nil l4 (by decide)) (len l4 (by decide)) ht]
  show (if _ then _ else _) = _
  rw [if_neg (not_not.mpr l1), if_neg (not_not.mpr l2), if_neg (not_not.mpr l3), if_neg (not_not.mpr l4)]

theorem words_apart {w a t t' : List Char} (hw : Spaces w) (ha : a.map Char.toLower ≠ [])
    (h : ∀ c, t.head? = some c → Space c) (ht : t = w ++ (a ++ t')) (hs : ∀ c ∈ a, ¬ Space c) : w ≠ [] := by
  rintro rfl
  cases a with
  | nil => exact ha rfl
  | cons c a =>
    rw [ht] at h
    exact hs c (by simp) (h c rfl)

theorem no_space {a s : List Char} (h : a.map Char.toLower = s) (hs : ∀ c ∈ s, isspace c = false) : ∀ c ∈ a, ¬ Space c := by
  intro c hc hsp
  have := word_no_space h hs c hc
  rw [(isspace_iff c).mpr hsp] at this
  cases this

theorem validate_inv {b : List Char} (hb : b.take 14 = "%%MatrixMarket".toList) (h : validate_mm_header b = .ok ()) :
    LaxMmLine b := by
  unfold validate_mm_header at h
  obtain ⟨⟨o1, t1⟩, h1, h⟩ := bind_inv h
  cases o1 with
  | none => cases h
  | some a1 =>
    simp only at h
    obtain ⟨⟨o2, t2⟩, h2, h⟩ := bind_inv h
    cases o2 with
    | none => cases h
    | some a2 =>
      simp only at h
      obtain ⟨⟨o3, t3⟩, h3, h⟩ := bind_inv h
      cases o3 with
      | none => cases h
      | some a3 =>
        simp only at h
        obtain ⟨⟨o4, t4⟩, h4, h⟩ := bind_inv h
        cases o4 with
        | none => cases h
        | some a4 =>
          simp only at h
          split at h
          · cases h
          rename_i l1
          split at h
          · cases h
          rename_i l2
          split at h
          · cases h
          rename_i l3
          split at h
          · cases h
          rename_i l4
          rw [not_not] at l1 l2 l3 l4
          obtain ⟨w1, v1, m1, k1, e1⟩ := scanS_inv h1
          obtain ⟨w2, v2, m2, k2, e2⟩ := scanS_inv h2
          obtain ⟨w3, v3, m3, k3, e3⟩ := scanS_inv h3
          obtain ⟨w4, v4, m4, k4, e4⟩ := scanS_inv h4
          refine ⟨w1, w2, w3, w4, a1, a2, a3, a4, t4, v1, v2, v3, v4,
            words_apart v2 (by rw [l2]; decide) k1 e2 (no_space l2 (by decide)),
            words_apart v3 (by rw [l3]; decide) k2 e3 (no_space l3 (by decide)),
            words_apart v4 (by rw [l4]; decide) k3 e4 (no_space l4 (by decide)), l1, l2, l3, l4, k4, ?_⟩
          rw [← List.take_append_drop 14 b, hb, e1, e2, e3, e4]
          simp

end Spasm
