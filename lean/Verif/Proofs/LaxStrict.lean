import Verif.Proofs.LaxUnique

namespace Spasm

theorem numeral_dec (x : Int) : Numeral (dec x) x := by
  have h3 : Nat.ofDigitChars 10 (Nat.toDigits 10 x.natAbs) 0 = x.natAbs :=
    Nat.ofDigitChars_toDigits (by decide) (by decide)
  rw [dec_eq]
  unfold fmtD
  split
  · exact ⟨['-'], Nat.toDigits 10 x.natAbs, rfl, digits_ne_nil _, isDigit_digits, .inr ⟨rfl, by rw [h3]; omega⟩⟩
  · exact ⟨[], Nat.toDigits 10 x.natAbs, rfl, digits_ne_nil _, isDigit_digits, .inl ⟨.inl rfl, by rw [h3]; omega⟩⟩

theorem Blank.spaces {w : List Char} (h : Blank w) : Spaces w := by
  intro c hc
  rcases h c hc with rfl | rfl
  · exact .inl rfl
  · exact .inr (.inl rfl)

theorem Blank.notDigit {w : List Char} (h : Blank w) (hne : w ≠ []) (s : List Char) : NotDigit (w ++ s) := by
  cases w with
  | nil => exact absurd rfl hne
  | cons c w =>
    intro d hd
    simp only [List.cons_append, List.head?_cons, Option.some.injEq] at hd
    subst hd
    rcases h c (by simp) with rfl | rfl <;> decide

theorem NotDigit.nl {t : List Char} (h : ∀ c, t.head? = some c → c.isDigit = false) : NotDigit (t ++ ['\n']) := by
  cases t with
  | nil =>
    intro c hc
    simp only [List.nil_append, List.head?_cons, Option.some.injEq] at hc
    rw [← hc]; decide
  | cons c t =>
    intro d hd
    simp only [List.cons_append, List.head?_cons, Option.some.injEq] at hd
    rw [← hd]
    exact h c rfl

theorem EntryLine.lax {b : List Char} {e : Int × Int × Int} (h : EntryLine b e) : LaxEntry (b ++ ['\n']) e := by
  obtain ⟨-, w1, w2, w3, t, h1, h2, h3, n2, n3, ht, rfl⟩ := h
  exact ⟨w1, dec e.1, w2, dec e.2.1, w3, dec e.2.2, t ++ ['\n'], h1.spaces, h2.spaces, h3.spaces, numeral_dec _,
    numeral_dec _, numeral_dec _, h2.notDigit n2 _, h3.notDigit n3 _, NotDigit.nl ht, by simp⟩

theorem HeaderLine.lax (vals : Bool) {b : List Char} {n m : Int} (h : HeaderLine b n m) :
    LaxHeader vals (b ++ ['\n']) n m := by
  obtain ⟨-, w1, w2, w3, t, h1, h2, h3, n2, rfl⟩ := h
  refine ⟨w1, dec n, w2, dec m, w3, 'M', t ++ ['\n'], h1.spaces, h2.spaces, h3.spaces, numeral_dec _,
    numeral_dec _, h2.notDigit n2 _, ?_, by unfold Space; decide, fun _ => rfl, by simp⟩
  by_cases h : w3 = []
  · subst h
    intro c hc
    simp only [List.nil_append, List.head?_cons, Option.some.injEq] at hc
    rw [← hc]; decide
  · exact h3.notDigit h _

theorem MmLine.lax {b : List Char} (h : MmLine b) : LaxMmLine (b ++ ['\n']) := by
  obtain ⟨-, w1, w2, w3, w4, a1, a2, a3, a4, t, h1, h2, h3, h4, n2, n3, n4, k1, k2, k3, k4, ht, rfl⟩ := h
  refine ⟨w1, w2, w3, w4, a1, a2, a3, a4, t ++ ['\n'], h1.spaces, h2.spaces, h3.spaces, h4.spaces, n2, n3, n4, k1, k2,
    k3, k4, ?_, by simp⟩
  cases t with
  | nil =>
    intro c hc
    simp only [List.nil_append, List.head?_cons, Option.some.injEq] at hc
    rw [← hc]; unfold Space; decide
  | cons c t =>
    intro d hd
    simp only [List.cons_append, List.head?_cons, Option.some.injEq] at hd
    rw [← hd]
    rcases ht c rfl with h | h
    · exact .inl h
    · exact .inr (.inl h)

theorem lines_unlines : ∀ (ls : List (List Char)), (∀ b ∈ ls, Short b) → Lines (unlines ls) (ls.map (· ++ ['\n'])) := by
  intro ls
  induction ls with
  | nil => intro _; exact .nil
  | cons b ls ih =>
    intro h
    have hb := h b (by simp)
    have := Lines.cons b _ _ hb.nonl hb.len (ih fun b hb => h b (by simp [hb]))
    rw [show unlines (b :: ls) = b ++ '\n' :: unlines ls by simp [unlines]]
    exact this

theorem forall₂_short {tl : List (List Char)} {l : List (Int × Int × Int)} (h : List.Forall₂ EntryLine tl l) :
    ∀ b ∈ tl, Short b := by
  induction h with
  | nil => simp
  | cons h _ ih =>
    intro b hb
    rcases List.mem_cons.mp hb with rfl | hb
    · exact h.1
    · exact ih b hb

theorem forall₂_lax {tl : List (List Char)} {l : List (Int × Int × Int)} (h : List.Forall₂ EntryLine tl l) :
    List.Forall₂ LaxEntry (tl.map (· ++ ['\n'])) l := by
  induction h with
  | nil => exact .nil
  | cons h _ ih => exact .cons h.lax ih

theorem unlines_noNul {ls : List (List Char)} (h : ∀ b ∈ ls, Short b) : NoNul (unlines ls) := by
  intro c hc
  unfold unlines at hc
  obtain ⟨b, hb, hc⟩ := List.mem_flatMap.mp hc
  rcases List.mem_append.mp hc with hc | hc
  · exact (h b hb).nonul c hc
  · rw [List.mem_singleton.mp hc]; decide

theorem IsSms.lax (vals : Bool) {f : List Char} {n m : Int} {l : List (Int × Int × Int)} (h : IsSms f n m l) :
    LaxFile vals f n m l ∧ NoNul f := by
  obtain ⟨h, tl, z, g, h1, h2, h3, h4, rfl⟩ := h
  have hs : ∀ b ∈ h :: tl ++ z :: g, Short b := by
    intro b hb
    simp only [List.cons_append, List.mem_cons, List.mem_append] at hb
    rcases hb with rfl | hb | rfl | hb
    · exact h1.1
    · exact forall₂_short h2 b hb
    · exact h3.1
    · exact h4 b hb
  refine ⟨.inl ⟨h ++ ['\n'], tl.map (· ++ ['\n']), z ++ ['\n'], g.map (· ++ ['\n']), h1.lax vals, forall₂_lax h2, h3.lax,
    ?_⟩, unlines_noNul hs⟩
  have := lines_unlines _ hs
  simpa using this

theorem IsMm.lax (vals : Bool) {f : List Char} {n m : Int} {l : List (Int × Int × Int)} (h : IsMm f n m l)
    (hne : l ≠ []) (hlen : l.length < 2 ^ 63) : LaxFile vals f n m l ∧ NoNul f := by
  obtain ⟨h, cs, d, tl, g, h1, h2, h3, h4, h5, rfl⟩ := h
  have hs : ∀ b ∈ h :: cs ++ d :: tl ++ g, Short b := by
    intro b hb
    simp only [List.cons_append, List.mem_cons, List.mem_append] at hb
    rcases hb with rfl | (hb | rfl | hb) | hb
    · exact h1.1
    · exact (h2 b hb).1
    · exact h3.1
    · exact forall₂_short h4 b hb
    · exact h5 b hb
  refine ⟨.inr ⟨h ++ ['\n'], cs.map (· ++ ['\n']), d ++ ['\n'], tl.map (· ++ ['\n']), g.map (· ++ ['\n']), h1.lax, ?_,
    h3.lax, hne, hlen, forall₂_lax h4, ?_⟩, unlines_noNul hs⟩
  · intro b hb
    obtain ⟨b', hb', rfl⟩ := List.mem_map.mp hb
    have := (h2 b' hb').2
    cases b' with
    | nil => cases this
    | cons c b' => exact this
  · have := lines_unlines _ hs
    simpa using this

end Spasm
