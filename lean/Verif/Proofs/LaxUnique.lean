import Verif.Proofs.LaxLoad

namespace Spasm

open Sha

theorem newline_split {c c' f f' : List Char} (h : '\n' ∉ c) (h' : '\n' ∉ c') (he : c ++ '\n' :: f = c' ++ '\n' :: f') :
    c = c' ∧ f = f' := by
  induction c generalizing c' with
  | nil =>
    cases c' with
    | nil => simpa using he
    | cons x c' =>
      simp only [List.nil_append, List.cons_append, List.cons.injEq] at he
      exact absurd (by simp [← he.1]) h'
  | cons x c ih =>
    cases c' with
    | nil =>
      simp only [List.nil_append, List.cons_append, List.cons.injEq] at he
      exact absurd (by simp [he.1]) h
    | cons y c' =>
      simp only [List.cons_append, List.cons.injEq] at he
      simp only [List.mem_cons, not_or] at h h'
      obtain ⟨h1, h2⟩ := ih h.2 h'.2 he.2
      exact ⟨by rw [he.1, h1], h2⟩

/-- A file has only one list of lines. -/
theorem Lines.unique {f : List Char} {ls ls' : List (List Char)} (h : Lines f ls) (h' : Lines f ls') : ls = ls' := by
  induction h generalizing ls' with
  | nil => exact h'.of_nil.symm
  | last c h1 h2 h3 =>
    cases h' with
    | nil => exact absurd rfl h2
    | last => rfl
    | cons => exact absurd (by simp) h1
  | cons c f ls h1 h2 h3 ih =>
    generalize hg : c ++ '\n' :: f = g at h'
    cases h' with
    | nil => simp at hg
    | last _ h4 => exact absurd (by rw [← hg]; simp) h4
    | cons c' f' ls' h4 h5 h6 =>
      obtain ⟨rfl, rfl⟩ := newline_split h1 h4 hg
      rw [ih h6]

theorem LaxEntry.unique {b : List Char} {e e' : Int × Int × Int} (h : LaxEntry b e) (h' : LaxEntry b e') (hf : Fit3 e)
    (hf' : Fit3 e') : e = e' := by
  have h1 := scan3_lax h hf
  rw [scan3_lax h' hf'] at h1
  simpa using h1.symm

theorem LaxHeader.unique {vals : Bool} {b : List Char} {n m n' m' : Int} (h : LaxHeader vals b n m)
    (h' : LaxHeader vals b n' m') (hn : -2 ^ 31 ≤ n ∧ n < 2 ^ 31) (hm : -2 ^ 31 ≤ m ∧ m < 2 ^ 31)
    (hn' : -2 ^ 31 ≤ n' ∧ n' < 2 ^ 31) (hm' : -2 ^ 31 ≤ m' ∧ m' < 2 ^ 31) : n = n' ∧ m = m' := by
  obtain ⟨c, h1, -⟩ := scan2c_lax h hn hm
  obtain ⟨c', h2, -⟩ := scan2c_lax h' hn' hm'
  rw [h1] at h2
  simp only [Except.ok.injEq, Option.some.injEq, Prod.mk.injEq] at h2
  exact ⟨h2.1, h2.2.1⟩

theorem fit3_zero : Fit3 (0, 0, 0) := by unfold Fit3; decide

theorem sms_unique {tl tl' : List (List Char)} {l l' : List (Int × Int × Int)} {z z' : List Char}
    {g g' : List (List Char)} (h : List.Forall₂ LaxEntry tl l) (h' : List.Forall₂ LaxEntry tl' l')
    (hl : ∀ e ∈ l, FitsEntry e) (hl' : ∀ e ∈ l', FitsEntry e) (hz : LaxEntry z (0, 0, 0)) (hz' : LaxEntry z' (0, 0, 0))
    (he : tl ++ z :: g = tl' ++ z' :: g') : l = l' := by
  induction h generalizing tl' l' with
  | nil =>
    cases h' with
    | nil => rfl
    | @cons b e tl l hb _ =>
      simp only [List.nil_append, List.cons_append, List.cons.injEq] at he
      have hf := hl' e (by simp)
      have := hb.unique (he.1 ▸ hz) hf.fit3 fit3_zero
      have h1 := hf.i_pos
      rw [this] at h1
      simp at h1
  | @cons b e tl l hb _ ih =>
    have hf := hl e (by simp)
    cases h' with
    | nil =>
      simp only [List.nil_append, List.cons_append, List.cons.injEq] at he
      have := hb.unique (he.1 ▸ hz') hf.fit3 fit3_zero
      have h1 := hf.i_pos
      rw [this] at h1
      simp at h1
    | @cons b' e' tl' l' hb' h' =>
      simp only [List.cons_append, List.cons.injEq] at he
      rw [hb.unique (he.1 ▸ hb') hf.fit3 (hl' e' (by simp)).fit3,
        ih h' (fun e he => hl e (by simp [he])) (fun e he => hl' e (by simp [he])) he.2]

theorem mm_unique {tl tl' : List (List Char)} {l l' : List (Int × Int × Int)}
    {g g' : List (List Char)} (h : List.Forall₂ LaxEntry tl l) (h' : List.Forall₂ LaxEntry tl' l')
    (hl : ∀ e ∈ l, FitsEntry e) (hl' : ∀ e ∈ l', FitsEntry e) (hlen : l.length = l'.length)
    (he : tl ++ g = tl' ++ g') : l = l' := by
  induction h generalizing tl' l' with
  | nil => exact (List.length_eq_zero_iff.mp hlen.symm).symm
  | @cons b e tl l hb _ ih =>
    cases h' with
    | nil => simp at hlen
    | @cons b' e' tl' l' hb' h' =>
      simp only [List.cons_append, List.cons.injEq, List.length_cons, Nat.add_right_cancel_iff] at he hlen
      rw [hb.unique (he.1 ▸ hb') (hl e (by simp)).fit3 (hl' e' (by simp)).fit3,
        ih h' (fun e he => hl e (by simp [he])) (fun e he => hl' e (by simp [he])) hlen he.2]

theorem comments_unique {cs cs' : List (List Char)} {d d' : List Char} {ls ls' : List (List Char)}
    (h : ∀ b ∈ cs, b.head? = some '%') (h' : ∀ b ∈ cs', b.head? = some '%') (hd : d.head? ≠ some '%')
    (hd' : d'.head? ≠ some '%') (he : cs ++ d :: ls = cs' ++ d' :: ls') : d = d' ∧ ls = ls' := by
  induction cs generalizing cs' with
  | nil =>
    cases cs' with
    | nil => simpa using he
    | cons b cs' =>
      simp only [List.nil_append, List.cons_append, List.cons.injEq] at he
      exact absurd (he.1 ▸ h' b (by simp)) hd
  | cons b cs ih =>
    cases cs' with
    | nil =>
      simp only [List.nil_append, List.cons_append, List.cons.injEq] at he
      exact absurd (he.1 ▸ h b (by simp)) hd'
    | cons b' cs' =>
      simp only [List.cons_append, List.cons.injEq] at he
      exact ih (fun b hb => h b (by simp [hb])) (fun b hb => h' b (by simp [hb])) he.2

theorem LaxMmLine.first {b : List Char} (h : LaxMmLine b) : b.head? = some '%' := by
  obtain ⟨w1, w2, w3, w4, a1, a2, a3, a4, t, -, -, -, -, -, -, -, -, -, -, -, -, rfl⟩ := h
  rfl

/-- A file describes one matrix only. -/
theorem LaxFile.unique {vals : Bool} {f : List Char} {n m n' m' : Int} {l l' : List (Int × Int × Int)}
    (h : LaxFile vals f n m l) (hf : Fit n m l) (h' : LaxFile vals f n' m' l') (hf' : Fit n' m' l') :
    n = n' ∧ m = m' ∧ l = l' := by
  have a1 := hf.n
  have a2 := hf.m
  have a3 := hf'.n
  have a4 := hf'.m
  rcases h with ⟨h, tl, z, g, h1, h2, h3, h4⟩ | ⟨h, cs, d, tl, g, h1, h2, h3, hne, hlen, h4, h5⟩
  · rcases h' with ⟨h', tl', z', g', k1, k2, k3, k4⟩ | ⟨h', cs', d', tl', g', k1, k2, k3, kne, klen, k4, k5⟩
    · have he := h4.unique k4
      simp only [List.cons.injEq] at he
      obtain ⟨rfl, he⟩ := he
      obtain ⟨c1, c2⟩ := h1.unique k1 (by omega) (by omega) (by omega) (by omega)
      exact ⟨c1, c2, sms_unique h2 k2 hf.entry hf'.entry h3 k3 he⟩
    · have he := h4.unique k5
      simp only [List.cons.injEq] at he
      obtain ⟨rfl, -⟩ := he
      exact absurd k1.first h1.first
  · rcases h' with ⟨h', tl', z', g', k1, k2, k3, k4⟩ | ⟨h', cs', d', tl', g', k1, k2, k3, kne, klen, k4, k5⟩
    · have he := h5.unique k4
      simp only [List.cons.injEq] at he
      obtain ⟨rfl, -⟩ := he
      exact absurd h1.first k1.first
    · have he := h5.unique k5
      simp only [List.cons.injEq] at he
      obtain ⟨rfl, he⟩ := he
      obtain ⟨rfl, he2⟩ := comments_unique h2 k2 h3.first k3.first he
      have := h3.unique k3 ⟨⟨by simp only; omega, a1.2⟩, ⟨by simp only; omega, a2.2⟩, by simp only; omega,
        by simp only; omega⟩ ⟨⟨by simp only; omega, a3.2⟩, ⟨by simp only; omega, a4.2⟩, by simp only; omega,
        by simp only; omega⟩
      simp only [Prod.mk.injEq, Nat.cast_inj] at this
      exact ⟨this.1, this.2.1, mm_unique h4 k4 hf.entry hf'.entry this.2.2 he2⟩

end Spasm
