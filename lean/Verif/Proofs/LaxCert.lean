import Verif.Spec.LaxCert
import Verif.Proofs.Lax
import Verif.Proofs.CertFile

/-
Reading of certificates in any layout.
-/

namespace Spasm

open Sha

theorem HexDigit.lt {c : Char} {v : Nat} (h : HexDigit c v) : v < 16 := by
  rcases h with h | h <;>
  · obtain ⟨h, -⟩ := List.getElem?_eq_some_iff.mp h
    exact h

theorem HexDigit.facts {c : Char} {v : Nat} (h : HexDigit c v) :
    hexVal c = some v ∧ isspace c = false ∧ c ≠ '-' ∧ c ≠ '+' ∧ c.toNat ≠ 0 ∧ c ≠ '\n' := by
  have hv := h.lt
  rcases h with h | h <;>
  · interval_cases v <;> (simp at h; subst h; decide)

theorem strtoul16_hex {c d : Char} {a b : Nat} (hc : HexDigit c a) (hd : HexDigit d b) :
    strtoul16 (cstr [c, d]) = BitVec.ofNat 8 (16 * a + b) := by
  obtain ⟨c1, c2, c3, c4, c5, -⟩ := hc.facts
  obtain ⟨d1, -, -, -, d5, -⟩ := hd.facts
  have e : cstr [c, d] = [c, d] := by simp [cstr, c5, d5]
  have e2 : skipWs [c, d] = [c, d] := skipWs_head (by intro x hx; simp at hx; subst hx; exact c2)
  have e3 : scanSign [c, d] = (false, [c, d]) := by
    unfold scanSign
    split
    · rename_i h; simp at h; exact absurd h.1 c3
    · rename_i h; simp at h; exact absurd h.1 c4
    · rfl
  unfold strtoul16
  rw [e, e2, e3]
  simp [hexDigits, c1, d1]

theorem HexText.length {t : List Char} {l : List (BitVec 8)} (h : HexText t l) : t.length = 2 * l.length := by
  induction h with
  | nil => rfl
  | cons c d a b t l _ _ _ ih => simp [ih]; omega

theorem HexText.mem {t : List Char} {l : List (BitVec 8)} (h : HexText t l) : ∀ c ∈ t, ∃ v, HexDigit c v := by
  induction h with
  | nil => simp
  | cons c d a b t l hc hd _ ih =>
    intro x hx
    simp only [List.mem_cons] at hx
    rcases hx with rfl | rfl | hx
    · exact ⟨a, hc⟩
    · exact ⟨b, hd⟩
    · exact ih x hx

theorem HexText.get {t : List Char} {l : List (BitVec 8)} (h : HexText t l) : ∀ i, i < l.length →
    strtoul16 (cstr [t.getD (2 * i) '\x00', t.getD (2 * i + 1) '\x00']) = l.getD i 0 := by
  induction h with
  | nil => intro i hi; simp at hi
  | cons c d a b t l hc hd _ ih =>
    intro i hi
    cases i with
    | zero => simpa using strtoul16_hex hc hd
    | succ i =>
      have := ih i (by simpa using hi)
      rw [show 2 * (i + 1) = 2 * i + 1 + 1 by omega, show 2 * i + 1 + 1 + 1 = (2 * i + 1) + 1 + 1 by omega]
      simpa [List.getD_cons_succ] using this

theorem hash_loop_lax (jc : Nat → Char) {h0 : Array B} (h0s : h0.size = 32) {t : List Char} {l : List B}
    (h : HexText t l) (hl : l.length = 32) :
    Ok (forRange 0 32 h0 fun i x => wr x i (strtoul16 (cstr [hash_buffer jc t (2 * i), hash_buffer jc t (2 * i + 1)])))
      (fun x => x = l.toArray) := by
  have ht := h.length
  refine (Ok_forRange (I := fun k x => x.size = 32 ∧ ∀ i, i < k → x.g i = l.getD i 0) (Nat.zero_le _)
    ⟨h0s, by simp⟩ ?_).mono ?_
  · rintro k x - hk ⟨h1, h2⟩
    rw [Ok_wr]
    refine ⟨by omega, by simp [h1], ?_⟩
    intro i hi
    rw [g_upd]
    split_ifs with hik
    · obtain ⟨rfl, -⟩ := hik
      unfold hash_buffer
      rw [if_pos (by omega), if_pos (by omega)]
      exact h.get _ (by omega)
    · exact h2 i (by omega)
  · rintro x ⟨h1, h2⟩
    refine Array.ext (by simp [h1, hl]) fun i hi hi' => ?_
    have := h2 i (by omega)
    rw [g_eq x i hi] at this
    rw [this]
    simp at hi'
    simp [List.getD_eq_getElem?_getD, hi']

theorem load_list_nums {r : Nat} {a : Array Int} (ha : a.size = r) {f t : List Char} {l : List Int} (h : LaxNums f l t)
    (hl : l.length = r) (hv : ∀ x ∈ l, -2 ^ 31 ≤ x ∧ x < 2 ^ 31) :
    Ok (load_list r a f) (fun s => s = (l.toArray, t)) := by
  unfold load_list
  refine (Ok_forRange (I := fun k s => s.1.size = r ∧ (∀ i, i < k → s.1.g i = l.getD i 0) ∧ LaxNums s.2 (l.drop k) t)
    (Nat.zero_le _) ⟨ha, by simp, by simpa using h⟩ ?_).mono ?_
  · rintro k ⟨a', g⟩ - hk ⟨h1, h2, h3⟩
    simp only at h1 h2 h3 ⊢
    rw [List.drop_eq_getElem_cons (by omega)] at h3
    cases h3 with
    | cons w s f' _ _ _ hw hs hf hn =>
      rw [scanD_numeral hw hs hf (hv _ (List.getElem_mem _)), Ok_bind, Ok_ok]
      simp only
      rw [Ok_bind, Ok_wr]
      refine ⟨by omega, ?_⟩
      rw [Ok_ok]
      refine ⟨by simp [h1], ?_, hn⟩
      intro i hi
      rw [g_upd]
      split_ifs with hik
      · obtain ⟨rfl, -⟩ := hik
        simp [List.getD_eq_getElem?_getD, List.getElem?_eq_getElem (show i < l.length by omega)]
      · exact h2 i (by omega)
  · rintro ⟨x, g⟩ ⟨h1, h2, h3⟩
    simp only at h1 h2 h3
    rw [List.drop_of_length_le (by omega)] at h3
    cases h3
    congr 1
    refine Array.ext (by simp [h1, hl]) fun i hi hi' => ?_
    have := h2 i (by omega)
    rw [g_eq x i hi] at this
    rw [this]
    simp at hi'
    simp [List.getD_eq_getElem?_getD, hi']

theorem LaxNums.split {f t : List Char} {l1 l2 : List Int} (h : LaxNums f (l1 ++ l2) t) :
    ∃ g, LaxNums f l1 g ∧ LaxNums g l2 t := by
  induction l1 generalizing f with
  | nil => exact ⟨f, .nil f, h⟩
  | cons x l1 ih =>
    cases h with
    | cons w s f' _ _ _ hw hs hf hn =>
      obtain ⟨g, h1, h2⟩ := ih hn
      exact ⟨g, .cons w s f' g x l1 hw hs hf h1, h2⟩

theorem scanD_ok {bits : Nat} {s t : List Char} {x : Int} (h : scanD bits s = .ok (some x, t)) :
    scanInt s = (some x, t) := by
  obtain ⟨-, w, n, h1, h2, h3, rfl⟩ := scanD_inv h
  exact scanInt_numeral h1 h2 h3

theorem hexDigit_hex {v : Nat} (h : v < 16) : HexDigit (hexDigit v) v := by
  left
  interval_cases v <;> decide

/-- The beginning of a certificate. -/
theorem CertHead.scan {f h : List Char} {r p : Int} (hd : CertHead f r p h) :
    ∃ g g', scanInt f = (some r, g) ∧ scanInt g = (some p, g') ∧ skipWs g' = h := by
  obtain ⟨w1, s1, w2, s2, w3, h1, h2, h3, h4, h5, h6, h7, h8, h9, rfl⟩ := hd
  refine ⟨w2 ++ (s2 ++ (w3 ++ h)), w3 ++ h, ?_, scanInt_numeral h2 h5 h7, ?_⟩
  · rw [show w1 ++ s1 ++ w2 ++ s2 ++ w3 ++ h = w1 ++ (s1 ++ (w2 ++ (s2 ++ (w3 ++ h)))) by simp]
    refine scanInt_numeral h1 h4 ?_
    rw [← List.append_assoc]
    exact notDigit_append h6 (by simp [h5.ne_nil]) _
  · rw [skipWs_spaces h3]
    refine skipWs_head fun c hc => ?_
    have := h9 c hc
    rw [← isspace_iff] at this
    simpa using this

theorem CertHead.of_scan {f g g' : List Char} {r p : Int} (h1 : scanInt f = (some r, g))
    (h2 : scanInt g = (some p, g')) (h3 : skipWs g' ≠ []) : CertHead f r p (skipWs g') := by
  obtain ⟨w1, s1, a1, a2, a3, rfl⟩ := scanInt_inv h1
  obtain ⟨w2, s2, b1, b2, b3, rfl⟩ := scanInt_inv h2
  obtain ⟨w3, c1, c2, c3⟩ := skipWs_split g'
  refine ⟨w1, s1, w2, s2, w3, a1, b1, c1, a2, b2, ?_, by rw [← c2]; exact b3, h3, ?_, ?_⟩
  · rw [← List.append_assoc] at a3
    exact notDigit_prefix a3
  · intro c hc
    exact c3 c hc
  · conv_lhs => rw [c2]
    simp

end Spasm
