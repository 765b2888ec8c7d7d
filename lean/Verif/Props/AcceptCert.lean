import Verif.Proofs.LaxCert
import Verif.Props.CertFile

/-!
C81: exactly which files are accepted as certificates.

`CertHead`, `HexText` and `LaxNums` are specified in Spec/LaxCert.lean.
-/

namespace Spasm

open Sha

/-- C81 (sound). What is accepted starts with two numbers, which are the rank and the prime of the certificate (a
negative rank counts as zero), and something else. -/
theorem C81_sound {jk : Junk} {jc : Nat → Char} {c0 c : Cert} {f : List Char}
    (h : certificate_load jk jc c0 f = .ok (true, c)) :
    ∃ r p t, CertHead f r p t ∧ (-2 ^ 31 ≤ r ∧ r < 2 ^ 31) ∧ (-2 ^ 63 ≤ p ∧ p < 2 ^ 63) ∧ c.r = r.toNat ∧
      c.prime = p := by
  unfold certificate_load at h
  obtain ⟨⟨r, g⟩, e1, h⟩ := bind_inv h
  cases r with
  | none => simp at h
  | some r =>
    simp only at h
    obtain ⟨⟨p, g'⟩, e2, h⟩ := bind_inv h
    cases p with
    | none => simp at h
    | some p =>
      simp only at h
      obtain ⟨f1, -⟩ := scanD_inv e1
      obtain ⟨f2, -⟩ := scanD_inv e2
      have e1' := scanD_ok e1
      have e2' := scanD_ok e2
      split at h
      · simp at h
      · rename_i hne
        obtain ⟨_, -, h⟩ := bind_inv h
        obtain ⟨⟨_, _⟩, -, h⟩ := bind_inv h
        obtain ⟨⟨_, _⟩, -, h⟩ := bind_inv h
        obtain ⟨⟨_, _⟩, -, h⟩ := bind_inv h
        obtain ⟨⟨_, _⟩, -, h⟩ := bind_inv h
        simp only [Except.ok.injEq, Prod.mk.injEq, true_and] at h
        subst h
        exact ⟨r, p, _, .of_scan e1' e2' (by simpa using hne), f1, f2, rfl, rfl⟩

/-- C81 (refused). What is refused does not. -/
theorem C81_refused {jk : Junk} {jc : Nat → Char} {c0 c : Cert} {f : List Char}
    (h : certificate_load jk jc c0 f = .ok (false, c)) : ¬ ∃ r p t, CertHead f r p t := by
  rintro ⟨r, p, t, hd⟩
  have hne : t ≠ [] := by
    obtain ⟨_, _, _, _, _, -, -, -, -, -, -, -, h8, -⟩ := hd
    exact h8
  obtain ⟨g, g', e1, e2, e3⟩ := hd.scan
  unfold certificate_load at h
  unfold scanD at h
  rw [e1] at h
  simp only at h
  split at h
  · obtain ⟨⟨r, g⟩, e, h⟩ := bind_inv h
    simp only [Except.ok.injEq, Prod.mk.injEq] at e
    obtain ⟨rfl, rfl⟩ := e
    simp only at h
    rw [e2] at h
    simp only at h
    split at h
    · obtain ⟨⟨r, g⟩, e, h⟩ := bind_inv h
      simp only [Except.ok.injEq, Prod.mk.injEq] at e
      obtain ⟨rfl, rfl⟩ := e
      simp only at h
      rw [e3, if_neg (by simpa using hne)] at h
      obtain ⟨_, -, h⟩ := bind_inv h
      obtain ⟨⟨_, _⟩, -, h⟩ := bind_inv h
      obtain ⟨⟨_, _⟩, -, h⟩ := bind_inv h
      obtain ⟨⟨_, _⟩, -, h⟩ := bind_inv h
      obtain ⟨⟨_, _⟩, -, h⟩ := bind_inv h
      simp at h
    · obtain ⟨_, e, -⟩ := bind_inv h
      cases e
  · obtain ⟨_, e, -⟩ := bind_inv h
    cases e

/-- C81 (unique). The two numbers and what follows are determined by the file. -/
theorem C81_unique {f t t' : List Char} {r r' p p' : Int} (h : CertHead f r p t) (h' : CertHead f r' p' t') :
    r = r' ∧ p = p' ∧ t = t' := by
  obtain ⟨g, k, e1, e2, e3⟩ := h.scan
  obtain ⟨g', k', e1', e2', e3'⟩ := h'.scan
  rw [e1] at e1'
  simp only [Prod.mk.injEq, Option.some.injEq] at e1'
  obtain ⟨rfl, rfl⟩ := e1'
  rw [e2] at e2'
  simp only [Prod.mk.injEq, Option.some.injEq] at e2'
  obtain ⟨rfl, rfl⟩ := e2'
  exact ⟨rfl, rfl, e3.symm.trans e3'⟩

/-- C81 (complete). If what follows is the hash and four lists of numbers that fit, in any layout, then the
certificate is accepted, with this hash and these coefficients.  `_partial`: the columns replace the rows and the
array of the columns is not set (C39). -/
theorem C81_complete_partial (jk : Junk) (jc : Nat → Char) {c0 : Cert} (h0 : c0.hash.size = 32) {f hx t t' : List Char}
    {r : Nat} {p : Int} {hash : List B} {i j x y : List Int} (hd : CertHead f r p (hx ++ t)) (hr : r < 2 ^ 31)
    (hp : -2 ^ 63 ≤ p ∧ p < 2 ^ 63) (hh : HexText hx hash) (hl : hash.length = 32)
    (hn : LaxNums t (i ++ j ++ x ++ y) t') (hi : i.length = r) (hj : j.length = r) (hx' : x.length = r) (hy : y.length = r)
    (hv : ∀ v ∈ i ++ j ++ x ++ y, -2 ^ 31 ≤ v ∧ v < 2 ^ 31) :
    certificate_load jk jc c0 f =
      .ok (true, ⟨r, p, hash.toArray, j.toArray, mkArr r jk.int, x.toArray, y.toArray⟩) := by
  obtain ⟨g, g', e1, e2, e3⟩ := hd.scan
  obtain ⟨t3, hn, n4⟩ := hn.split
  obtain ⟨t2, hn, n3⟩ := hn.split
  obtain ⟨t1, n1, n2⟩ := hn.split
  have hxl := hh.length
  have key : Ok (certificate_load jk jc c0 f) (fun z =>
      z = (true, ⟨r, p, hash.toArray, j.toArray, mkArr r jk.int, x.toArray, y.toArray⟩)) := by
    unfold certificate_load
    rw [show scanD 31 f = .ok (some (r : Int), g) by unfold scanD; rw [e1]; simp only; rw [if_pos (by omega)],
      Ok_bind, Ok_ok]
    simp only
    rw [show scanD 63 g = .ok (some p, g') by unfold scanD; rw [e2]; simp only; rw [if_pos hp], Ok_bind, Ok_ok]
    simp only
    rw [e3, if_neg (by
      intro h
      rw [List.isEmpty_iff, List.append_eq_nil_iff] at h
      rw [h.1, List.length_nil] at hxl
      omega)]
    have ht := takeLine_full hx t (fun hm => by
      obtain ⟨v, hv⟩ := hh.mem _ hm
      exact hv.facts.2.2.2.2.2 rfl)
    rw [hxl, hl] at ht
    rw [ht]
    simp only
    rw [Ok_bind]
    refine (hash_loop_lax jc h0 hh hl).mono ?_
    rintro _ rfl
    rw [Ok_bind, Int.toNat_natCast]
    refine (load_list_nums (by simp) n1 hi (fun v h => hv v (by simp [h]))).mono ?_
    rintro _ rfl
    simp only
    rw [Ok_bind]
    refine (load_list_nums (by simp [hi]) n2 hj (fun v h => hv v (by simp [h]))).mono ?_
    rintro _ rfl
    simp only
    rw [Ok_bind]
    refine (load_list_nums (by simp) n3 hx' (fun v h => hv v (by simp [h]))).mono ?_
    rintro _ rfl
    simp only
    rw [Ok_bind]
    refine (load_list_nums (by simp) n4 hy (fun v h => hv v (by simp [h]))).mono ?_
    rintro _ rfl
    rfl
  obtain ⟨z, e, rfl⟩ := Ok_iff.mp key
  exact e

/-- A certificate in an unusual layout: the numbers are not on the usual lines, and the hash is in upper case. -/
def exLayout : List Char :=
  ("+1\t7 ABABABABABABABABABABABABABABABABABABABABABABABABABABABABABABABAB5\n 003-2\r\n+4".toList)

theorem exLayout_head : CertHead exLayout (1 : Nat) 7 ((List.replicate 32 ['A', 'B']).flatten ++ "5\n 003-2\r\n+4".toList) := by
  refine ⟨[], ['+', '1'], ['\t'], ['7'], [' '], by simp [Spaces], by simp [Spaces, Space], by simp [Spaces, Space],
    ⟨['+'], ['1'], rfl, by simp, by simp, .inl ⟨.inr rfl, by decide⟩⟩,
    ⟨[], ['7'], rfl, by simp, by simp, .inl ⟨.inl rfl, by decide⟩⟩, ?_, ?_, ?_, ?_, by decide +kernel⟩
  · intro c hc; simp at hc; subst hc; decide
  · intro c hc; simp at hc; subst hc; decide
  · exact List.append_ne_nil_of_right_ne_nil _ (by decide)
  · intro c hc
    simp [List.replicate_succ] at hc
    subst hc
    rw [← isspace_iff]; decide

/-- The hypotheses of `C81_complete_partial` are met. -/
example : HexText (List.replicate 32 ['A', 'B']).flatten (List.replicate 32 0xab#8) ∧
    LaxNums "5\n 003-2\r\n+4".toList ([5] ++ [3] ++ [-2] ++ [4]) [] := by
  constructor
  · have : ∀ k, HexText (List.replicate k ['A', 'B']).flatten (List.replicate k 0xab#8) := by
      intro k
      induction k with
      | zero => exact .nil
      | succ k ih =>
        rw [List.replicate_succ, List.replicate_succ, List.flatten_cons]
        exact .cons 'A' 'B' 10 11 _ _ (.inr rfl) (.inr rfl) ih
    exact this 32
  · have nd : ∀ c s, c.isDigit = false → NotDigit (c :: s) := by
      intro c s h d hd; simp at hd; subst hd; exact h
    exact .cons [] ['5'] _ _ _ _ (by simp [Spaces]) ⟨[], ['5'], rfl, by simp, by simp, .inl ⟨.inl rfl, by decide⟩⟩
      (nd '\n' _ (by decide)) (.cons ['\n', ' '] ['0', '0', '3'] _ _ _ _ (by simp [Spaces, Space])
      ⟨[], ['0', '0', '3'], rfl, by simp, by simp, .inl ⟨.inl rfl, by decide⟩⟩ (nd '-' _ (by decide))
      (.cons [] ['-', '2'] _ _ _ _ (by simp [Spaces]) ⟨['-'], ['2'], rfl, by simp, by simp, .inr ⟨rfl, by decide⟩⟩
      (nd '\r' _ (by decide)) (.cons ['\r', '\n'] ['+', '4'] [] _ _ _ (by simp [Spaces, Space])
      ⟨['+'], ['4'], rfl, by simp, by simp, .inl ⟨.inr rfl, by decide⟩⟩ (by intro d hd; simp at hd) (.nil _))))

/-- C81 (defect). The length of the hash is not checked: with a file that ends after one character of it, the other
bytes of the hash are what the stack contained, hence anything. -/
theorem C81_hash_unset (jk : Junk) {c0 : Cert} (h0 : c0.hash.size = 32) {f : List Char} {p : Int}
    (hd : CertHead f 0 p ['?']) (hp : -2 ^ 63 ≤ p ∧ p < 2 ^ 63) {hash : Array B} (hs : hash.size = 32)
    (hz : hash.g 0 = 0) :
    ∃ jc, certificate_load jk jc c0 f = .ok (true, ⟨0, p, hash, #[], #[], #[], #[]⟩) := by
  obtain ⟨g, g', e1, e2, e3⟩ := hd.scan
  refine ⟨fun k => hexDigit (if k % 2 = 0 then (hash.g (k / 2)).toNat / 16 else (hash.g (k / 2)).toNat % 16), ?_⟩
  set jc : Nat → Char := fun k =>
    hexDigit (if k % 2 = 0 then (hash.g (k / 2)).toNat / 16 else (hash.g (k / 2)).toNat % 16) with hjc
  have key : Ok (certificate_load jk jc c0 f) (fun z => z = (true, ⟨0, p, hash, #[], #[], #[], #[]⟩)) := by
    unfold certificate_load
    rw [show scanD 31 f = .ok (some 0, g) by unfold scanD; rw [e1]; simp only; rw [if_pos (by omega)], Ok_bind, Ok_ok]
    simp only
    rw [show scanD 63 g = .ok (some p, g') by unfold scanD; rw [e2]; simp only; rw [if_pos hp], Ok_bind, Ok_ok]
    simp only
    rw [e3, if_neg (by decide), Ok_bind]
    refine (Ok_forRange (I := fun k x => x.size = 32 ∧ ∀ i, i < k → x.g i = hash.g i) (Nat.zero_le _)
      ⟨h0, by simp⟩ ?_).mono ?_
    · rintro k x - hk ⟨h1, h2⟩
      rw [Ok_wr]
      refine ⟨by omega, by simp [h1], ?_⟩
      intro i hi
      rw [g_upd]
      split_ifs with hik
      · obtain ⟨rfl, -⟩ := hik
        rw [show (takeLine 64 ['?']).1 = ['?'] from rfl]
        by_cases hi0 : i = 0
        · subst hi0
          rw [hz, show hash_buffer jc ['?'] (2 * 0) = '?' from rfl, show hash_buffer jc ['?'] (2 * 0 + 1) = '\x00' from rfl]
          decide
        · have hb := (hash.g i).isLt
          have e1 : hash_buffer jc ['?'] (2 * i) = hexDigit ((hash.g i).toNat / 16) := by
            unfold hash_buffer
            rw [if_neg (by simp; omega), if_neg (by simp)]
            simp only [hjc]
            rw [if_pos (by omega), show 2 * i / 2 = i by omega]
          have e2 : hash_buffer jc ['?'] (2 * i + 1) = hexDigit ((hash.g i).toNat % 16) := by
            unfold hash_buffer
            rw [if_neg (by simp), if_neg (by simp; omega)]
            simp only [hjc]
            rw [if_neg (by omega), show (2 * i + 1) / 2 = i by omega]
          rw [e1, e2, strtoul16_hex (hexDigit_hex (by omega)) (hexDigit_hex (by omega))]
          rw [show 16 * ((hash.g i).toNat / 16) + (hash.g i).toNat % 16 = (hash.g i).toNat by omega]
          simp
      · exact h2 i (by omega)
    · rintro x ⟨h1, h2⟩
      have : x = hash := by
        refine Array.ext (by omega) fun i hi hi' => ?_
        rw [← g_eq x i hi, ← g_eq hash i hi', h2 i (by omega)]
      subst this
      rfl
  obtain ⟨z, e, rfl⟩ := Ok_iff.mp key
  exact e

/-- There is such a file. -/
example : CertHead "0\n7\n?".toList 0 7 ['?'] := by
  refine ⟨[], ['0'], ['\n'], ['7'], ['\n'], by simp [Spaces], by simp [Spaces, Space], by simp [Spaces, Space],
    ⟨[], ['0'], rfl, by simp, by simp, .inl ⟨.inl rfl, by decide⟩⟩,
    ⟨[], ['7'], rfl, by simp, by simp, .inl ⟨.inl rfl, by decide⟩⟩, ?_, ?_, by simp, ?_, rfl⟩
  · intro c hc; simp at hc; subst hc; decide
  · intro c hc; simp at hc; subst hc; decide
  · intro c hc; simp at hc; subst hc; rw [← isspace_iff]; decide

end Spasm
