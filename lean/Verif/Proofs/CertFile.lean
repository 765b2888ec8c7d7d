import Verif.Proofs.Save
import Verif.Proofs.Certificate

/-! Files of certificates. -/

namespace Spasm

open Sha

def White (w : List Char) : Prop := ∀ c ∈ w, isspace c = true

theorem White.append {a b : List Char} (ha : White a) (hb : White b) : White (a ++ b) := by
  intro c hc
  rcases List.mem_append.mp hc with h | h
  · exact ha c h
  · exact hb c h

theorem white_nl : White ['\n'] := by intro c hc; rw [List.mem_singleton.mp hc]; decide
theorem white_sp : White [' '] := by intro c hc; rw [List.mem_singleton.mp hc]; decide
theorem white_nil : White [] := by intro c hc; cases hc

theorem skipWs_white {w : List Char} (h : White w) (s : List Char) : skipWs (w ++ s) = skipWs s :=
  List.dropWhile_append_of_pos h

theorem scanD_white {bits : Nat} {w : List Char} (hw : White w) {x : Int} (h1 : -2 ^ bits ≤ x) (h2 : x < 2 ^ bits)
    {s : List Char} (hs : ∀ c, s.head? = some c → c.isDigit = false) :
    scanD bits (w ++ (fmtD x ++ s)) = .ok (some x, s) := by
  have h := scanD_dec (bits := bits) (w := []) (by simp [Blank]) h1 h2 hs
  rw [List.nil_append] at h
  rw [← h]
  unfold scanD scanInt
  rw [skipWs_white hw]

/-- The numbers of a list. -/
def listText (l : List Int) : List Char := l.flatMap fun v => fmtD v ++ [' ']

theorem save_list_spec {r : Nat} {a : Array Int} (ha : a.size = r) (out : List Char) :
    Ok (save_list r a out) (fun t => t = out ++ listText a.toList ++ ['\n']) := by
  unfold save_list
  rw [Ok_bind]
  refine (Ok_forRange (I := fun k t => t = out ++ listText (a.toList.take k)) (Nat.zero_le _) (by simp [listText])
    ?_).mono ?_
  · rintro k t - hk rfl
    rw [Ok_bind, Ok_rd]
    refine ⟨by omega, ?_⟩
    rw [Ok_ok, List.take_add_one, List.getElem?_eq_getElem (by simp; omega), g_eq _ _ (by omega)]
    simp [listText]
  · rintro t rfl
    rw [Ok_ok, List.take_of_length_le (by simp; omega)]

theorem arrInt_ext {a b : Array Int} (hs : a.size = b.size) (h : ∀ k, k < b.size → a.g k = b.g k) : a = b := by
  refine Array.ext hs ?_
  intro k h1 h2
  have := h k h2
  rwa [g_eq _ _ h1, g_eq _ _ h2] at this

theorem load_list_spec {r : Nat} {a b : Array Int} (ha : a.size = r) (hb : b.size = r)
    (hv : ∀ k, k < r → -2 ^ 31 ≤ b.g k ∧ b.g k < 2 ^ 31) {w : List Char} (hw : White w) (s : List Char) :
    Ok (load_list r a (w ++ (listText b.toList ++ s))) (fun x => x.1 = b ∧ ∃ w', White w' ∧ x.2 = w' ++ s) := by
  unfold load_list
  refine (Ok_forRange (I := fun k x => x.1.size = r ∧ (∀ t, t < k → x.1.g t = b.g t) ∧
    ∃ w', White w' ∧ x.2 = w' ++ (listText (b.toList.drop k) ++ s)) (Nat.zero_le _)
    ⟨ha, by simp, w, hw, by simp⟩ ?_).mono ?_
  · rintro k ⟨a', f⟩ - hk ⟨h1, h2, w', h3, h4⟩
    simp only at h1 h2 h4 ⊢
    subst h4
    obtain ⟨v1, v2⟩ := hv k hk
    have e : b.toList.drop k = b.g k :: b.toList.drop (k + 1) := by
      rw [List.drop_eq_getElem_cons (by simp; omega), g_eq _ _ (by omega)]
      simp
    have e2 : w' ++ (listText (b.toList.drop k) ++ s) =
        w' ++ (fmtD (b.g k) ++ (' ' :: (listText (b.toList.drop (k + 1)) ++ s))) := by
      rw [e]; simp [listText]
    rw [e2, scanD_white h3 v1 v2 (by intro c hc; simp at hc; subst hc; decide), Ok_bind, Ok_ok]
    simp only [Ok_bind, Ok_wr, Ok_ok]
    refine ⟨by omega, by simp [h1], ?_, [' '], white_sp, rfl⟩
    intro t ht
    by_cases htk : t = k
    · subst htk; rw [g_upd_eq _ _ _ (by omega)]
    · rw [g_upd_ne _ _ _ _ (by omega)]; exact h2 t (by omega)
  · rintro ⟨a', f⟩ ⟨h1, h2, w', h3, h4⟩
    refine ⟨arrInt_ext (by omega) (fun k hk => h2 k (by omega)), w', h3, ?_⟩
    rw [h4, List.drop_of_length_le (by simp; omega)]
    simp [listText]

/-! ### Hashes -/

def hashText (h : Array B) : List Char := h.toList.flatMap fmt02x

theorem hex_byte : ∀ b : B, strtoul16 (cstr [hexDigit (b.toNat / 16), hexDigit (b.toNat % 16)]) = b := by
  decide +kernel

theorem hex_ok : ∀ b : B, ∀ c ∈ fmt02x b, isspace c = false ∧ c ≠ '\n' ∧ c.toNat ≠ 0 := by
  decide +kernel

theorem flatMap_pair_length (l : List B) : (l.flatMap fmt02x).length = 2 * l.length := by
  induction l with
  | nil => rfl
  | cons b l ih => rw [List.flatMap_cons, List.length_append, ih]; simp [fmt02x]; omega

theorem flatMap_pair (l : List B) : ∀ i (h : i < l.length),
    (l.flatMap fmt02x).getD (2 * i) '\x00' = hexDigit (l[i].toNat / 16) ∧
    (l.flatMap fmt02x).getD (2 * i + 1) '\x00' = hexDigit (l[i].toNat % 16) := by
  induction l with
  | nil => intro i h; simp at h
  | cons b l ih =>
    intro i h
    cases i with
    | zero => simp [fmt02x]
    | succ i =>
      have := ih i (by simpa using h)
      rw [List.flatMap_cons, show 2 * (i + 1) = 2 * i + 1 + 1 by omega]
      unfold fmt02x at this ⊢
      simpa using this

theorem takeLine_full : ∀ (b s : List Char), '\n' ∉ b → takeLine b.length (b ++ s) = (b, s) := by
  intro b
  induction b with
  | nil => intro s _; cases s <;> rfl
  | cons c b ih =>
    intro s h
    simp only [List.mem_cons, not_or] at h
    simp only [List.length_cons, List.cons_append, takeLine]
    rw [if_neg (fun e => h.1 e.symm), ih s h.2]

theorem save_hash_spec {h : Array B} (hh : h.size = 32) (out : List Char) :
    Ok (forRange 0 32 out fun i out => do
      let b ← rd h i
      .ok (out ++ fmt02x b)) (fun t => t = out ++ hashText h) := by
  refine (Ok_forRange (I := fun k t => t = out ++ (h.toList.take k).flatMap fmt02x) (Nat.zero_le _) (by simp)
    ?_).mono ?_
  · rintro k t - hk rfl
    rw [Ok_bind, Ok_rd]
    refine ⟨by omega, ?_⟩
    rw [Ok_ok, List.take_add_one, List.getElem?_eq_getElem (by simp; omega), g_eq _ _ (by omega)]
    simp
  · rintro t rfl
    rw [List.take_of_length_le (by simp; omega)]
    rfl

theorem load_hash_spec (jc : Nat → Char) {h0 h : Array B} (h0s : h0.size = 32) (hs : h.size = 32) :
    Ok (forRange 0 32 h0 fun i x =>
      wr x i (strtoul16 (cstr [hash_buffer jc (hashText h) (2 * i), hash_buffer jc (hashText h) (2 * i + 1)])))
      (fun x => x = h) := by
  have hl : (hashText h).length = 64 := by unfold hashText; rw [flatMap_pair_length]; simp [hs]
  refine (Ok_forRange (I := fun k x => x.size = 32 ∧ ∀ t, t < k → x.g t = h.g t) (Nat.zero_le _)
    ⟨h0s, by simp⟩ ?_).mono ?_
  · rintro k x - hk ⟨h1, h2⟩
    rw [Ok_wr]
    refine ⟨by omega, by simp [h1], ?_⟩
    obtain ⟨e1, e2⟩ := flatMap_pair h.toList k (by simp; omega)
    have b1 : hash_buffer jc (hashText h) (2 * k) = hexDigit (h[k].toNat / 16) := by
      unfold hash_buffer
      rw [if_pos (by omega)]; unfold hashText; rw [e1]; simp
    have b2 : hash_buffer jc (hashText h) (2 * k + 1) = hexDigit (h[k].toNat % 16) := by
      unfold hash_buffer
      rw [if_pos (by omega)]; unfold hashText; rw [e2]; simp
    intro t ht
    by_cases htk : t = k
    · subst htk
      rw [g_upd_eq _ _ _ (by omega), b1, b2, hex_byte, g_eq _ _ (by omega)]
    · rw [g_upd_ne _ _ _ _ (by omega)]; exact h2 t (by omega)
  · rintro x ⟨h1, h2⟩
    refine Array.ext (by omega) ?_
    intro k k1 k2
    have := h2 k (by omega)
    rwa [g_eq _ _ k1, g_eq _ _ k2] at this

/-! ### Certificates -/

/-- A certificate whose numbers fit in the types of the program. -/
structure Cert.Fits (c : Cert) : Prop where
  r_lt : c.r < 2 ^ 31
  prime_ge : -2 ^ 63 ≤ c.prime
  prime_lt : c.prime < 2 ^ 63
  hash_size : c.hash.size = 32
  i_size : c.i.size = c.r
  j_size : c.j.size = c.r
  x_size : c.x.size = c.r
  y_size : c.y.size = c.r
  i_fits : ∀ k, k < c.r → -2 ^ 31 ≤ c.i.g k ∧ c.i.g k < 2 ^ 31
  j_fits : ∀ k, k < c.r → -2 ^ 31 ≤ c.j.g k ∧ c.j.g k < 2 ^ 31
  x_fits : ∀ k, k < c.r → -2 ^ 31 ≤ c.x.g k ∧ c.x.g k < 2 ^ 31
  y_fits : ∀ k, k < c.r → -2 ^ 31 ≤ c.y.g k ∧ c.y.g k < 2 ^ 31

/-- The text of a certificate. -/
def certText (c : Cert) : List Char :=
  fmtD c.r ++ ['\n'] ++ fmtD c.prime ++ ['\n'] ++ hashText c.hash ++ ['\n'] ++ listText c.i.toList ++ ['\n'] ++
    listText c.j.toList ++ ['\n'] ++ listText c.x.toList ++ ['\n'] ++ listText c.y.toList ++ ['\n']

theorem certificate_save_spec {c : Cert} (h : c.Fits) : Ok (certificate_save c) (fun t => t = certText c) := by
  unfold certificate_save
  simp only
  rw [Ok_bind]
  refine (save_hash_spec h.hash_size _).mono ?_
  rintro t rfl
  rw [Ok_bind]
  refine (save_list_spec h.i_size _).mono ?_
  rintro t rfl
  rw [Ok_bind]
  refine (save_list_spec h.j_size _).mono ?_
  rintro t rfl
  rw [Ok_bind]
  refine (save_list_spec h.x_size _).mono ?_
  rintro t rfl
  refine (save_list_spec h.y_size _).mono ?_
  rintro t rfl
  rfl

/-- What is read back. -/
theorem certificate_load_spec (jk : Junk) (jc : Nat → Char) {c0 c : Cert} (h0 : c0.hash.size = 32) (h : c.Fits) :
    Ok (certificate_load jk jc c0 (certText c)) (fun x =>
      x = (true, ⟨c.r, c.prime, c.hash, c.j, mkArr c.r jk.int, c.x, c.y⟩)) := by
  have hr := h.r_lt
  have e : certText c = [] ++ (fmtD c.r ++ ('\n' :: (fmtD c.prime ++ ('\n' :: (hashText c.hash ++ ('\n' ::
      (listText c.i.toList ++ ('\n' :: (listText c.j.toList ++ ('\n' :: (listText c.x.toList ++ ('\n' ::
      (listText c.y.toList ++ ['\n']))))))))))))) := by
    unfold certText; simp
  rw [e]
  unfold certificate_load
  have hnl : ∀ s : List Char, ∀ d, ('\n' :: s).head? = some d → d.isDigit = false := by
    intro s d hd; simp at hd; subst hd; decide
  rw [scanD_white white_nil (by omega) (by omega) (hnl _), Ok_bind, Ok_ok]
  simp only
  rw [← List.singleton_append (l := fmtD c.prime ++ _), scanD_white white_nl h.prime_ge h.prime_lt (hnl _), Ok_bind,
    Ok_ok]
  simp only
  have hl : (hashText c.hash).length = 64 := by
    unfold hashText; rw [flatMap_pair_length]; simp [h.hash_size]
  have hmem : ∀ d ∈ hashText c.hash, isspace d = false ∧ d ≠ '\n' ∧ d.toNat ≠ 0 := by
    intro d hd
    obtain ⟨b, -, hb⟩ := List.mem_flatMap.mp hd
    exact hex_ok b d hb
  rw [← List.singleton_append (l := hashText c.hash ++ _), skipWs_white white_nl, skipWs_head]
  · rw [if_neg (by
      intro h1
      rw [List.isEmpty_iff, List.append_eq_nil_iff] at h1
      simp at h1)]
    have ht := takeLine_full (hashText c.hash) ('\n' :: (listText c.i.toList ++ ('\n' :: (listText c.j.toList ++
      ('\n' :: (listText c.x.toList ++ ('\n' :: (listText c.y.toList ++ ['\n']))))))))
      (fun hm => (hmem _ hm).2.1 rfl)
    rw [hl] at ht
    rw [ht]
    simp only
    rw [Ok_bind]
    refine (load_hash_spec jc h0 h.hash_size).mono ?_
    rintro _ rfl
    rw [Ok_bind, show (c.r : Int).toNat = c.r by omega, ← List.singleton_append (l := listText c.i.toList ++ _)]
    refine (load_list_spec (by simp) h.i_size h.i_fits white_nl _).mono ?_
    rintro ⟨a, f⟩ ⟨h1, w, h2, h3⟩
    simp only at h1 h3 ⊢
    subst h1 h3
    rw [Ok_bind, ← List.singleton_append (l := listText c.j.toList ++ _), ← List.append_assoc]
    refine (load_list_spec h.i_size h.j_size h.j_fits (h2.append white_nl) _).mono ?_
    rintro ⟨a, f⟩ ⟨h1, w, h2, h3⟩
    simp only at h1 h3 ⊢
    subst h1 h3
    rw [Ok_bind, ← List.singleton_append (l := listText c.x.toList ++ _), ← List.append_assoc]
    refine (load_list_spec (by simp) h.x_size h.x_fits (h2.append white_nl) _).mono ?_
    rintro ⟨a, f⟩ ⟨h1, w, h2, h3⟩
    simp only at h1 h3 ⊢
    subst h1 h3
    rw [Ok_bind, ← List.singleton_append (l := listText c.y.toList ++ _), ← List.append_assoc]
    refine (load_list_spec (by simp) h.y_size h.y_fits (h2.append white_nl) _).mono ?_
    rintro ⟨a, f⟩ ⟨h1, w, h2, h3⟩
    simp only at h1 h3 ⊢
    subst h1
    rfl
  · intro d hd
    have : d ∈ hashText c.hash := by
      cases hx : hashText c.hash with
      | nil => rw [hx] at hl; simp at hl
      | cons y z =>
        rw [hx] at hd
        simp only [List.cons_append, List.head?_cons, Option.some.injEq] at hd
        subst hd; simp
    exact (hmem d this).1

end Spasm
