import Verif.Proofs.Sha256

/-
C35: the hash function.
-/

namespace Spasm.Sha

open Fips

/-- The caller's protocol: init, one update per chunk, final. -/
def digest (jk : Nat → W) (md : Array B) (chunks : List (Array B)) : C (Array B) := do
  let c ← chunks.foldlM (fun c d => SHA256_update jk c d d.size) SHA256_init
  let r ← SHA256_final jk md c
  .ok r.1

theorem updates_spec (jk : Nat → W) (f : Nat → B) (chunks : List (Array B)) :
    ∀ (n : Nat) (c : Ctx), Rep f n c →
    (∀ i, i < (chunks.flatMap Array.toList).length → (chunks.flatMap Array.toList).getD i 0 = f (n + i)) →
    Ok (chunks.foldlM (fun c d => SHA256_update jk c d d.size) c)
      (Rep f (n + (chunks.flatMap Array.toList).length)) := by
  induction chunks with
  | nil => intro n c h _; simpa using h
  | cons d ds ih =>
    intro n c h hf
    rw [List.foldlM_cons, Ok_bind]
    rw [List.flatMap_cons] at hf ⊢
    refine (update_spec jk f n c d d.size h (le_refl _) ?_).mono ?_
    · intro i hi
      have := hf i (by simp; omega)
      rw [List.getD_append _ _ _ _ (by simpa using hi)] at this
      rw [← this, g_eq _ _ hi]
      simp [hi]
    · intro c' hc'
      have := ih (n + d.size) c' hc' ?_
      · rw [List.length_append, Array.length_toList, ← Nat.add_assoc]
        exact this
      · intro i hi
        have := hf (d.size + i) (by simp at hi ⊢; omega)
        rw [List.getD_append_right _ _ _ _ (by simp)] at this
        simp only [Array.length_toList, Nat.add_sub_cancel_left] at this
        rw [this, Nat.add_assoc]

/-- C35. However the message is cut into chunks (empty ones allowed), the digest obtained is the
SHA-256 digest of the message; no access is out of bounds, whatever uninitialized memory contains.
(FIPS 180-4 defines SHA-256 for messages of less than 2^61 bytes; for longer ones the length is taken
modulo 2^64 on both sides.) -/
theorem C35_sha256 (jk : Nat → W) (md : Array B) (hmd : md.size = 32) (chunks : List (Array B)) :
    Ok (digest jk md chunks) (fun r => r.toList = sha256 (chunks.flatMap Array.toList)) := by
  unfold digest
  rw [Ok_bind]
  refine (updates_spec jk (fun i => (pad (chunks.flatMap Array.toList)).getD i 0) chunks 0 SHA256_init
    (Rep.init _) ?_).mono ?_
  · intro i hi
    rw [Nat.zero_add, pad_lt _ _ hi]
  · intro c hc
    rw [Nat.zero_add] at hc
    rw [Ok_bind]
    refine (final_spec jk md _ c hmd hc).mono ?_
    intro r hr
    rw [Ok_ok]; exact hr

/-- The digest does not depend on how the message is cut. -/
theorem C35_chunking (jk jk' : Nat → W) (md md' : Array B) (hmd : md.size = 32) (hmd' : md'.size = 32)
    (chunks chunks' : List (Array B))
    (h : chunks.flatMap Array.toList = chunks'.flatMap Array.toList) :
    ∃ r, digest jk md chunks = .ok r ∧ digest jk' md' chunks' = .ok r := by
  have h1 := C35_sha256 jk md hmd chunks
  have h2 := C35_sha256 jk' md' hmd' chunks'
  rw [Ok_iff] at h1 h2
  obtain ⟨r, e1, e2⟩ := h1
  obtain ⟨r', e3, e4⟩ := h2
  refine ⟨r, e1, ?_⟩
  rw [e3]
  congr 1
  apply Array.toList_inj.1
  rw [e2, e4, h]

/-- "abc" in two chunks: the value published in FIPS 180-4. -/
theorem exAbc : (match digest default (mkArr 32 default) [#[0x61, 0x62], #[], #[0x63]] with
    | .ok r => decide (r.toList =
      [0xba, 0x78, 0x16, 0xbf, 0x8f, 0x01, 0xcf, 0xea, 0x41, 0x41, 0x40, 0xde, 0x5d, 0xae, 0x22, 0x23,
       0xb0, 0x03, 0x61, 0xa3, 0x96, 0x17, 0x7a, 0x9c, 0xb4, 0x10, 0xff, 0x61, 0xf2, 0x00, 0x15, 0xad])
    | .error _ => false) = true := by decide +kernel

/-- Hence the specification gives the published value too. -/
example : sha256 [0x61, 0x62, 0x63] =
    [0xba, 0x78, 0x16, 0xbf, 0x8f, 0x01, 0xcf, 0xea, 0x41, 0x41, 0x40, 0xde, 0x5d, 0xae, 0x22, 0x23,
     0xb0, 0x03, 0x61, 0xa3, 0x96, 0x17, 0x7a, 0x9c, 0xb4, 0x10, 0xff, 0x61, 0xf2, 0x00, 0x15, 0xad] := by
  have h := C35_sha256 default (mkArr 32 default) (by simp) [#[0x61, 0x62], #[], #[0x63]]
  rw [Ok_iff] at h
  obtain ⟨r, h1, h2⟩ := h
  have h3 := exAbc
  rw [h1] at h3
  have h3 := of_decide_eq_true h3
  rw [← h3, h2]
  rfl

end Spasm.Sha
