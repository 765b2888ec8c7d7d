import Verif.Proofs.CertFile
import Verif.Model.Tools
import Verif.Props.Certificate
import Verif.Props.IoAny

/-!
C39: files of certificates.  C44: the tool that checks them.
-/

namespace Spasm

open Sha

attribute [local irreducible] certificate_load

/-! ### C39 -/

/-- C39 (partial). A certificate which was saved is loaded without error, and its rank, prime, hash and both lists of
coefficients are as they were.  Missing: the rows and columns.  The loader reads the columns over the rows and leaves
the columns uninitialised. -/
theorem C39_partial (jk : Junk) (jc : Nat → Char) {c0 c : Cert} (h0 : c0.hash.size = 32) (h : c.Fits) :
    Ok (do let t ← certificate_save c; certificate_load jk jc c0 t) (fun x => x.1 = true ∧ x.2.r = c.r ∧
      x.2.prime = c.prime ∧ x.2.hash = c.hash ∧ x.2.x = c.x ∧ x.2.y = c.y ∧ x.2.i = c.j ∧
      x.2.j = mkArr c.r jk.int) := by
  rw [Ok_bind]
  refine (certificate_save_spec h).mono fun t ht => ?_
  rw [ht]
  show Ok (certificate_load jk jc c0 (certText c)) _
  have hL := certificate_load_spec jk jc (c0 := c0) (c := c) h0 h
  generalize certificate_load jk jc c0 (certText c) = y at hL ⊢
  refine hL.mono ?_
  intro x hx
  subst hx
  exact ⟨rfl, rfl, rfl, rfl, rfl, rfl, rfl, rfl⟩

/-- C39 (defect). No certificate whose rows are not exactly its columns is read back, whatever the memory
contains. -/
theorem C39_rows_lost (jk : Junk) (jc : Nat → Char) {c0 c : Cert} (h0 : c0.hash.size = 32) (h : c.Fits)
    (hij : c.i ≠ c.j) :
    Ok (do let t ← certificate_save c; certificate_load jk jc c0 t) (fun x => x.1 = true ∧ x.2 ≠ c) := by
  refine (C39_partial jk jc h0 h).mono ?_
  rintro x ⟨h1, -, -, -, -, -, h2, -⟩
  refine ⟨h1, fun he => hij ?_⟩
  rw [← h2, he]

/-- C39 (defect). For every certificate of a nonzero rank, there is a content of the memory with which it is not read
back. -/
theorem C39_cols_lost (jc : Nat → Char) {c0 c : Cert} (h0 : c0.hash.size = 32) (h : c.Fits) (hr : 0 < c.r) :
    ∃ jk : Junk, Ok (do let t ← certificate_save c; certificate_load jk jc c0 t) (fun x => x.1 = true ∧ x.2 ≠ c) := by
  refine ⟨{ (default : Junk) with int := fun _ => c.j.g 0 + 1 }, (C39_partial _ jc h0 h).mono ?_⟩
  rintro x ⟨h1, -, -, -, -, -, -, h2⟩
  refine ⟨h1, fun he => ?_⟩
  rw [he] at h2
  have h3 := congrArg (fun a => a.g 0) h2
  simp only at h3
  rw [g_eq (mkArr _ _) 0 (by simpa using hr)] at h3
  simp [mkArr] at h3

/-- A certificate of rank 2. -/
def exCert : Cert := ⟨2, 7, exHash, #[0, 1], #[1, 2], #[3, -1], #[0, 2]⟩

theorem exCert_fits : exCert.Fits := by
  refine ⟨by decide, by decide, by decide, by simp [exCert, exHash], by decide, by decide, by decide, by decide,
    ?_, ?_, ?_, ?_⟩ <;>
  · intro k hk
    have hk : k < 2 := hk
    interval_cases k <;> decide

/-- The hypotheses are met, and what is loaded is this. -/
example : exCert.Fits ∧ exCert.i ≠ exCert.j ∧
    (match (do let t ← certificate_save exCert; certificate_load default default exCert t) with
      | .ok x => decide (x.1 = true ∧ x.2.i = #[1, 2] ∧ x.2.x = exCert.x)
      | .error _ => false) = true := ⟨exCert_fits, by decide, by decide +kernel⟩

/-! ### C44 -/

theorem bind_ok_split {α β : Type} {x : C α} {f : α → C β} {b : β} (h : x >>= f = .ok b) :
    ∃ a, x = .ok a ∧ f a = .ok b := by
  cases x with
  | error e => cases h
  | ok a => exact ⟨a, rfl, h⟩

/-- C44 (defect). Whenever the tool ends, its verdict and its exit status are the opposite of those of
`spasm_certificate_rank_verify` on the matrix and the certificate it has loaded: the message is "CORRECT certificate"
exactly when the certificate is rejected, and the status is that of a success (0) exactly then. -/
theorem C44_inverted {jk : Junk} {jw : Nat → W} {jc : Nat → Char} {h0 : Nat → B} {c0 : Cert} {ctx0 : Prng}
    {fuel : Nat} {fA fC : List Char} {prime : Int} {msg : List Char} {status : Bool}
    (h : tool_check_cert jk jw jc h0 c0 ctx0 fuel fA fC prime = .ok (msg, status)) :
    ∃ T hash A proof b loaded, triplet_load jk jw fA prime (some (mkArr 32 h0)) = .ok (T, some hash) ∧
      compress jk T = .ok A ∧ certificate_load jk jc c0 fC = .ok (loaded, proof) ∧
      cert_verify jw jk ctx0 fuel A hash proof = .ok b ∧ status = b ∧
      (msg = "CORRECT certificate\n".toList ↔ b = false) ∧ (msg = "INCORRECT certificate\n".toList ↔ b = true) := by
  unfold tool_check_cert at h
  obtain ⟨⟨T, hash⟩, h1, h⟩ := bind_ok_split h
  obtain ⟨A, h2, h⟩ := bind_ok_split h
  obtain ⟨⟨ld, proof⟩, h3, h⟩ := bind_ok_split h
  obtain ⟨hash', h4, h⟩ := bind_ok_split h
  obtain ⟨b, h5, h⟩ := bind_ok_split h
  simp only [Except.ok.injEq, Prod.mk.injEq] at h
  obtain ⟨rfl, rfl⟩ := h
  cases hash with
  | none => cases h4
  | some d =>
    cases h4
    refine ⟨T, _, A, proof, b, ld, h1, h2, h3, h5, rfl, ?_, ?_⟩ <;> cases b <;> decide

/-- C44 (partial). The verdict of the tool depends only on that of `spasm_certificate_rank_verify` on what it has
loaded: the two possible verdicts get different messages.  Missing: they are exchanged, see `C44_inverted`. -/
theorem C44_partial {jk : Junk} {jw : Nat → W} {jc : Nat → Char} {h0 : Nat → B} {c0 : Cert} {ctx0 : Prng}
    {fuel : Nat} {fA fC : List Char} {prime : Int} {msg : List Char} {status : Bool}
    (h : tool_check_cert jk jw jc h0 c0 ctx0 fuel fA fC prime = .ok (msg, status)) :
    ∃ T hash A proof b loaded, triplet_load jk jw fA prime (some (mkArr 32 h0)) = .ok (T, some hash) ∧
      compress jk T = .ok A ∧ certificate_load jk jc c0 fC = .ok (loaded, proof) ∧
      cert_verify jw jk ctx0 fuel A hash proof = .ok b ∧
      (msg = "CORRECT certificate\n".toList ∨ msg = "INCORRECT certificate\n".toList) ∧
      (b = true ↔ msg ≠ "CORRECT certificate\n".toList) := by
  obtain ⟨T, hash, A, proof, b, ld, h1, h2, h3, h4, -, h5, h6⟩ := C44_inverted h
  refine ⟨T, hash, A, proof, b, ld, h1, h2, h3, h4, ?_, ?_⟩
  · cases b
    · exact .inl (h5.mpr rfl)
    · exact .inr (h6.mpr rfl)
  · rw [ne_eq, h5]; cases b <;> simp

/-- The zero matrix of size 1, a certificate of its rank, and a certificate with a wrong hash. -/
def exZeroFile : List Char := "1 1 M\n0 0 0\n".toList
def exZeroCert : List Char := "0\n7\n5ec91b016f1a6da30fcaeea1a1a496823fc4763cff8533e78c9461bce6b8b723\n\n\n\n\n".toList
def exZeroBad : List Char := "0\n7\n0000000000000000000000000000000000000000000000000000000000000000\n\n\n\n\n".toList

/-- What the tool says. -/
def checkSays (fA fC : List Char) : Option (List Char × Bool) :=
  match tool_check_cert default exJw default (fun _ => 0) exCert exPrng 20 fA fC 7 with
  | .ok r => some r
  | .error _ => none

/-- C44 (defect). The certificate with a wrong hash, which is rejected, is reported as correct. -/
theorem C44_rejected_correct : checkSays exZeroFile exZeroBad = some ("CORRECT certificate\n".toList, false) := by
  decide +kernel

/-- C44 (defect). The valid certificate, which is accepted, is reported as incorrect. -/
theorem C44_accepted_incorrect : checkSays exZeroFile exZeroCert = some ("INCORRECT certificate\n".toList, true) := by
  decide +kernel

end Spasm
