import Verif.Props.CertFile

/-
C39, C46: certificates that prove nothing.  The challenge depends on the matrix only, so that the listed rows and columns
can be chosen when it is known; rows and columns may be repeated, and the announced rank may be negative.
-/

namespace Spasm

open Sha Finset

/-! ### C46 -/

theorem lastAt_some {ix v : Nat → Int} {w : Int → Int} {i : Nat} : ∀ {r : Nat}, (∀ k, k < r → v k = w (ix k)) →
    (∃ k, k < r ∧ ix k = i) → lastAt ix v i r = some (w i)
  | 0, _, ⟨k, hk, _⟩ => absurd hk (by omega)
  | r + 1, hv, ⟨k, hk, hi⟩ => by
    unfold lastAt
    split
    · rename_i h
      rw [hv r (by omega), h]
    · rename_i h
      refine lastAt_some (fun k hk => hv k (by omega)) ⟨k, ?_, hi⟩
      rcases Nat.lt_or_ge k r with h1 | h1
      · exact h1
      · have : k = r := by omega
        subst this
        exact absurd hi h

/-- The rows listed by a forged certificate: all of them, then always row `i0`. -/
def forgedRow (n i0 k : Nat) : Int := if k < n then k else i0

/-- A certificate of rank `r` made for the columns `j 0, ..., j (r-1)`. -/
def forged (q n i0 r : Nat) (hash : Array B) (j : Nat → Nat) : Cert :=
  { r := r, prime := q, hash := hash, i := mkArr r (forgedRow n i0), j := mkArr r fun k => j k,
    x := mkArr r fun k => if forgedRow n i0 k = i0 then 1 else 0, y := mkArr r fun _ => 0 }

theorem forged_fits {q n i0 r : Nat} (hq : q ≤ 0xfffffffb) (hi0 : i0 < n) (hn : n ≤ r) (hr : r < 2 ^ 31)
    {hash : Array B} (hh : hash.size = 32) {j : Nat → Nat} (hj : ∀ k, j k < 2 ^ 31) : (forged q n i0 r hash j).Fits := by
  unfold forged
  refine ⟨hr, by simp only; omega, by simp only; omega, hh, by simp, by simp, by simp, by simp, ?_, ?_, ?_, ?_⟩ <;>
    intro k hk <;> simp only at hk ⊢ <;> rw [g_mkArr r _ _ hk]
  · unfold forgedRow; split <;> omega
  · have := hj k; omega
  · split <;> omega
  · omega

/-- C46 (limit). The bounds of C46 are for listed columns that do not depend on the challenge.  Since the challenge is known
when the certificate is made, they can be chosen: for every matrix in which some row contains all the residues, and every
`r` which is at least the number of rows, there is a certificate of rank `r` that `spasm_certificate_rank_verify` accepts
(and that fits in a file), whatever the rank of the matrix, the hash and the contents of memory. -/
theorem C46_forged {q : ℕ} [Fact q.Prime] (hq : q ≤ 0xfffffffb) {A : Csr} (hA : A.WFV q)
    (hm : A.m < 2 ^ 31) {i0 : Nat} (hi0 : i0 < A.n) (hall : ∀ v : ZMod q, ∃ j, j < A.m ∧ A.entry q i0 j = v)
    {hash : Array B} (hh : hash.size = 32) {r : Nat} (hr : A.n ≤ r) (hr' : r < 2 ^ 31)
    {N : Nat} (hN : N ≤ 8 * (2 ^ 31 - 1)) (hK : r ≤ Nat.count (Accepted hash.toList q) N) :
    ∃ c : Cert, c.r = r ∧ c.Fits ∧ ∀ (jw : Nat → W) (jk : Junk) (fuel : Nat) (ctx : Prng), N ≤ fuel →
      ctx.block.size = 44 → ctx.hash.size = 32 → Ok (cert_verify jw jk ctx fuel A hash c) (fun b => b = true) := by
  choose col hcol using hall
  have hfit := forged_fits (q := q) hq hi0 hr hr' hh (j := fun k => col (challenge hash.toList q k))
    (fun k => lt_trans (hcol _).1 hm)
  refine ⟨forged q A.n i0 r hash fun k => col (challenge hash.toList q k), rfl, hfit, ?_⟩
  intro jw jk fuel ctx hfu hb hch
  set c := forged q A.n i0 r hash fun k => col (challenge hash.toList q k) with hc
  have hcr : c.r = r := rfl
  have hrow : ∀ i, i < A.n → ∃ k, k < c.r ∧ c.i.g k = (i : Int) := by
    intro i hi
    refine ⟨i, by rw [hcr]; omega, ?_⟩
    rw [hc]
    show (mkArr r (forgedRow A.n i0)).g i = _
    rw [g_mkArr r _ _ (by omega)]
    unfold forgedRow
    rw [if_pos hi]
  have hx : ∀ i, i < A.n → lastAt c.i.g c.x.g i c.r = some (if (i : Int) = i0 then 1 else 0) := by
    intro i hi
    refine lastAt_some (w := fun i => if i = (i0 : Int) then 1 else 0) (fun k hk => ?_) (hrow i hi)
    rw [hc]
    show (mkArr r fun k => if forgedRow A.n i0 k = i0 then (1 : Int) else 0).g k =
      if (mkArr r (forgedRow A.n i0)).g k = (i0 : Int) then 1 else 0
    rw [g_mkArr r _ _ hk, g_mkArr r _ _ hk]
  have hy : ∀ i, i < A.n → lastAt c.i.g c.y.g i c.r = some 0 := by
    intro i hi
    refine lastAt_some (w := fun _ => 0) (fun k hk => ?_) (hrow i hi)
    rw [hc]
    exact g_mkArr r _ _ hk
  have hfree : ∀ i, i < A.n → ¬ c.Free i := by
    intro i hi
    unfold Cert.Free
    rw [hy i hi]
    simp
  have hd : c.draws A = r := by
    unfold Cert.draws
    have : Nat.count c.Free A.n = 0 := by
      rw [Nat.count_eq_card_filter_range, Finset.card_eq_zero, Finset.filter_eq_empty_iff]
      exact fun i hi => hfree i (mem_range.mp hi)
    rw [this, hcr, Nat.add_zero]
  refine (C38_verify hA (c := c) ?_ hh hN (by rw [hd]; exact hK) jw jk hfu hb hch).mono fun b h => h.mpr ⟨rfl, rfl, ?_⟩
  · exact ⟨hfit.i_size.ge, hfit.j_size.ge, hfit.x_size.ge, hfit.y_size.ge, hfit.hash_size,
      fun k hk => by have := hfit.x_fits k hk; unfold Wide; omega,
      fun k hk => by have := hfit.y_fits k hk; unfold Wide; omega⟩
  refine ⟨fun k hk => ?_, fun k hk => ?_, fun k hk => ?_, fun j hj => ?_⟩
  · rw [hc]
    show 0 ≤ (mkArr r (forgedRow A.n i0)).g k ∧ (mkArr r (forgedRow A.n i0)).g k < A.n
    rw [g_mkArr r _ _ hk]
    unfold forgedRow
    split <;> omega
  · rw [hc]
    show 0 ≤ (mkArr r fun k => ((col (challenge hash.toList q k) : Nat) : Int)).g k ∧
      (mkArr r fun k => ((col (challenge hash.toList q k) : Nat) : Int)).g k < A.m
    rw [g_mkArr r _ _ hk]
    have := (hcol (challenge hash.toList q k)).1
    omega
  · have e1 : (c.j.g k).toNat = col (challenge hash.toList q k) := by
      rw [hc]
      show ((mkArr r fun k => ((col (challenge hash.toList q k) : Nat) : Int)).g k).toNat = _
      rw [g_mkArr r _ _ hk]
      simp
    rw [e1, Finset.sum_eq_single_of_mem i0 (mem_range.mpr hi0)]
    · unfold Cert.X
      rw [hx i0 hi0, (hcol _).2]
      simp
    · intro i hi hne
      unfold Cert.X
      rw [hx i (mem_range.mp hi), if_neg (by omega)]
      simp
  · refine Finset.sum_eq_zero fun i hi => ?_
    unfold Cert.Y
    rw [if_neg (hfree i (mem_range.mp hi)), hy i (mem_range.mp hi)]
    simp

/-! ### C39 -/

/-- C39 (defect). A certificate that announces a negative rank is read without error, and treated as one of rank 0. -/
theorem C39_negative (jk : Junk) (jc : Nat → Char) {c0 : Cert} (h0 : c0.hash.size = 32) {r p : Int} (hr : r < 0)
    (hr' : -2 ^ 31 ≤ r) (hp : -2 ^ 63 ≤ p) (hp' : p < 2 ^ 63) {hash : Array B} (hh : hash.size = 32) (rest : List Char) :
    Ok (certificate_load jk jc c0 (fmtD r ++ '\n' :: (fmtD p ++ '\n' :: (hashText hash ++ '\n' :: rest))))
      (fun x => x = (true, ⟨0, p, hash, #[], #[], #[], #[]⟩)) := by
  have hnl : ∀ s : List Char, ∀ d, ('\n' :: s).head? = some d → d.isDigit = false := by
    intro s d hd; simp at hd; subst hd; decide
  rw [← List.nil_append (fmtD r ++ _)]
  unfold certificate_load
  rw [scanD_white white_nil (by omega) (by omega) (hnl _), Ok_bind, Ok_ok]
  simp only
  rw [← List.singleton_append (l := fmtD p ++ _), scanD_white white_nl hp hp' (hnl _), Ok_bind, Ok_ok]
  simp only
  have hl : (hashText hash).length = 64 := by
    unfold hashText; rw [flatMap_pair_length]; simp [hh]
  have hmem : ∀ d ∈ hashText hash, isspace d = false ∧ d ≠ '\n' ∧ d.toNat ≠ 0 := by
    intro d hd
    obtain ⟨b, -, hb⟩ := List.mem_flatMap.mp hd
    exact hex_ok b d hb
  rw [← List.singleton_append (l := hashText hash ++ _), skipWs_white white_nl, skipWs_head]
  · rw [if_neg (by
      intro h1
      rw [List.isEmpty_iff, List.append_eq_nil_iff] at h1
      simp at h1)]
    have ht := takeLine_full (hashText hash) ('\n' :: rest) (fun hm => (hmem _ hm).2.1 rfl)
    rw [hl] at ht
    rw [ht]
    simp only
    rw [Ok_bind]
    refine (load_hash_spec jc h0 hh).mono ?_
    rintro _ rfl
    rw [show r.toNat = 0 by omega]
    rfl
  · intro d hd
    have : d ∈ hashText hash := by
      cases hx : hashText hash with
      | nil => rw [hx] at hl; simp at hl
      | cons y z =>
        rw [hx] at hd
        simp only [List.cons_append, List.head?_cons, Option.some.injEq] at hd
        subst hd; simp
    exact (hmem d this).1

/-- C39 (defect). Hence it is accepted for every matrix without nonzero entries. -/
theorem C39_negative_accepted {q : ℕ} {A : Csr} (hA : A.WFV q) (hz : ∀ i j, A.entry q i j = 0)
    {hash : Array B} (hh : hash.size = 32) {N : Nat} (hN : N ≤ 8 * (2 ^ 31 - 1))
    (hK : A.n ≤ Nat.count (Accepted hash.toList q) N) (hq : q < 2 ^ 63) (jc : Nat → Char) {c0 : Cert}
    (h0 : c0.hash.size = 32) {r : Int} (hr : r < 0) (hr' : -2 ^ 31 ≤ r) (rest : List Char) (jw : Nat → W) (jk : Junk)
    {fuel : Nat} (hfuel : N ≤ fuel) {ctx : Prng} (hb : ctx.block.size = 44) (hch : ctx.hash.size = 32) :
    Ok (do
      let (_, c) ← certificate_load jk jc c0 (fmtD r ++ '\n' :: (fmtD q ++ '\n' :: (hashText hash ++ '\n' :: rest)))
      cert_verify jw jk ctx fuel A hash c) (fun b => b = true) := by
  rw [Ok_bind]
  refine (C39_negative jk jc h0 hr hr' (p := q) (by omega) (by omega) hh rest).mono ?_
  rintro _ rfl
  refine (C38_verify hA (c := ⟨0, q, hash, #[], #[], #[], #[]⟩)
    ⟨by simp, by simp, by simp, by simp, hh, fun k hk => absurd hk (Nat.not_lt_zero k),
      fun k hk => absurd hk (Nat.not_lt_zero k)⟩ hh hN ?_ jw jk hfuel hb hch).mono
    fun b h => h.mpr ⟨rfl, rfl, fun k hk => absurd hk (Nat.not_lt_zero k), fun k hk => absurd hk (Nat.not_lt_zero k),
      fun k hk => absurd hk (Nat.not_lt_zero k), fun j _ => Finset.sum_eq_zero fun i _ => by rw [hz, mul_zero]⟩
  refine le_trans ?_ hK
  unfold Cert.draws
  have := Nat.count_le (p := (⟨0, q, hash, #[], #[], #[], #[]⟩ : Cert).Free) (n := A.n)
  simp only
  omega

/-! ### Concrete cases -/

/-- The matrix with one row that contains all the residues modulo 7. -/
def exAllRes : Csr :=
  { n := 1, m := 7, F := Field.ofPrime 7, p := #[0, 6], j := #[1, 2, 3, 4, 5, 6],
    x := some #[1, 2, 3, -3, -2, -1] }

/-- A certificate of rank 5. -/
example : ∃ c : Cert, c.r = 5 ∧ c.Fits ∧ Ok (cert_verify default default exPrng (8 * (2 ^ 31 - 1)) exAllRes exHash c)
    (fun b => b = true) := by
  obtain ⟨N, hN, hK⟩ := exHash_count
  obtain ⟨c, h1, h2, h3⟩ := C46_forged (q := 7) (A := exAllRes) (by norm_num) (Csr.wfv_of_check (by decide +kernel))
    (by decide) (i0 := 0) (by decide) (by decide +kernel) (hash := exHash) (by simp [exHash]) (r := 5) (by decide) (by norm_num) hN hK
  exact ⟨c, h1, h2, h3 _ _ _ _ hN (by simp [exPrng]) (by simp [exPrng])⟩

theorem exNoRes_wfv : ({ exAllRes with p := #[0, 0] } : Csr).WFV 7 := Csr.wfv_of_check (by decide +kernel)

theorem exNoRes_zero (i j : Nat) : ({ exAllRes with p := #[0, 0] } : Csr).entry 7 i j = 0 := by
  have h1 : ∀ i, (#[0, 0] : Array Nat).g i = 0 := by
    intro i
    rcases i with _ | _ | i <;> rfl
  unfold Csr.entry
  simp only [h1]
  simp

section
attribute [local irreducible] Ok certificate_load cert_verify hashText fmtD

/-- A certificate of rank -3. -/
example (jk : Junk) : Ok (do
      let (_, c) ← certificate_load jk default exCert
        (fmtD (-3) ++ '\n' :: (fmtD (7 : ℕ) ++ '\n' :: (hashText exHash ++ '\n' :: [])))
      cert_verify default jk exPrng (8 * (2 ^ 31 - 1)) { exAllRes with p := #[0, 0] } exHash c) (fun b => b = true) := by
  obtain ⟨N, hN, hK⟩ := exHash_count
  exact C39_negative_accepted (q := 7) exNoRes_wfv exNoRes_zero (by simp [exHash]) hN
    (le_trans (by decide) hK) (by norm_num) default (by simp [exCert, exHash]) (by norm_num) (by norm_num) [] default jk hN
    (by simp [exPrng]) (by simp [exPrng])

end

end Spasm
