import Verif.Proofs.CertCreate
import Verif.Proofs.CertSound
import Verif.Props.Solve
import Verif.Props.Prng

/-
Properties C37, C38, C40 and C46: rank certificates and verification of factorizations.

The challenges are drawn from the stream of C36.  Drawing is only guaranteed to end if the stream has
enough accepted candidates before its counter overflows; where a theorem promises that the functions
end, this is a hypothesis (`hK`: at least so many of the first `N` candidates are accepted).
-/

namespace Spasm

open Finset Sha

/-! ### C37 -/

/-- C37. From a valid factorization of `A`, `spasm_certificate_rank_create` makes a certificate for
the rank found, and `spasm_certificate_rank_verify` accepts it, with any contents of uninitialized
memory on both sides. -/
theorem C37_complete {q : ℕ} [Fact q.Prime] {A L : Csr} (hA : A.WFV q) {fact : Lu} (hL : fact.L = some L)
    (hp : fact.U.n = 0 ∨ fact.p.isSome = true) (hf : IsFact q A L fact.U fact.qinv fact.p fact.complete)
    {hash : Array B} (hh : hash.size = 32)
    {N : Nat} (hN : N ≤ 8 * (2 ^ 31 - 1)) (hK : fact.U.n + A.n ≤ Nat.count (Accepted hash.toList q) N)
    (jw jw' : Nat → W) (jk jk' : Junk) {fuel fuel' : Nat} (hfuel : N ≤ fuel) (hfuel' : N ≤ fuel')
    {ctx ctx' : Prng} (hb : ctx.block.size = 44) (hc : ctx.hash.size = 32) (hb' : ctx'.block.size = 44)
    (hc' : ctx'.hash.size = 32) :
    Ok (cert_create jw jk ctx fuel A hash fact) (fun c => c.r = fact.U.n ∧
      Ok (cert_verify jw' jk' ctx' fuel' A hash c) (fun b => b = true)) := by
  have hs : hash.toList.length = 32 := by rw [Array.length_toList]; exact hh
  refine (create_spec hs (drawSpec_total jw hs hN hfuel hK) jk hb hc hA rfl hL hp hf le_rfl).ok.mono ?_
  rintro c ⟨h1, h2, h3, h4, h5, -⟩
  refine ⟨h2, ?_⟩
  have hd : c.draws A ≤ fact.U.n + A.n := by
    unfold Cert.draws
    have := Nat.count_le (p := c.Free) (n := A.n)
    omega
  refine (verify_spec (drawSpec_total jw' hs hN hfuel' hK) hd jk' hb' hc' hA h1 hh).ok.mono ?_
  rintro b ⟨hb, -⟩
  exact hb.2 ⟨h3.symm, h4, h5⟩

/-! ### C38 -/

/-- C38. On every certificate whose arrays have the right size, `spasm_certificate_rank_verify`
answers, and accepts exactly the certificates with the same hash and prime that satisfy `CertOk`:
indices in range, and both identities hold for the challenges derived from the hash. -/
theorem C38_verify {q : ℕ} {A : Csr} (hA : A.WFV q) {c : Cert} (hc : c.Typed) {hash : Array B}
    (hh : hash.size = 32) {N : Nat} (hN : N ≤ 8 * (2 ^ 31 - 1))
    (hK : c.draws A ≤ Nat.count (Accepted hash.toList q) N) (jw : Nat → W) (jk : Junk) {fuel : Nat} (hfuel : N ≤ fuel)
    {ctx : Prng} (hb : ctx.block.size = 44) (hch : ctx.hash.size = 32) :
    Ok (cert_verify jw jk ctx fuel A hash c) (fun b =>
      b = true ↔ hash = c.hash ∧ c.prime = q ∧ CertOk q A hash.toList c) := by
  have hs : hash.toList.length = 32 := by rw [Array.length_toList]; exact hh
  exact (verify_spec (drawSpec_total jw hs hN hfuel hK) le_rfl jk hb hch hA hc hh).ok.mono (fun b h => h.1)

/-- C38 (soundness). If `spasm_certificate_rank_verify` returns true, whatever the certificate and
the stream, then hash and prime agree and `CertOk` holds; the challenges used were all taken from the
stream. -/
theorem C38_sound {q : ℕ} {A : Csr} (hA : A.WFV q) {c : Cert} (hc : c.Typed) {hash : Array B}
    (hh : hash.size = 32) (jw : Nat → W) (jk : Junk) (fuel : Nat) {ctx : Prng} (hb : ctx.block.size = 44)
    (hch : ctx.hash.size = 32) (h : cert_verify jw jk ctx fuel A hash c = .ok true) :
    hash = c.hash ∧ c.prime = q ∧ CertOk q A hash.toList c ∧
      ∃ t, t ≤ 8 * (2 ^ 31 - 1) ∧ Nat.count (Accepted hash.toList q) t = c.draws A := by
  have hs : hash.toList.length = 32 := by rw [Array.length_toList]; exact hh
  have := (verify_spec (drawSpec_partial jw fuel hs q (c.draws A)) le_rfl jk hb hch hA hc hh).pc h
  obtain ⟨h1, h2⟩ := this
  obtain ⟨a, b, d⟩ := h1.1 rfl
  obtain ⟨cx, t, t1, -, t3⟩ := h2 rfl
  exact ⟨a, b, d, t, t1, t3⟩

/-! ### C46 -/

/-- C46 (rank overstated). If a certificate is acceptable, the challenge belongs to a set that
depends on the matrix and on the listed columns only, with at most `q ^ rank A` elements out of
`q ^ r`. -/
theorem C46_lower {q : ℕ} [Fact q.Prime] {A : Csr} {seed : List Fips.Byte} {c : Cert} (h : CertOk q A seed c) :
    (fun k : Fin c.r => challenge seed q k) ∈ A.Reached q (fun k => (c.j.g k).toNat) c.r ∧
    Nat.card (A.Reached q (fun k => (c.j.g k).toNat) c.r) ≤ q ^ (A.toMat q).rank :=
  ⟨certOk_reached h, reached_card A (fun k hk => by have := h.cols k hk; omega)⟩

/-- C46 (rank understated). If a certificate is acceptable, the challenges on the rows it does not
list belong to a set that depends on the matrix and on the set of listed rows only, with at most
`q ^ (n - rank A)` elements out of `q ^ (n - #listed)`, and at most `r` rows are listed. -/
theorem C46_upper {q : ℕ} [Fact q.Prime] {A : Csr} {seed : List Fips.Byte} {c : Cert} (h : CertOk q A seed c) :
    ∃ S : Finset Nat, S ⊆ range A.n ∧ S.card ≤ c.r ∧
      (fun i : ↥(range A.n \ S) => challenge seed q (c.r + Nat.count c.Free i)) ∈ A.Cancelled q S ∧
      Nat.card (A.Cancelled q S) ≤ q ^ (A.n - (A.toMat q).rank) ∧
      Nat.card (↥(range A.n \ S) → ZMod q) = q ^ (A.n - S.card) := by
  refine ⟨(range A.n).filter (fun i => ¬ c.Free i), filter_subset _ _, listed_card c A.n, certOk_cancelled h,
    cancelled_card A _, ?_⟩
  rw [Nat.card_fun, Nat.card_zmod, Nat.card_eq_fintype_card, Fintype.card_coe,
    card_sdiff_of_subset (filter_subset _ _), card_range]

/-! ### C40 -/

/-- C40. `spasm_factorization_verify` computes whether `(x L) U = x A` for the vector `x` that holds
the challenge on the pivotal rows and zero elsewhere. -/
theorem C40_iff {q : ℕ} {A L : Csr} (hA : A.WFV q) {fact : Lu} (hL : fact.L = some L)
    (hp : fact.U.n = 0 ∨ fact.p.isSome = true) (hLw : L.WFV q) (hUw : fact.U.WFV q) (hLn : L.n = A.n) (hLm : L.m = fact.U.n)
    (hUm : fact.U.m = A.m) (hps : ∀ a, fact.p = some a → fact.U.n ≤ a.size)
    (hplt : ∀ k, k < fact.U.n → permFun fact.p k < A.n) (seed : BitVec 64)
    {N : Nat} (hN : N ≤ 8 * (2 ^ 31 - 1)) (hK : A.n ≤ Nat.count (Accepted (simpleSeed seed) q) N)
    (jw : Nat → W) (jkb : Nat → B) (jb : Nat → Bool) (jk : Junk) {fuel : Nat} (hfuel : N ≤ fuel)
    {ctx : Prng} (hb : ctx.block.size = 44) (hh : ctx.hash.size = 32) :
    Ok (fact_verify jw jkb jb jk ctx fuel A fact seed) (fun b => b = true ↔ ∀ j, j < A.m →
      ∑ k ∈ range fact.U.n, (∑ i ∈ range A.n, factX (simpleSeed seed) q fact.U.n (permFun fact.p) i * L.entry q i k) * fact.U.entry q k j
        = ∑ i ∈ range A.n, factX (simpleSeed seed) q fact.U.n (permFun fact.p) i * A.entry q i j) :=
  (fact_verify_spec (drawSpec_total jw (by simp [simpleSeed, Fips.bytes]) hN hfuel hK) jkb jb jk hb hh hA hL hp hLw hUw
    hLn hLm hUm hps hplt le_rfl).ok

/-- C40 (completeness). It is true of every valid factorization. -/
theorem C40_valid {q : ℕ} {A L : Csr} (hA : A.WFV q) {fact : Lu} (hL : fact.L = some L)
    (hp : fact.U.n = 0 ∨ fact.p.isSome = true) (hf : IsFact q A L fact.U fact.qinv fact.p fact.complete) (seed : BitVec 64)
    {N : Nat} (hN : N ≤ 8 * (2 ^ 31 - 1)) (hK : A.n ≤ Nat.count (Accepted (simpleSeed seed) q) N)
    (jw : Nat → W) (jkb : Nat → B) (jb : Nat → Bool) (jk : Junk) {fuel : Nat} (hfuel : N ≤ fuel)
    {ctx : Prng} (hb : ctx.block.size = 44) (hh : ctx.hash.size = 32) :
    Ok (fact_verify jw jkb jb jk ctx fuel A fact seed) (fun b => b = true) := by
  have hlt : ∀ k, k < fact.U.n → permFun fact.p k < A.n := by
    intro k hk
    rw [← hf.L_n]
    exact hf.tri.lt k (by rw [hf.L_m]; exact hk)
  refine (C40_iff hA hL hp hf.L_wfv hf.ech.wfv hf.L_n hf.L_m hf.m_eq hf.p_size hlt seed hN hK jw jkb jb jk hfuel
    hb hh).mono (fun b h => h.2 (fun j hj => ?_))
  refine hf.verify _ (fun i _ hn => ?_) hj
  unfold factX
  rw [if_neg]
  rintro ⟨k, h1, h2⟩
  exact hn k h1 h2

/-! ### Concrete cases -/

/-- Draw `K` residues. -/
def drawMany (jw : Nat → W) (fuel K : Nat) (ctx : Prng) : C Prng :=
  forRange 0 K ctx fun _ c => do
    let r ← prng_ZZp jw fuel c
    .ok r.2

/-- Running the generator shows that the stream has enough accepted candidates. -/
theorem count_of_run {jw : Nat → W} {fuel K q : Nat} {seed : List Fips.Byte} (hs : seed.length = 32) {ctx ctx' : Prng}
    (hc : PrngAt seed q 0 0 ctx) (h : drawMany jw fuel K ctx = .ok ctx') :
    ∃ N, N ≤ 8 * (2 ^ 31 - 1) ∧ K ≤ Nat.count (Accepted seed q) N := by
  have hw : Wp True (drawMany jw fuel K ctx) (fun c => Gen seed q K c) := by
    unfold drawMany
    refine Wp_forRange (I := fun t c => Gen seed q t c) (Nat.zero_le _) (gen_zero hc) ?_
    intro i c _ hi hg
    rw [Wp_bind]
    refine (drawSpec_partial jw fuel hs q K i c hi hg).mono ?_
    rintro r ⟨-, -, h3⟩
    exact h3
  obtain ⟨t, t1, -, t3⟩ := hw.pc h
  exact ⟨t, t1, t3.ge⟩

/-- A hash. -/
def exHash : Array B := mkArr 32 fun i => BitVec.ofNat 8 (7 * i + 1)

theorem exHash_count : ∃ N, N ≤ 8 * (2 ^ 31 - 1) ∧ 5 ≤ Nat.count (Accepted exHash.toList 7) N := by
  have h1 := seed_spec default exHash 7 0 exPrng (by simp [exHash]) (by decide) (by decide) (by simp [exPrng])
    (by simp [exPrng])
  rw [Ok_iff] at h1
  obtain ⟨ctx, h1, h2⟩ := h1
  have h3 : (match (do let c ← prng_seed default exHash 7 0 exPrng; drawMany default 20 5 c) with
      | .ok _ => true
      | .error _ => false) = true := by decide +kernel
  rw [h1] at h3
  cases h4 : drawMany default 20 5 ctx with
  | ok c => exact count_of_run (by simp [exHash]) h2 h4
  | error e =>
    have : (do let c ← (.ok ctx : C Prng); drawMany default 20 5 c) = drawMany default 20 5 ctx := rfl
    rw [this, h4] at h3
    simp at h3

theorem exSeed_count : ∃ N, N ≤ 8 * (2 ^ 31 - 1) ∧ 3 ≤ Nat.count (Accepted (simpleSeed 42) 7) N := by
  have h1 := seed_simple_spec default default 7 42 0 exPrng (by decide) (by decide) (by simp [exPrng])
    (by simp [exPrng])
  rw [Ok_iff] at h1
  obtain ⟨ctx, h1, h2⟩ := h1
  have h3 : (match (do let c ← prng_seed_simple default default 7 42 0 exPrng; drawMany default 20 3 c) with
      | .ok _ => true
      | .error _ => false) = true := by decide +kernel
  rw [h1] at h3
  cases h4 : drawMany default 20 3 ctx with
  | ok c => exact count_of_run (by simp [simpleSeed, Fips.bytes]) h2 h4
  | error e =>
    have : (do let c ← (.ok ctx : C Prng); drawMany default 20 3 c) = drawMany default 20 3 ctx := rfl
    rw [this, h4] at h3
    simp at h3

/-- The hypotheses of C37 hold of the factorization `exFact`. -/
example (fuel : Nat) (hfuel : 8 * (2 ^ 31 - 1) ≤ fuel) :
    Ok (cert_create default default exPrng fuel exFA exHash exLu) (fun c => c.r = 2 ∧
      Ok (cert_verify default default exPrng fuel exFA exHash c) (fun b => b = true)) := by
  obtain ⟨N, hN, hK⟩ := exHash_count
  exact C37_complete (fact := exLu) (hash := exHash) exFA_wfv rfl (.inr rfl) exFact (by simp [exHash]) hN hK _ _ _ _
    (by omega) (by omega) (by simp [exPrng]) (by simp [exPrng]) (by simp [exPrng]) (by simp [exPrng])

/-- The certificate made is accepted; a forged certificate of rank 3 (true rank: 2) is rejected, one
with the right rank and one wrong coefficient too. -/
example : (match (do
      let c ← cert_create default default exPrng 20 exFA exHash exLu
      let a ← cert_verify default default exPrng 20 exFA exHash c
      let b ← cert_verify default default exPrng 20 exFA exHash { c with y := c.y.upd 1 (c.y.g 1 + 1) }
      let d ← cert_verify default default exPrng 20 exFA exHash
        { c with r := 3, i := #[0, 1, 2], j := #[0, 1, 2], x := #[1, 1, 1], y := #[0, 0, 0] }
      .ok (a, b, d)) with
    | .ok r => decide (r = (true, false, false))
    | .error _ => false) = true := by decide +kernel

example (fuel : Nat) (hfuel : 8 * (2 ^ 31 - 1) ≤ fuel) :
    Ok (fact_verify default default default default exPrng fuel exFA exLu 42) (fun b => b = true) := by
  obtain ⟨N, hN, hK⟩ := exSeed_count
  exact C40_valid exFA_wfv rfl (.inr rfl) exFact 42 hN hK _ _ _ _ (by omega) (by simp [exPrng]) (by simp [exPrng])

/-- Verification fails after a change of `U`. -/
example : (match fact_verify default default default default exPrng 20 exFA
      { exLu with U := { exU with x := exU.x.map fun a => a.upd 1 (a.g 1 + 1) } } 42 with
    | .ok b => decide (b = false)
    | .error _ => false) = true := by decide +kernel

end Spasm
