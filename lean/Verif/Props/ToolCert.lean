import Verif.Props.ToolsLin
import Verif.Props.CertFile

/-
Property C55: the certificates written by the program `rank`.
-/

namespace Spasm

open Sha Finset

attribute [local irreducible] certificate_load

/-! ### The hash of the file -/

theorem unlines_noNul {l : List (List Char)} (h : ∀ b ∈ l, Short b) : NoNul (unlines l) := by
  intro c hc
  obtain ⟨b, hb, hc⟩ := List.mem_flatMap.mp hc
  rcases List.mem_append.mp hc with hc | hc
  · exact (h b hb).nonul c hc
  · rw [List.mem_singleton.mp hc]; decide

theorem entryLines_short {tl : List (List Char)} {l : List (Int × Int × Int)} (h : List.Forall₂ EntryLine tl l) :
    ∀ b ∈ tl, Short b := by
  induction h with
  | nil => simp
  | cons h1 _ ih =>
    intro b hb
    rcases List.mem_cons.mp hb with rfl | hb
    · exact h1.1
    · exact ih b hb

theorem IsFile.noNul {f : List Char} {n m : Nat} {l : List (Int × Int × Int)} (h : IsFile f n m l) : NoNul f := by
  rcases h.format with ⟨h, tl, z, g, h1, h2, h3, h4, rfl⟩ | ⟨⟨h, cs, d, tl, g, h1, h2, h3, h4, h5, rfl⟩, -⟩
  · refine unlines_noNul fun b hb => ?_
    have h2 := entryLines_short h2
    simp only [List.cons_append, List.mem_cons, List.mem_append] at hb
    rcases hb with rfl | hb | rfl | hb
    · exact h1.1
    · exact h2 b hb
    · exact h3.1
    · exact h4 b hb
  · refine unlines_noNul fun b hb => ?_
    have h4 := entryLines_short h4
    simp only [List.cons_append, List.mem_cons, List.mem_append, List.append_assoc] at hb
    rcases hb with rfl | hb | rfl | hb | hb
    · exact h1.1
    · exact (h2 b hb).1
    · exact h3.1
    · exact h4 b hb
    · exact h5 b hb

/-- The hash that the program `rank` computes. -/
theorem rank_input_hash (jk : Junk) (jw : Nat → W) (h0 : Nat → B) {q : ℕ} (hq : 2 ≤ q ∧ q ≤ 0xfffffffb)
    {f : List Char} (hf : NoNul f) {allow : Bool} {A : Csr} {hash : Array B}
    (h : rank_input jk jw h0 f q allow = .ok (A, hash)) : hash.toList = Fips.sha256 (f.map byte) := by
  unfold rank_input at h
  obtain ⟨⟨T, md⟩, h1, h⟩ := bind_ok_split h
  obtain ⟨A', h2, h⟩ := bind_ok_split h
  obtain ⟨md', h3, h⟩ := bind_ok_split h
  obtain ⟨md1, h4, h5⟩ := C48_hash (vals := true) jk jw (.inl ⟨rfl, rfl, hq⟩) hf (by simp) h1
  simp only at h4
  subst h4
  cases h3
  cases h
  exact h5

/-! ### The certificate -/

/-- A certificate of the matrix `A` for the hash `seed`, which says that the rank is `r`: its fields fit in the C
types, and it is acceptable. -/
structure Certifies (q : ℕ) (A : Csr) (seed : List Fips.Byte) (r : Nat) (c : Cert) : Prop where
  fits : c.Fits
  rank : c.r = r
  prime : c.prime = q
  hash : c.hash.toList = seed
  ok : CertOk q A seed c

theorem Cert.Fits.typed {c : Cert} (h : c.Fits) : c.Typed :=
  ⟨h.i_size.ge, h.j_size.ge, h.x_size.ge, h.y_size.ge, h.hash_size,
    fun k hk => by have := h.x_fits k hk; unfold Wide; omega,
    fun k hk => by have := h.y_fits k hk; unfold Wide; omega⟩

/-- The stream of random numbers has enough candidates: for the three tests of the factorization and for the
certificate. -/
structure Enough (q n m : ℕ) (hash : List Fips.Byte) (N : Nat) : Prop where
  le : N ≤ 8 * (2 ^ 31 - 1)
  test : ∀ s : BitVec 64, s = 42 ∨ s = 1337 ∨ s = 21011984 → max n m ≤ Nat.count (Accepted (simpleSeed s) q) N
  cert : n + m ≤ Nat.count (Accepted hash q) N

/-- The part of the program that follows the echelonization. -/
theorem rank_certificate_spec (M : CertMem) (hb : M.ctx.block.size = 44) (hc : M.ctx.hash.size = 32) {q : ℕ}
    [Fact q.Prime] {A L : Csr} (hA : A.WFV q) (hn : A.n < 2 ^ 31) (hm : A.m < 2 ^ 31) {fact : Lu} (hL : fact.L = some L)
    (hp : fact.U.n = 0 ∨ fact.p.isSome = true) (hf : IsFact q A L fact.U fact.qinv fact.p fact.complete)
    {hash : Array B} (hh : hash.size = 32) {N : Nat} (hN : Enough q A.n A.m hash.toList N) (hfu : N ≤ M.fuel) :
    Ok (rank_certificate M A hash fact) (fun x => x.1 = true ∧ ∃ c, x.2 = certText c ∧
      Certifies q A hash.toList fact.U.n c ∧ ∀ k, k < c.r → c.i.g k = permFun fact.p k) := by
  have hum : fact.U.n ≤ A.m := by rw [← hf.m_eq]; exact hf.ech.n_le
  have ht : ∀ s : BitVec 64, s = 42 ∨ s = 1337 ∨ s = 21011984 → Ok (rank_assert M A fact s) (fun _ => True) := by
    intro s hs
    unfold rank_assert
    rw [Ok_bind]
    refine (C40_valid hA hL hp hf s hN.le ((le_max_left _ _).trans (hN.test s hs)) M.jw M.jkb M.jb M.jk hfu hb
      hc).mono ?_
    rintro b rfl
    rw [Ok_cassert]
    trivial
  have hs : hash.toList.length = 32 := by rw [Array.length_toList]; exact hh
  have hK : fact.U.n + A.n ≤ Nat.count (Accepted hash.toList q) N := by have := hN.cert; omega
  unfold rank_certificate
  rw [Ok_bind]; refine (ht 42 (.inl rfl)).mono fun _ _ => ?_
  rw [Ok_bind]; refine (ht 1337 (.inr (.inl rfl))).mono fun _ _ => ?_
  rw [Ok_bind]; refine (ht 21011984 (.inr (.inr rfl))).mono fun _ _ => ?_
  rw [Ok_bind]
  refine (create_spec hs (drawSpec_total M.jw hs hN.le hfu hK) M.jk hb hc hA rfl hL hp hf le_rfl).ok.mono ?_
  rintro c ⟨h1, h2, h3, h4, h5, ⟨h6, h7, h8, h9⟩, h10⟩
  have hg := hA.good
  have hq := hg.le_max
  have fits : c.Fits := by
    refine ⟨by omega, by omega, by omega, h1.hash_size, h6, h7, h8, h9, fun k hk => ?_, fun k hk => ?_,
      fun k hk => ?_, fun k hk => ?_⟩
    · have := h5.rows k hk; omega
    · have := h5.cols k hk; omega
    · have := (h10 k hk).2.1
      unfold Bal at this; omega
    · have := (h10 k hk).2.2
      unfold Bal at this; omega
  have hd : c.draws A ≤ fact.U.n + A.n := by
    unfold Cert.draws
    have := Nat.count_le (p := c.Free) (n := A.n)
    omega
  rw [Ok_bind]
  refine (verify_spec (drawSpec_total M.jw hs hN.le hfu hK) hd M.jk hb hc hA h1 hh).ok.mono ?_
  rintro b ⟨hb', -⟩
  have hb' : b = true := hb'.2 ⟨h3.symm, h4, h5⟩
  rw [Ok_bind]
  refine (certificate_save_spec fits).mono fun t ht => ?_
  rw [Ok_ok]
  exact ⟨hb', c, ht, ⟨fits, h2, h4, by rw [h3], h5⟩, fun k hk => (h10 k hk).1⟩

/-- The matrix that the program `rank` echelonizes: it is transposed if this is allowed and if it has fewer rows than
columns. -/
def RankMatrix (q : ℕ) (allow : Bool) (n m : Nat) (l : List (Int × Int × Int)) (A : Csr) : Prop :=
  if allow = true ∧ n < m then FileCsr q m n (flipped l) A else FileCsr q n m l A

/-- Whether a certificate is acceptable depends on the entries of the matrix only. -/
theorem CertOk.congr {q : ℕ} {A A' : Csr} {seed : List Fips.Byte} {c : Cert} (h : CertOk q A seed c)
    (hn : A'.n = A.n) (hm : A'.m = A.m) (he : ∀ i j, i < A.n → A'.entry q i j = A.entry q i j) :
    CertOk q A' seed c := by
  refine ⟨fun k hk => by rw [hn]; exact h.rows k hk, fun k hk => by rw [hm]; exact h.cols k hk, fun k hk => ?_,
    fun j hj => ?_⟩
  · rw [← h.lower k hk, hn]
    exact sum_congr rfl fun i hi => by rw [he i _ (mem_range.mp hi)]
  · rw [← h.upper j (by omega), hn]
    exact sum_congr rfl fun i hi => by rw [he i _ (mem_range.mp hi)]

theorem RankMatrix.ok {q : ℕ} {allow : Bool} {n m : Nat} {l : List (Int × Int × Int)} {A A' : Csr}
    {seed : List Fips.Byte} {c : Cert} (h : RankMatrix q allow n m l A) (h' : RankMatrix q allow n m l A')
    (hc : CertOk q A seed c) : CertOk q A' seed c := by
  unfold RankMatrix at h h'
  split at h <;> rename_i hs
  · rw [if_pos hs] at h'
    exact hc.congr (by rw [h.n_eq, h'.n_eq]) (by rw [h.m_eq, h'.m_eq])
      (fun i j hi => by rw [h.n_eq] at hi; rw [h.entry i j hi, h'.entry i j hi])
  · rw [if_neg hs] at h'
    exact hc.congr (by rw [h.n_eq, h'.n_eq]) (by rw [h.m_eq, h'.m_eq])
      (fun i j hi => by rw [h.n_eq] at hi; rw [h.entry i j hi, h'.entry i j hi])

/-- The pivotal rows of a factorization are not zero. -/
theorem IsFact.row_ne_zero {q : ℕ} [Fact q.Prime] {A L U : Csr} {qinv : Array Int} {p : Option (Array Nat)} {complete : Bool}
    (h : IsFact q A L U qinv p complete) (k : Nat) (hk : k < U.n) : ¬ ∀ j, A.entry q (permFun p k) j = 0 := by
  intro hz
  have hlt : permFun p k < A.n := by rw [← h.L_n]; exact h.tri.lt k (by rw [h.L_m]; exact hk)
  have hli := Fintype.linearIndependent_iff.mp h.ech.linInd (fun i => L.entry q (permFun p k) i) ?_ ⟨k, hk⟩
  · exact h.tri.diag k (by rw [h.L_m]; exact hk) hli
  · funext j
    rw [Finset.sum_apply]
    by_cases hj : j < A.m
    · have := h.prod _ hlt (.inr ⟨k, hk, rfl⟩) j hj
      rw [hz, Finset.sum_range] at this
      simpa using this.symm
    · refine Finset.sum_eq_zero fun i _ => ?_
      rw [Pi.smul_apply, h.ech.wfv.toWF.entry_ge i.isLt (by rw [h.m_eq]; omega), smul_zero]

/-- A certificate with a row that is too large or a negative column is rejected. -/
theorem verify_out_of_range {c : Cert} (hc : c.Typed) (hr : 0 < c.r) {A : Csr}
    (h : (A.n : Int) ≤ c.i.g 0 ∨ c.j.g 0 < 0) {hash : Array B} (hh : hash.size = 32)
    {jw : Nat → W} {jk : Junk} {ctx : Prng} {fuel : Nat} :
    Ok (cert_verify jw jk ctx fuel A hash c) (fun b => b = false) := by
  unfold cert_verify
  rw [Ok_bind]
  refine (hash_eq_spec hh hc.hash_size).mono fun b _ => ?_
  split
  · exact (Ok_ok ..).mpr rfl
  split
  · exact (Ok_ok ..).mpr rfl
  rw [Ok_bind]
  refine (range_spec hc.i_size hc.j_size).mono fun g hg => ?_
  split
  · exact (Ok_ok ..).mpr rfl
  · rename_i hne
    have := hg.mp (by simpa using hne) 0 hr
    omega

section
variable (jk : Junk) (jw : Nat → W) (h0 : Nat → B) (env : Env) (opts : Opts) {q : ℕ} [Fact q.Prime]
  (hq : q ≤ 0xfffffffb) {f : List Char} {n m : Nat} {l : List (Int × Int × Int)} (hf : IsFile f n m l)
  (hc : NoCancel q l) (henv : env.Possible q) (hb : 0 < opts.block)
  (hnull : opts.max_round ≠ 0 ∨ jk.null0 = false)
  (hpv : opts.complete = false → opts.dense = true → NoSchur env { opts with L := true })
  (hfin : opts.gplu = true ∨ (opts.dense = true ∧ env.full = true)) {allow : Bool}
  (M : CertMem) (hmb : M.ctx.block.size = 44) (hmc : M.ctx.hash.size = 32) {N : Nat}
  (hN : Enough q n m (Fips.sha256 (f.map byte)) N) (hfu : N ≤ M.fuel)
include hq hf hc henv hb hnull hpv hfin hmb hmc hN hfu

/-- The general case. -/
theorem rank_cert_general : Ok (tool_rank_cert jk jw h0 M env opts f q allow) (fun x =>
    x.1 = (fileMat q n m l).rank ∧ x.2.1 = true ∧ ∃ c A L U qinv p complete, x.2.2 = certText c ∧
      RankMatrix q allow n m l A ∧ Certifies q A (Fips.sha256 (f.map byte)) (fileMat q n m l).rank c ∧
      U.n = c.r ∧ IsFact q A L U qinv p complete ∧ ∀ k, k < c.r → c.i.g k = permFun p k) := by
  unfold tool_rank_cert
  rw [Ok_bind]
  obtain ⟨⟨A, hash⟩, e, h1, h2⟩ := Ok_iff.mp
    ((rank_input_spec jk jw h0 hq hf hc allow).and (rank_input_short jk jw h0 hq hf hc allow))
  have hhash := rank_input_hash jk jw h0 (prime_range hq) hf.noNul e
  rw [e, Ok_ok]
  obtain ⟨w1, w2, w3, w4, w5, w6, -⟩ := h2
  simp only at h1 w1 w2 w3 w4 w5 w6 hhash ⊢
  have hM : RankMatrix q allow n m l A := h1.1
  have hnm : A.n = n ∧ A.m = m ∨ A.n = m ∧ A.m = n := by
    unfold RankMatrix at hM
    split at hM
    · exact .inr ⟨hM.n_eq, hM.m_eq⟩
    · exact .inl ⟨hM.n_eq, hM.m_eq⟩
  have hn := hf.n_lt
  have hm := hf.m_lt
  have hN' : Enough q A.n A.m hash.toList N := by
    rw [hhash]
    rcases hnm with ⟨a, b⟩ | ⟨a, b⟩
    · rw [a, b]; exact hN
    · rw [a, b]
      exact ⟨hN.le, fun s hs => by rw [max_comm]; exact hN.test s hs, by rw [add_comm]; exact hN.cert⟩
  rw [Ok_bind]
  refine (C28_lu_partial jk q env { opts with L := true } A henv w1 w2 w3 hb hnull rfl hpv hfin).mono ?_
  rintro fact ⟨g1, g2, -, g3, g4, L, g5, g6⟩
  rw [Ok_bind]
  rw [← g2] at g4
  rw [← g3] at g6
  refine (rank_certificate_spec M hmb hmc w1 (by omega) (by omega) g5 g4 g6 w6 hN' hfu).mono ?_
  rintro ⟨b, t⟩ ⟨k1, c, k2, k3, k4⟩
  simp only at k1 k2
  rw [Ok_ok]
  rw [hhash, g2, g1, w4] at k3
  exact ⟨by rw [g2, g1, w4], k1, c, A, L, fact.U, fact.qinv, fact.p, fact.complete, k2, hM, k3,
    by rw [k3.rank, g2, g1, w4], g6, k4⟩

/-- C55 (partial). With `--certificate`, the program `rank` prints the rank of the matrix described by the file, says
that its certificate is correct, and writes the text of a certificate which carries the SHA-256 of the file, the prime
and the rank; `spasm_certificate_rank_verify` accepts this certificate on the matrix that was echelonized, in any state
of the memory.  Missing: the cases where the factorization is not proved (see `C28_lu_partial`), the matrix which was
echelonized may be the transpose of that of the file (see `C55_wide`), and the certificate is not read back from the
file (see `C39_partial`). -/
theorem C55_certificate_partial : Ok (tool_rank_cert jk jw h0 M env opts f q allow) (fun x =>
    x.1 = (fileMat q n m l).rank ∧ x.2.1 = true ∧ ∃ c, x.2.2 = certText c ∧ c.Fits ∧
      c.r = (fileMat q n m l).rank ∧ c.prime = q ∧ c.hash.toList = Fips.sha256 (f.map byte) ∧
      ∀ A', RankMatrix q allow n m l A' → ∀ jw' jk' fuel' ctx', N ≤ fuel' → ctx'.block.size = 44 →
        ctx'.hash.size = 32 → Ok (cert_verify jw' jk' ctx' fuel' A' c.hash c) (fun b => b = true)) := by
  refine (rank_cert_general jk jw h0 env opts hq hf hc henv hb hnull hpv hfin M hmb hmc hN hfu).mono ?_
  rintro x ⟨h1, h2, c, A, L, U, qinv, p, complete, h3, h4, h5, h6, h7, -⟩
  refine ⟨h1, h2, c, h3, h5.fits, h5.rank, h5.prime, h5.hash, ?_⟩
  intro A' hA' jw' jk' fuel' ctx' g1 g2 g3
  have hw : A'.WFV q := by
    unfold RankMatrix at hA'
    split at hA' <;> exact hA'.wfv
  have hd : c.draws A' ≤ n + m := by
    have hr := (fileMat q n m l).rank_le_height
    have hr' := (fileMat q n m l).rank_le_width
    have := Nat.count_le (p := c.Free) (n := A'.n)
    have := h5.rank
    have hnm : A'.n = n ∨ A'.n = m := by
      unfold RankMatrix at hA'
      split at hA'
      · exact .inr hA'.n_eq
      · exact .inl hA'.n_eq
    unfold Cert.draws
    omega
  refine (C38_verify hw h5.fits.typed h5.fits.hash_size hN.le (by rw [h5.hash]; exact hd.trans hN.cert) jw' jk' g1
    g2 g3).mono fun b hb => hb.mpr ⟨rfl, h5.prime, ?_⟩
  rw [h5.hash]
  exact h4.ok hA' h5.ok

/-- C55 (defect). If the matrix described by the file has fewer rows than columns, is not zero, and has nothing in its
first `n` columns, and if the program `rank` may transpose it (the default), then the certificate it writes is rejected
on the matrix described by the file, although it carries the hash of this file. -/
theorem C55_wide (ha : allow = true) (hnm : n < m) (hz : ∀ i j, j < n → fileEntry q l i j = 0)
    (hr : (fileMat q n m l).rank ≠ 0) :
    Ok (tool_rank_cert jk jw h0 M env opts f q allow) (fun x => x.2.1 = true ∧ ∃ c, x.2.2 = certText c ∧
      c.hash.toList = Fips.sha256 (f.map byte) ∧ ∀ A', FileCsr q n m l A' → ∀ jw' jk' fuel' ctx',
        Ok (cert_verify jw' jk' ctx' fuel' A' c.hash c) (fun b => b = false)) := by
  refine (rank_cert_general jk jw h0 env opts hq hf hc henv hb hnull hpv hfin M hmb hmc hN hfu).mono ?_
  rintro x ⟨h1, h2, c, A, L, U, qinv, p, complete, h3, h4, h5, h6, h7, h8⟩
  refine ⟨h2, c, h3, h5.hash, ?_⟩
  intro A' hA' jw' jk' fuel' ctx'
  have h4 : FileCsr q m n (flipped l) A := by
    unfold RankMatrix at h4
    rwa [if_pos ⟨ha, hnm⟩] at h4
  have hc0 : 0 < c.r := by rw [h5.rank]; omega
  have hrow : n ≤ permFun p 0 := by
    by_contra hlt
    have hi : permFun p 0 < A.n := by
      rw [← h7.L_n]; exact h7.tri.lt 0 (by rw [h7.L_m, h6]; exact hc0)
    have hz0 : ∀ j, A.entry q (permFun p 0) j = 0 := by
      intro j
      rw [h4.entry _ _ (by rw [← h4.n_eq]; exact hi), fileEntry_flipped]
      exact hz _ _ (by omega)
    refine h7.row_ne_zero 0 (by omega) hz0
  exact verify_out_of_range h5.fits.typed hc0 (.inl (by rw [h8 0 hc0, hA'.n_eq]; omega)) h5.fits.hash_size

end

/-! ### C44 -/

/-- C44 (defect). Whatever the matrix, and whatever the certificate of a nonzero rank in the file (valid or not, of this
matrix or of another), there is a content of the memory with which the tool says that the certificate is correct: its
columns are not loaded, so that it is rejected, and the verdict is inverted. -/
theorem C44_blind (jw : Nat → W) (jc : Nat → Char) (h0 : Nat → B) {c0 : Cert} (hc0 : c0.hash.size = 32) (ctx0 : Prng)
    (fuel : Nat) {q : ℕ} (hq : 2 ≤ q ∧ q ≤ 0xfffffffb) {f : List Char} {n m : Nat} {l : List (Int × Int × Int)}
    (hf : IsFile f n m l) (hc : NoCancel q l) {c : Cert} (hfit : c.Fits) (hr : 0 < c.r) :
    ∃ jk : Junk, Ok (tool_check_cert jk jw jc h0 c0 ctx0 fuel f (certText c) q) (fun x =>
      x = ("CORRECT certificate\n".toList, false)) := by
  refine ⟨{ (default : Junk) with int := fun _ => -1 }, ?_⟩
  unfold tool_check_cert
  rw [Ok_bind]
  refine (load_file_hash _ jw hq hf (md := mkArr 32 h0) (by simp)).mono ?_
  rintro ⟨T, hash⟩ ⟨hT, md, rfl, hmd⟩
  simp only
  rw [Ok_bind]
  refine (compress_file _ hT hc).mono fun A hA => ?_
  rw [Ok_bind]
  refine (certificate_load_spec _ jc hc0 hfit).mono ?_
  rintro x rfl
  simp only
  rw [Ok_bind, Ok_deref_some, Ok_bind]
  have ht := hfit.typed
  refine (verify_out_of_range (c := ⟨c.r, c.prime, c.hash, c.j, mkArr c.r fun _ => -1, c.x, c.y⟩)
    ⟨ht.j_size, by simp, ht.x_size, ht.y_size, ht.hash_size, ht.x_int, ht.y_int⟩ hr (.inr ?_) hmd).mono ?_
  · show (mkArr c.r fun _ => (-1 : Int)).g 0 < 0
    rw [g_eq (mkArr _ _) 0 (by simpa using hr)]
    simp [mkArr]
  · rintro b rfl
    exact (Ok_ok ..).mpr rfl

/-! ### Concrete cases -/

theorem hash_count {f : List Char} (hf : NoNul f) {K : Nat}
    (h : (match (do
        let r ← triplet_load default exJw f ((7 : ℕ) : Int) (some (mkArr 32 default))
        let d ← deref r.2
        let c ← prng_seed default d 7 0 exPrng
        drawMany default 20 K c) with
      | .ok _ => true
      | .error _ => false) = true) :
    ∃ N, N ≤ 8 * (2 ^ 31 - 1) ∧ K ≤ Nat.count (Accepted (Fips.sha256 (f.map byte)) 7) N := by
  split at h
  case h_2 => cases h
  rename_i c' h1
  obtain ⟨r, e1, h1⟩ := bind_ok_split h1
  obtain ⟨d, e2, h1⟩ := bind_ok_split h1
  obtain ⟨c, e3, h1⟩ := bind_ok_split h1
  obtain ⟨d', e4, e5⟩ := C48_hash (vals := true) default exJw (.inl ⟨rfl, rfl, by norm_num, by norm_num⟩) hf (by simp) e1
  rw [e4] at e2
  cases e2
  rw [← e5]
  have hs : d.size = 32 := by
    obtain ⟨d', g1, g2⟩ := load_hash_kept e1
    rw [e4] at g1
    cases g1
    simpa using g2
  have h2 := seed_spec default d 7 0 exPrng hs (by decide) (by decide) (by simp [exPrng]) (by simp [exPrng])
  rw [e3] at h2
  exact count_of_run (by simpa using hs) h2 h1

theorem seed_count (s : BitVec 64) {K : Nat}
    (h : (match (do let c ← prng_seed_simple default default 7 s 0 exPrng; drawMany default 20 K c) with
      | .ok _ => true
      | .error _ => false) = true) : ∃ N, N ≤ 8 * (2 ^ 31 - 1) ∧ K ≤ Nat.count (Accepted (simpleSeed s) 7) N := by
  have h1 := seed_simple_spec default default 7 s 0 exPrng (by decide) (by decide) (by simp [exPrng]) (by simp [exPrng])
  rw [Ok_iff] at h1
  obtain ⟨ctx, h1, h2⟩ := h1
  rw [h1] at h
  cases h4 : drawMany default 20 K ctx with
  | ok c => exact count_of_run (by simp [simpleSeed, Fips.bytes]) h2 h4
  | error e =>
    have : (do let c ← (.ok ctx : C Prng); drawMany default 20 K c) = drawMany default 20 K ctx := rfl
    rw [this, h4] at h
    simp at h

/-- A matrix with one row and two columns. -/
def exWideFile : List Char := "1 2 M\n1 2 1\n0 0 0\n".toList

theorem exWideFile_file : IsFile exWideFile 1 2 [(1, 2, 1)] := by
  refine ⟨.inl ?_, by decide, by decide, by decide, by decide, by decide⟩
  refine ⟨"1 2 M".toList, ["1 2 1".toList], "0 0 0".toList, [],
    ⟨⟨by decide, by decide, by decide⟩, [], [' '], [' '], [], by simp [Blank], by simp [Blank],
      by simp [Blank], by simp, by decide +kernel⟩, .cons ?_ .nil, ?_, by simp, by decide +kernel⟩
  all_goals exact ⟨⟨by decide, by decide, by decide⟩, [], [' '], [' '], [], by simp [Blank], by simp [Blank],
    by simp [Blank], by simp, by simp, by simp, by decide +kernel⟩

theorem exWideFile_noCancel : NoCancel 7 [(1, 2, 1)] := Distinct.noCancel (by unfold Distinct; decide)

theorem exWide_enough : ∃ N, Enough 7 1 2 (Fips.sha256 (exWideFile.map byte)) N := by
  obtain ⟨a, a1, a2⟩ := seed_count 42 (K := 2) (by decide +kernel)
  obtain ⟨b, b1, b2⟩ := seed_count 1337 (K := 2) (by decide +kernel)
  obtain ⟨c, c1, c2⟩ := seed_count 21011984 (K := 2) (by decide +kernel)
  obtain ⟨d, d1, d2⟩ := hash_count exWideFile_file.noNul (K := 3) (by decide +kernel)
  refine ⟨max (max a b) (max c d), by omega, ?_, ?_⟩
  · rintro s (rfl | rfl | rfl)
    · exact a2.trans (Nat.count_monotone _ (by omega))
    · exact b2.trans (Nat.count_monotone _ (by omega))
    · exact c2.trans (Nat.count_monotone _ (by omega))
  · exact d2.trans (Nat.count_monotone _ (by omega))

theorem exWide_rank : (fileMat 7 1 2 [(1, 2, 1)]).rank ≠ 0 := by
  intro h
  have h1 := LinearMap.range_eq_bot.mp (Submodule.finrank_eq_zero.mp h)
  have h2 := congrFun (LinearMap.congr_fun h1 (Pi.single 1 1)) 0
  rw [Matrix.mulVecLin_apply, Matrix.mulVec_single_one] at h2
  have h3 : fileMat 7 1 2 [(1, 2, 1)] 0 1 = 0 := h2
  revert h3
  decide +kernel

theorem exWide_zero : ∀ i j, j < 1 → fileEntry 7 [(1, 2, 1)] i j = 0 := by
  intro i j hj
  obtain rfl : j = 0 := by omega
  simp [fileEntry]

/-- The memory of the program. -/
def exCertMem : CertMem := ⟨default, default, default, default, exPrng, 8 * (2 ^ 31 - 1)⟩

section
attribute [local irreducible] WpE Ok tool_rank_cert exWideFile Fips.sha256 cert_verify exCertMem

theorem exCertMem_block : exCertMem.ctx.block.size = 44 := by unfold exCertMem; simp [exPrng]
theorem exCertMem_hash : exCertMem.ctx.hash.size = 32 := by unfold exCertMem; simp [exPrng]
theorem exCertMem_fuel : exCertMem.fuel = 8 * (2 ^ 31 - 1) := by unfold exCertMem; rfl

/-- Without transposition. -/
example : Ok (tool_rank_cert default exJw default exCertMem exDenseEnv exThree exWideFile ((7 : ℕ) : Int) false)
    (fun x => x.1 = (fileMat 7 1 2 [(1, 2, 1)]).rank ∧ x.2.1 = true) := by
  obtain ⟨N, hN⟩ := exWide_enough
  exact (C55_certificate_partial (q := 7) default exJw default exDenseEnv exThree (by norm_num) exWideFile_file
    exWideFile_noCancel exFull_possible (by decide) (.inl (by decide)) (fun _ h => by cases h) (.inl rfl) exCertMem
    exCertMem_block exCertMem_hash hN (by rw [exCertMem_fuel]; exact hN.le)).mono fun _ h => ⟨h.1, h.2.1⟩

/-- With transposition. -/
example : Ok (tool_rank_cert default exJw default exCertMem exDenseEnv exThree exWideFile ((7 : ℕ) : Int) true)
    (fun x => x.2.1 = true ∧ ∃ c, x.2.2 = certText c ∧ ∀ A', FileCsr 7 1 2 [(1, 2, 1)] A' →
      Ok (cert_verify default default exPrng 10 A' c.hash c) (fun b => b = false)) := by
  obtain ⟨N, hN⟩ := exWide_enough
  exact (C55_wide (q := 7) default exJw default exDenseEnv exThree (by norm_num) exWideFile_file
    exWideFile_noCancel exFull_possible (by decide) (.inl (by decide)) (fun _ h => by cases h) (.inl rfl) exCertMem
    exCertMem_block exCertMem_hash hN (by rw [exCertMem_fuel]; exact hN.le) rfl (by decide) exWide_zero
    exWide_rank).mono fun _ ⟨h1, c, h2, _, h3⟩ => ⟨h1, c, h2, fun A' hA' => h3 A' hA' _ _ _ _⟩

end

attribute [local irreducible] tool_check_cert in
/-- The certificate `exCert`, which is of another matrix. -/
example : ∃ jk : Junk, Ok (tool_check_cert jk exJw default (fun _ => 0) exCert exPrng 20 exWideFile (certText exCert)
    ((7 : ℕ) : Int)) (fun x => x = ("CORRECT certificate\n".toList, false)) :=
  C44_blind (q := 7) exJw default (fun _ => 0) (by simp [exCert, exHash]) exPrng 20 (by norm_num) exWideFile_file
    exWideFile_noCancel exCert_fits (by decide)

end Spasm
