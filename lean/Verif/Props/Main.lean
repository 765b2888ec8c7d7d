import Verif.Model.Main
import Verif.Props.CommandLine
import Verif.Props.Numeric
import Verif.Props.ToolCert

/-
C60: the programs, from the command line and the files they read to what they print and write.
-/

namespace Spasm

open Sha Finset

/-- One call of `spasm_echelonize` with the options of a command line. -/
theorem call_refine (jk : Junk) {q : ℕ} [Fact q.Prime] {env : Env} (henv : env.Possible q) {c : Chance}
    (hc0 : 0 ≤ c.mlog) (hc5 : c.mlog ≤ 5) {A : Csr} (hA : A.WFV q) (hnd : A.NoDup) (hz : A.NoZero) (o : EchOpts)
    (ha : o.tall_and_skinny_ratio.lt (.fin 0) = false)
    (hw : o.low_rank_start_weight.lt (.fin 0) = true ∨ ∃ w, o.low_rank_start_weight.toI32 = .ok w)
    (hr : A.n ≤ A.m ∨ (A.toMat q).rank < A.m) (hn : A.n < 2 ^ 28) (hm : A.m < 2 ^ 31) :
    ∃ env' : Env, env.Agree env' ∧ env'.Possible q ∧
      echelonize_call jk env c A (some o) = echelonize jk env' o.ints A :=
  C57_refine_partial jk q env (o.num c) o.ints A henv hA hnd hz ⟨hc0, hc5, ha, hw⟩ hr hn hm

section
variable (w : World) {q : ℕ} [Fact q.Prime] (hq : q ≤ 0xfffffffb) (henv : w.env.Possible q)
  (hc0 : 0 ≤ w.c.mlog) (hc5 : w.c.mlog ≤ 5) {f : List Char} {n m : Nat} {e : List (Int × Int × Int)}
  (hf : IsFile f n m e) (hc : NoCancel q e) (hn : n < 2 ^ 28) (hm : m < 2 ^ 28)

include hq henv hc0 hc5 hf hc hn hm

/-- What is assumed of a command line. -/
structure Sane {κ : Type} (w : World) (q : ℕ) (f : List Char) (l : List (Arg κ Int (List Char))) : Prop where
  fits : ∀ a ∈ l, a.Fits
  modulus : lastVal Arg.modulusOf 42013 l = q
  file : read_file w.sys (lastVal Arg.fileOf none l) = .ok f
  aspect : (lastVal (fun a => (Arg.aspectOf a).map w.atof) (.fin 5) l).lt (.fin 0) = false
  block : 0 < lastVal Arg.blockOf 1000 l
  rounds : 0 < lastVal Arg.roundsOf 3 l

omit hq henv hc0 hc5 hf hc hn hm [Fact q.Prime] in
theorem Sane.facts {κ : Type} {l : List (Arg κ Int (List Char))} (hl : Sane w q f l) {i : InputArgs} {o : EchOpts}
    (hM : Means w.atof l i o) : 0 < o.ints.block ∧ (o.ints.max_round ≠ 0 ∨ w.jk.null0 = false) ∧
      read_file w.sys i.filename = .ok f ∧ i.prime = (q : Int) ∧ o.tall_and_skinny_ratio.lt (.fin 0) = false ∧
      o.low_rank_start_weight.lt (.fin 0) = true := by
  refine ⟨?_, .inl ?_, ?_, ?_, ?_, ?_⟩
  · show 0 < o.dense_block_size
    rw [hM.block]; exact hl.block
  · show o.max_round.toNat ≠ 0
    rw [hM.rounds]
    have := hl.rounds
    omega
  · rw [hM.file]; exact hl.file
  · rw [hM.prime]; exact hl.modulus
  · rw [hM.aspect]; exact hl.aspect
  · rw [hM.weight]
    exact decide_eq_true (by norm_num : (-1 : ℚ) < 0)

/-! ### rank -/

section
variable {l : List (Arg RankOpt Int (List Char))} (hl : Sane w q f l)
  (hr : n = m ∨ (fileMat q n m e).rank < min n m ∨ (n < m ∧ .own .no_transpose ∈ l))
include hl hr

theorem main_rank_eq : ∃ (env' : Env) (a : Args RankArgs), w.env.Agree env' ∧ env'.Possible q ∧ Means w.atof l a.input a.opts ∧
    (a.own.certificate = true ↔ .own .certificate ∈ l) ∧ (a.own.allow_transpose = true ↔ .own .no_transpose ∉ l) ∧
    a.own.cert_file = lastVal Arg.certOf none l ∧
    (.own .certificate ∉ l → main_rank w (l.map Arg.text) =
      tool_rank w.jk w.jw w.h0 env' a.opts.ints f q a.own.allow_transpose >>= fun r => .ok ⟨r, none, none⟩) ∧
    (.own .certificate ∈ l → main_rank w (l.map Arg.text) =
      tool_rank_cert w.jk w.jw w.h0 w.M env' a.opts.ints f q a.own.allow_transpose >>= fun x =>
        .ok ⟨x.1, some x.2.1, a.own.cert_file.map fun g => (g, x.2.2)⟩) := by
  obtain ⟨a, ea, hM, h1, h2, h3⟩ := Ok_iff.mp (C59_rank w.atof l hl.fits)
  obtain ⟨⟨A, hash⟩, eA, hA, -⟩ := Ok_iff.mp (rank_input_spec w.jk w.jw w.h0 hq hf hc a.own.allow_transpose)
  have hF : A.WFV q ∧ A.NoDup ∧ A.NoZero ∧ A.n < 2 ^ 28 ∧ A.m < 2 ^ 31 ∧ (A.n ≤ A.m ∨ (A.toMat q).rank < A.m) := by
    simp only at hA
    split at hA
    · rename_i hcond
      refine ⟨hA.wfv, hA.nodup, hA.nozero, by rw [hA.n_eq]; exact hm, by rw [hA.m_eq]; omega, .inr ?_⟩
      rw [hA.rank, fileMat_flipped, Matrix.rank_transpose, hA.m_eq]
      rcases hr with hr | hr | ⟨-, hr⟩
      · omega
      · omega
      · exact absurd hr (h2.mp hcond.1)
    · refine ⟨hA.wfv, hA.nodup, hA.nozero, by rw [hA.n_eq]; exact hn, by rw [hA.m_eq]; omega, ?_⟩
      rw [hA.rank, hA.n_eq, hA.m_eq]
      omega
  obtain ⟨w1, w2, w3, w4, w5, w6⟩ := hF
  obtain ⟨-, -, hfile, hmod, hasp', hwt'⟩ := hl.facts w hM
  have hasp : (rank_opts a).tall_and_skinny_ratio.lt (.fin 0) = false := by
    have : (rank_opts a).tall_and_skinny_ratio = a.opts.tall_and_skinny_ratio := by
      unfold rank_opts; split <;> rfl
    rw [this]; exact hasp'
  have hwt : (rank_opts a).low_rank_start_weight.lt (.fin 0) = true := by
    have : (rank_opts a).low_rank_start_weight = a.opts.low_rank_start_weight := by
      unfold rank_opts; split <;> rfl
    rw [this]; exact hwt'
  obtain ⟨env', g1, g2, g3⟩ := call_refine w.jk henv hc0 hc5 w1 w2 w3 (rank_opts a) hasp (.inl hwt) w6 w4 w5
  have hmain : main_rank w (l.map Arg.text) =
      echelonize w.jk env' (rank_opts a).ints A >>= fun fact => rank_end w.M a.own A hash fact := by
    unfold main_rank
    rw [ea]
    show (read_file w.sys a.input.filename >>= fun f => _) = _
    rw [hfile]
    show (rank_input w.jk w.jw w.h0 f a.input.prime a.own.allow_transpose >>= fun x => _) = _
    rw [hmod, eA]
    show (echelonize_call w.jk w.env w.c A (some (rank_opts a)) >>= fun fact => _) = _
    rw [g3]
  refine ⟨env', a, g1, g2, hM, h1, h2, h3, fun hn => ?_, fun hy => ?_⟩
  · have hn' : a.own.certificate = false := by rw [← Bool.not_eq_true, h1]; exact hn
    have ho : rank_opts a = a.opts := by unfold rank_opts; rw [if_neg (by simp [hn'])]
    rw [hmain, ho]
    unfold tool_rank
    rw [eA]
    show _ = ((echelonize w.jk env' a.opts.ints A >>= fun fact => _) >>= fun r => _)
    generalize echelonize w.jk env' a.opts.ints A = x
    cases x with
    | error _ => rfl
    | ok fact =>
      show rank_end w.M a.own A hash fact = _
      unfold rank_end
      rw [if_neg (by simp [hn'])]
      rfl
  · have hy' : a.own.certificate = true := h1.mpr hy
    have ho : rank_opts a = { a.opts with L := true } := by unfold rank_opts; rw [if_pos hy']
    rw [hmain, ho]
    unfold tool_rank_cert
    rw [eA]
    show (echelonize w.jk env' { a.opts.ints with L := true } A >>= fun fact => _) =
      ((echelonize w.jk env' { a.opts.ints with L := true } A >>= fun fact => _) >>= fun r => _)
    generalize echelonize w.jk env' { a.opts.ints with L := true } A = x
    cases x with
    | error _ => rfl
    | ok fact =>
      show rank_end w.M a.own A hash fact = ((rank_certificate w.M A hash fact >>= fun x => _) >>= fun x => _)
      unfold rank_end
      rw [if_pos hy']
      generalize rank_certificate w.M A hash fact = y
      cases y with
      | error _ => rfl
      | ok y => rfl

/-- C60. `rank --no-low-rank-mode [options]`, with GPLU and without a certificate: the program succeeds; the number it
prints is at most the rank of the matrix, and it is the rank unless the search was ended early (on the basis of the
number of rows or of a random test: see C27).

Missing: matrices for which the numeric decisions are undefined (`hr`, see `C57_nan`); cancellations in the file (`hc`,
see C10). -/
theorem C60_rank_partial (hlow : .ech .no_low_rank ∈ l) (hg : .ech .no_gplu ∉ l) (hcert : .own .certificate ∉ l) :
    Ok (main_rank w (l.map Arg.text)) fun r => r.verdict = none ∧ r.cert = none ∧
      r.rank ≤ (fileMat q n m e).rank ∧ (r.rank = (fileMat q n m e).rank ∨
        ∃ env' o A U, w.env.Agree env' ∧ (FileCsr q m n (flipped e) A ∨ FileCsr q n m e A) ∧ r.rank = U.n ∧
          Early q env' o A U) := by
  obtain ⟨env', a, g1, g2, hM, h1, h2, h3, h4, -⟩ := main_rank_eq w hq henv hc0 hc5 hf hc hn hm hl hr
  rw [h4 hcert, Ok_bind]
  obtain ⟨hb, hnull, -⟩ := hl.facts w hM
  have ht : a.opts.ints.tall = false := by
    show a.opts.enable_tall_and_skinny = false
    rw [← Bool.not_eq_true, hM.low_rank]; simpa using hlow
  have hgp : a.opts.ints.gplu = true := hM.gplu.mpr hg
  have e1 := C51_rank_partial w.jk w.jw w.h0 env' a.opts.ints hq hf hc g2 hb hnull hM.L hM.complete
    a.own.allow_transpose (.inl hgp) (fun h => by rw [ht] at h; cases h)
  have e2 := C51_sound w.jk w.jw w.h0 env' a.opts.ints hq hf hc g2 hb hnull hM.L hM.complete
    a.own.allow_transpose (fun h => by rw [ht] at h; cases h)
  refine (WpE.ok ((e1.and e2).weaken fun e h => by rw [ht] at h; cases h.1)).mono ?_
  rintro r ⟨h5, h6⟩
  refine (Ok_ok ..).mpr ⟨rfl, rfl, h6, ?_⟩
  rcases h5 with h5 | ⟨A, U, k1, k2, k3⟩
  · exact .inl h5
  · exact .inr ⟨env', a.opts.ints, A, U, g1, k1, k2, k3⟩

/-- C60. `rank --certificate --no-dense-mode [options]`, with GPLU: the program prints the rank of the matrix, says that
the certificate is correct, and writes the text of a certificate of this rank, which carries the SHA-256 of the file of
the matrix, in the file given by `--output` (nowhere without this option).

Missing: as in `C60_rank_partial`; with the dense method, see C55; wide matrices, see `C55_wide`. -/
theorem C60_certificate_partial (hd : .ech .no_dense ∈ l) (hg : .ech .no_gplu ∉ l) (hcert : .own .certificate ∈ l)
    (hmb : w.M.ctx.block.size = 44) (hmc : w.M.ctx.hash.size = 32) {N : Nat}
    (hN : Enough q n m (Fips.sha256 (f.map byte)) N) (hfu : N ≤ w.M.fuel) :
    Ok (main_rank w (l.map Arg.text)) fun r => r.rank = (fileMat q n m e).rank ∧ r.verdict = some true ∧
      ∃ c, r.cert = (lastVal Arg.certOf none l).map (fun g => (g, certText c)) ∧ c.Fits ∧ c.r = r.rank ∧ c.prime = q ∧
        c.hash.toList = Fips.sha256 (f.map byte) := by
  obtain ⟨env', a, g1, g2, hM, h1, h2, h3, -, h4⟩ := main_rank_eq w hq henv hc0 hc5 hf hc hn hm hl hr
  rw [h4 hcert, Ok_bind]
  obtain ⟨hb, hnull, -⟩ := hl.facts w hM
  have hdn : a.opts.ints.dense = false := by
    show a.opts.enable_dense = false
    rw [← Bool.not_eq_true, hM.dense]; simpa using hd
  refine (C55_certificate_partial w.jk w.jw w.h0 env' a.opts.ints hq hf hc g2 hb hnull
    (fun _ h => by rw [hdn] at h; cases h) (.inl (hM.gplu.mpr hg)) w.M hmb hmc hN hfu).mono ?_
  rintro ⟨r, b, t⟩ ⟨k1, k2, c, k3, k4, k5, k6, k7, -⟩
  simp only at k1 k2 k3
  refine (Ok_ok ..).mpr ⟨k1, by rw [k2], c, ?_, k4, by rw [k5, k1], k6, k7⟩
  simp only
  rw [h3, k3]

end

/-! ### kernel -/

section
variable {l : List (Arg KerOpt Int (List Char))} (hl : Sane w q f l)
  (hr : (.own .left ∈ l → m ≤ n ∨ (fileMat q n m e).rank < n) ∧
    (.own .left ∉ l → n ≤ m ∨ (fileMat q n m e).rank < m))
include hl hr

theorem main_kernel_eq : ∃ (env' : Env) (o : EchOpts) (left : Bool), w.env.Agree env' ∧ env'.Possible q ∧
    (∃ i, Means w.atof l i o) ∧ (left = true ↔ .own .left ∈ l) ∧
    main_kernel_fact w (l.map Arg.text) =
      kernel_input w.jk w.jw env' o.ints f q left >>= fun fact => .ok (fact, lastVal Arg.kerOf none l) := by
  obtain ⟨a, ea, hM, h1, h2⟩ := Ok_iff.mp (C59_kernel w.atof l hl.fits)
  obtain ⟨-, -, hfile, hmod, hasp, hwt⟩ := hl.facts w hM
  obtain ⟨⟨T, hash⟩, eT, hT⟩ := Ok_iff.mp
    (load_file w.jk w.jw (prime_range hq) hf (hash := none) (by rintro _ h; cases h))
  simp only at hT
  have hcomp : Ok (compress w.jk (if a.own.left = true then triplet_transpose T else T)) fun A =>
      if a.own.left = true then FileCsr q m n (flipped e) A else FileCsr q n m e A := by
    cases a.own.left with
    | true => exact compress_file w.jk hT.transpose hc.flipped
    | false => exact compress_file w.jk hT hc
  obtain ⟨A, eA, hA⟩ := Ok_iff.mp hcomp
  have hF : A.WFV q ∧ A.NoDup ∧ A.NoZero ∧ A.n < 2 ^ 28 ∧ A.m < 2 ^ 31 ∧ (A.n ≤ A.m ∨ (A.toMat q).rank < A.m) := by
    split at hA
    · rename_i hcond
      refine ⟨hA.wfv, hA.nodup, hA.nozero, by rw [hA.n_eq]; exact hm, by rw [hA.m_eq]; omega, ?_⟩
      rw [hA.rank, fileMat_flipped, Matrix.rank_transpose, hA.m_eq, hA.n_eq]
      exact hr.1 (h1.mp hcond)
    · rename_i hcond
      refine ⟨hA.wfv, hA.nodup, hA.nozero, by rw [hA.n_eq]; exact hn, by rw [hA.m_eq]; omega, ?_⟩
      rw [hA.rank, hA.n_eq, hA.m_eq]
      exact hr.2 fun h => hcond (h1.mpr h)
  obtain ⟨w1, w2, w3, w4, w5, w6⟩ := hF
  obtain ⟨env', g1, g2, g3⟩ := call_refine w.jk henv hc0 hc5 w1 w2 w3 a.opts hasp (.inl hwt) w6 w4 w5
  refine ⟨env', a.opts, a.own.left, g1, g2, ⟨_, hM⟩, h1, ?_⟩
  unfold main_kernel_fact kernel_input
  rw [ea]
  show (read_file w.sys a.input.filename >>= fun f => _) = _
  rw [hfile]
  show (triplet_load w.jk w.jw f a.input.prime none >>= fun x => _) = _
  rw [hmod, eT]
  show (compress w.jk (if a.own.left = true then triplet_transpose T else T) >>= fun A => _) =
    ((compress w.jk (if a.own.left = true then triplet_transpose T else T) >>= fun A => _) >>= fun fact => _)
  rw [eA]
  show (echelonize_call w.jk w.env w.c A (some a.opts) >>= fun fact => _) = _
  rw [g3, h2]
  rfl

/-- C60. `kernel --no-low-rank-mode [options]` with GPLU: the program succeeds; every text it may write goes in the file
given by `--output` (else on the standard output) and describes a matrix with independent rows, whose span contains
the right kernel of the matrix, and is equal to it unless the search for pivots was ended early.  (Missing: as in
`C60_rank_partial`.) -/
theorem C60_kernel_partial (hlow : .ech .no_low_rank ∈ l) (hg : .ech .no_gplu ∉ l) (hleft : .own .left ∉ l) :
    (∃ out g, MainKernel w (l.map Arg.text) out g) ∧
    ∀ out g, MainKernel w (l.map Arg.text) out g → out = lastVal Arg.kerOf none l ∧ ∃ k l', IsFile g k m l' ∧
      LinearIndependent (ZMod q) (fun i => fileMat q k m l' i) ∧
      LinearMap.ker (fileMat q n m e).mulVecLin ≤ fileRows q k m l' ∧
      (fileRows q k m l' = LinearMap.ker (fileMat q n m e).mulVecLin ∨
        ∃ env' o A U, w.env.Agree env' ∧ FileCsr q n m e A ∧ Early q env' o A U) := by
  obtain ⟨env', o, left, g1, g2, ⟨i, hM⟩, h1, h2⟩ := main_kernel_eq w hq henv hc0 hc5 hf hc hn hm hl hr
  obtain ⟨hb, hnull, -⟩ := hl.facts w hM
  have ht : o.ints.tall = false := by
    show o.enable_tall_and_skinny = false
    rw [← Bool.not_eq_true, hM.low_rank]; simpa using hlow
  have hleft' : left = false := by rw [← Bool.not_eq_true, h1]; exact hleft
  subst hleft'
  obtain ⟨fact, ef, k1, ⟨K, k2⟩, k3⟩ := Ok_iff.mp (WpE.ok ((C52_kernel_partial w.jk w.jw env' o.ints hq hf hc g2 hb
    hnull hM.L hM.complete (.inl (hM.gplu.mpr hg)) (fun h => by rw [ht] at h; cases h)).weaken
      fun e h => by rw [ht] at h; cases h.1))
  rw [ef] at h2
  constructor
  · obtain ⟨g, k, l', e1, -⟩ := k3 K k2
    exact ⟨_, g, fact, K, h2, k2, e1⟩
  · rintro out g ⟨fact', K, e1, e2, e3⟩
    rw [h2] at e1
    cases e1
    obtain ⟨g', k, l', s1, s2, s3, s4, s5⟩ := k3 K e2
    rw [e3] at s1
    cases s1
    refine ⟨rfl, k, l', s2, s3, s4, ?_⟩
    rcases s5 with s5 | ⟨A, s5, s6⟩
    · exact .inl s5
    · exact .inr ⟨env', o.ints, A, fact.U, g1, s5, s6⟩

/-- C60. `kernel --left --no-low-rank-mode [options]` with GPLU: the same, for the left kernel. -/
theorem C60_left_partial (hlow : .ech .no_low_rank ∈ l) (hg : .ech .no_gplu ∉ l) (hleft : .own .left ∈ l) :
    (∃ out g, MainKernel w (l.map Arg.text) out g) ∧
    ∀ out g, MainKernel w (l.map Arg.text) out g → out = lastVal Arg.kerOf none l ∧ ∃ k l', IsFile g k n l' ∧
      LinearIndependent (ZMod q) (fun i => fileMat q k n l' i) ∧
      (∀ x, Matrix.vecMul x (fileMat q n m e) = 0 → x ∈ fileRows q k n l') ∧
      ((∀ x, x ∈ fileRows q k n l' ↔ Matrix.vecMul x (fileMat q n m e) = 0) ∨
        ∃ env' o A U, w.env.Agree env' ∧ FileCsr q m n (flipped e) A ∧ Early q env' o A U) := by
  obtain ⟨env', o, left, g1, g2, ⟨i, hM⟩, h1, h2⟩ := main_kernel_eq w hq henv hc0 hc5 hf hc hn hm hl hr
  obtain ⟨hb, hnull, -⟩ := hl.facts w hM
  have ht : o.ints.tall = false := by
    show o.enable_tall_and_skinny = false
    rw [← Bool.not_eq_true, hM.low_rank]; simpa using hlow
  have hleft' : left = true := h1.mpr hleft
  subst hleft'
  obtain ⟨fact, ef, k1, ⟨K, k2⟩, k3⟩ := Ok_iff.mp (WpE.ok ((C52_left_partial w.jk w.jw env' o.ints hq hf hc g2 hb
    hnull hM.L hM.complete (.inl (hM.gplu.mpr hg)) (fun h => by rw [ht] at h; cases h)).weaken
      fun e h => by rw [ht] at h; cases h.1))
  rw [ef] at h2
  constructor
  · obtain ⟨g, k, l', e1, -⟩ := k3 K k2
    exact ⟨_, g, fact, K, h2, k2, e1⟩
  · rintro out g ⟨fact', K, e1, e2, e3⟩
    rw [h2] at e1
    cases e1
    obtain ⟨g', k, l', s1, s2, s3, s4, s5⟩ := k3 K e2
    rw [e3] at s1
    cases s1
    refine ⟨rfl, k, l', s2, s3, s4, ?_⟩
    rcases s5 with s5 | ⟨A, s5, s6⟩
    · exact .inl s5
    · exact .inr ⟨env', o.ints, A, fact.U, g1, s5, s6⟩

end

/-! ### solve -/

section
variable {l : List (Arg SolveOpt Int (List Char))} (hl : Sane w q f l)
  (hr : n ≤ m ∨ (fileMat q n m e).rank < m) {g : List Char} {k : Nat} {e2 : List (Int × Int × Int)}
  (hg : IsFile g k m e2) (hc2 : NoCancel q e2) {rest : List Char}
  (hrhs : read_file { w.sys with stdin := if (lastVal Arg.fileOf none l).isNone then rest else w.sys.stdin }
    (lastVal Arg.rhsOf none l) = .ok g)
include hl hr hg hc2 hrhs

theorem main_solve_eq : ∃ (env' : Env) (o : EchOpts), w.env.Agree env' ∧ env'.Possible q ∧
    (∃ i, Means w.atof l i o) ∧ main_solve_fact w rest (l.map Arg.text) =
      solve_input w.jk w.jw w.h0 env' o.ints f g q >>= fun x => .ok (x, lastVal Arg.solOf none l) := by
  obtain ⟨a, ea, hM, h1, h2⟩ := Ok_iff.mp (C59_solve w.atof l hl.fits)
  obtain ⟨-, -, hfile, hmod, hasp, hwt⟩ := hl.facts w hM
  obtain ⟨⟨T, hash⟩, eT, hT, md, emd, hmd⟩ := Ok_iff.mp
    (load_file_hash w.jk w.jw (prime_range hq) hf (md := mkArr 32 w.h0) (by simp))
  simp only at hT emd
  subst emd
  obtain ⟨A, eA, hA⟩ := Ok_iff.mp (compress_file w.jk hT hc)
  obtain ⟨⟨T2, hash2⟩, eT2, hT2, -⟩ := Ok_iff.mp (load_file_hash w.jk w.jw (prime_range hq) hg hmd)
  simp only at hT2
  obtain ⟨B, eB, hB⟩ := Ok_iff.mp (compress_file w.jk hT2 hc2)
  obtain ⟨env', g1, g2, g3⟩ := call_refine w.jk henv hc0 hc5 hA.wfv hA.nodup hA.nozero { a.opts with L := true } hasp
    (.inl hwt) (by rw [hA.rank, hA.n_eq, hA.m_eq]; exact hr) (by rw [hA.n_eq]; exact hn) (by rw [hA.m_eq]; omega)
  have hrhs' : read_file { w.sys with stdin := if a.input.filename.isNone then rest else w.sys.stdin }
      a.own.rhs_filename = .ok g := by
    rw [h1, hM.file]; exact hrhs
  refine ⟨env', a.opts, g1, g2, ⟨_, hM⟩, ?_⟩
  unfold main_solve_fact solve_input
  rw [ea]
  show (read_file w.sys a.input.filename >>= fun f => _) = _
  rw [hfile]
  show (triplet_load w.jk w.jw f a.input.prime (some (mkArr 32 w.h0)) >>= fun x => _) = _
  rw [hmod, eT]
  show (compress w.jk T >>= fun A => _) = ((compress w.jk T >>= fun A => _) >>= fun x => _)
  rw [eA]
  show (read_file { w.sys with stdin := if a.input.filename.isNone then rest else w.sys.stdin }
      a.own.rhs_filename >>= fun g => _) = _
  rw [hrhs']
  show (triplet_load w.jk w.jw g (q : Int) (some md) >>= fun x => _) =
    ((triplet_load w.jk w.jw g (q : Int) (some md) >>= fun x => _) >>= fun x => _)
  rw [eT2]
  show (compress w.jk T2 >>= fun A => _) = ((compress w.jk T2 >>= fun A => _) >>= fun x => _)
  rw [eB]
  show (echelonize_call w.jk w.env w.c A (some { a.opts with L := true }) >>= fun fact => _) =
    ((echelonize w.jk env' { a.opts.ints with L := true } A >>= fun fact => _) >>= fun x => _)
  rw [g3, h2]
  show (echelonize w.jk env' { a.opts.ints with L := true } A >>= fun fact => _) = _
  generalize echelonize w.jk env' { a.opts.ints with L := true } A = x
  cases x <;> rfl

/-- C60. `solve --no-dense-mode [options]` with GPLU: the program succeeds; every text it may write goes in the file given
by `--output` (else on the standard output) and describes a matrix with one row for each row of the right-hand side,
which is a solution of the system whenever there is one; there is a warning for each of the other rows.

Missing: as in `C60_rank_partial`; with the dense method, see `C54_solve_partial`; right-hand sides of another width,
see `C54_narrow`. -/
theorem C60_solve_partial (hd : .ech .no_dense ∈ l) (hgp : .ech .no_gplu ∉ l) :
    (∃ warn out t, MainSolve w rest (l.map Arg.text) warn out t) ∧
    ∀ warn out t, MainSolve w rest (l.map Arg.text) warn out t → out = lastVal Arg.solOf none l ∧
      warn = warnings k (Solvable q n m e e2) ∧ ∃ l3, IsFile t k n l3 ∧
        ∀ i, (hi : i < k) → Solvable q n m e e2 i →
          Matrix.vecMul (fileMat q k n l3 ⟨i, hi⟩) (fileMat q n m e) = fun c : Fin m => fileEntry q e2 i c := by
  obtain ⟨env', o, g1, g2, ⟨i, hM⟩, h2⟩ := main_solve_eq w hq henv hc0 hc5 hf hc hn hm hl hr hg hc2 hrhs
  obtain ⟨hb, hnull, -⟩ := hl.facts w hM
  have hdn : o.ints.dense = false := by
    show o.enable_dense = false
    rw [← Bool.not_eq_true, hM.dense]; simpa using hd
  obtain ⟨k1, k2⟩ := C54_solve_partial w.jk w.jw w.h0 env' o.ints hq hf hc hg hc2 g2 hb hnull
    (fun _ h => by rw [hdn] at h; cases h) (.inl (hM.gplu.mpr hgp))
  obtain ⟨⟨fact, B⟩, es, ⟨X, ok, k3⟩, k4⟩ := Ok_iff.mp k1
  have h3 := h2
  rw [es] at h3
  constructor
  · obtain ⟨t, e1⟩ := k4 X ok k3
    exact ⟨_, _, t, fact, B, X, ok, h3, k3, rfl, e1⟩
  · rintro warn out t ⟨fact', B', X', ok', s1, s2, s3, s4⟩
    rw [h3] at s1
    cases s1
    obtain ⟨l3, t1, t2, t3⟩ := k2 warn t ⟨fact, B, X', ok', es, s2, s3, s4⟩
    exact ⟨rfl, t2, l3, t1, t3⟩

end

/-! ### echelonize -/

omit hq henv hc0 hc5 hf hc hn hm [Fact q.Prime] in
theorem lastVal_ind {α β : Type} {g : α → Option β} {d : β} {P : β → Prop} {l : List α} (hd : P d)
    (h : ∀ a ∈ l, ∀ b, g a = some b → P b) : P (lastVal g d l) := by
  induction l using List.reverseRecOn with
  | nil => exact hd
  | append_singleton l x ih =>
    rw [lastVal_snoc]
    cases hx : g x with
    | none => exact ih fun a ha => h a (by simp [ha])
    | some b => exact h x (by simp) b hx

omit hq henv hc0 hc5 hf hc hn hm [Fact q.Prime] in
theorem start_weight_ok {l : List (EchelonOpt Int (List Char))} (hfits : ∀ a ∈ l, a.Fits) :
    (lastVal (fun o => (EchelonOpt.weightOf o).map Dbl.ofInt) (.fin (-1)) l).lt (.fin 0) = true ∨
      ∃ w, (lastVal (fun o => (EchelonOpt.weightOf o).map Dbl.ofInt) (.fin (-1)) l).toI32 = .ok w := by
  refine lastVal_ind (P := fun d : Dbl => d.lt (.fin 0) = true ∨ ∃ w, d.toI32 = .ok w)
    (.inl (decide_eq_true (by norm_num : (-1 : ℚ) < 0))) ?_
  intro a ha b hb
  have h1 := hfits a ha
  cases a with
  | start_weight k =>
    have hk : -2 ^ 31 ≤ k ∧ k < 2 ^ 31 := h1
    cases hb
    refine .inr ⟨k, ?_⟩
    unfold Dbl.ofInt Dbl.toI32
    rw [rnd_int_exact 53 k (by rw [abs_lt]; constructor <;> omega)]
    have ht : truncQ (k : ℚ) = k := by
      unfold truncQ
      split
      · exact Int.floor_intCast k
      · exact Int.ceil_intCast k
    simp only [ht]
    unfold i32
    rw [if_pos (by omega)]
  | _ => cases hb

section
variable {l : List (EchelonOpt Int (List Char))} (hfits : ∀ a ∈ l, a.Fits)
  (hmod : lastVal EchelonOpt.modulusOf 42013 l = q) (hstdin : w.sys.stdin = f)
  (hblock : 0 < lastVal EchelonOpt.blockOf 1000 l) (hr : n ≤ m ∨ (fileMat q n m e).rank < m)
include hfits hmod hstdin hblock hr

theorem main_echelonize_eq : ∃ (env' : Env) (o : Opts), w.env.Agree env' ∧ env'.Possible q ∧
    (o.tall = true ↔ .no_low_rank ∉ l) ∧ o.gplu = true ∧ o.L = false ∧ o.complete = false ∧ 0 < o.block ∧
    o.max_round ≠ 0 ∧ ∃ b, (b = true ↔ .rref ∈ l) ∧
    main_echelonize_fact w (l.map EchelonOpt.text) =
      echelonize_input w.jk w.jw env' o f q >>= fun fact => .ok (fact, b) := by
  obtain ⟨a, ea, h1, h2, h3, -, h5⟩ := Ok_iff.mp (C59_echelonize_partial w.atof l hfits)
  obtain ⟨⟨T, hash⟩, eT, hT⟩ := Ok_iff.mp
    (load_file w.jk w.jw (prime_range hq) hf (hash := none) (by rintro _ h; cases h))
  simp only at hT
  obtain ⟨A, eA, hA⟩ := Ok_iff.mp (compress_file w.jk hT hc)
  obtain ⟨env', g1, g2, g3⟩ := call_refine w.jk henv hc0 hc5 hA.wfv hA.nodup hA.nozero a.opts
    (by rw [h3]; exact decide_eq_false (by norm_num : ¬ (5 : ℚ) < 0))
    (by rw [h3]; exact start_weight_ok hfits)
    (by rw [hA.rank, hA.n_eq, hA.m_eq]; exact hr) (by rw [hA.n_eq]; exact hn) (by rw [hA.m_eq]; omega)
  refine ⟨env', a.opts.ints, g1, g2, h5, ?_, ?_, ?_, ?_, ?_, a.rref, h2, ?_⟩
  · show a.opts.enable_GPLU = true
    rw [h3]; rfl
  · show a.opts.L = false
    rw [h3]; rfl
  · show a.opts.complete = false
    rw [h3]; rfl
  · show 0 < a.opts.dense_block_size
    rw [h3]; exact hblock
  · show a.opts.max_round.toNat ≠ 0
    rw [h3]; exact (by decide : (3 : Int).toNat ≠ 0)
  · unfold main_echelonize_fact echelonize_input
    rw [ea]
    show (triplet_load w.jk w.jw w.sys.stdin a.prime none >>= fun x => _) = _
    rw [hstdin, h1, hmod, eT]
    show (compress w.jk T >>= fun A => _) = ((compress w.jk T >>= fun A => _) >>= fun fact => _)
    rw [eA]
    show (echelonize_call w.jk w.env w.c A (some a.opts) >>= fun fact => _) = _
    rw [g3]
    rfl

/-- C60. `echelonize --no-low-rank-mode [options]` without `--rref`: the program succeeds and writes a matrix in echelon
form, with rows in the row space of the matrix it reads, which they span unless the search for pivots was ended early.
(Missing: as in `C60_rank_partial`; moduli above 2^31, see `C59_atoi`.) -/
theorem C60_echelonize_partial (hlow : .no_low_rank ∈ l) (hrref : .rref ∉ l) :
    (∃ g, MainEchelonize w (l.map EchelonOpt.text) g) ∧
    ∀ g, MainEchelonize w (l.map EchelonOpt.text) g → ∃ r l' c, IsFile g r m l' ∧ r ≤ (fileMat q n m e).rank ∧
      FileEchelon q r m l' c ∧ fileRows q r m l' ≤ fileRows q n m e ∧
      ((r = (fileMat q n m e).rank ∧ fileRows q r m l' = fileRows q n m e) ∨
        ∃ env' o A U, w.env.Agree env' ∧ FileCsr q n m e A ∧ Same q r m l' U ∧ Early q env' o A U) := by
  obtain ⟨env', o, g1, g2, h1, h2, h3, h4, h5, h6, b, h7, h8⟩ :=
    main_echelonize_eq w hq henv hc0 hc5 hf hc hn hm hfits hmod hstdin hblock hr
  have ht : o.tall = false := by rw [← Bool.not_eq_true, h1]; simpa using hlow
  have hb : b = false := by rw [← Bool.not_eq_true, h7]; exact hrref
  subst hb
  obtain ⟨g, eg, r, l', c, k1, k2, k3, k4, k5⟩ := Ok_iff.mp (WpE.ok ((C53_echelonize_partial w.jk w.jw env' o hq hf hc
    g2 h5 (.inl h6) h3 h4 (.inl h2) (fun h => by rw [ht] at h; cases h)).weaken
      fun e h => by rw [ht] at h; cases h.1))
  unfold tool_echelonize at eg
  generalize hx : echelonize_input w.jk w.jw env' o f q = x at eg
  cases x with
  | error _ => cases eg
  | ok fact =>
    rw [hx] at h8
    have eg : csr_save fact.U = .ok g := eg
    refine ⟨⟨g, fact, false, h8, eg⟩, ?_⟩
    rintro g' ⟨fact', b', e1, e2⟩
    rw [h8] at e1
    cases e1
    have e2 : csr_save fact.U = .ok g' := e2
    rw [eg] at e2
    cases e2
    refine ⟨r, l', c, k1, k2, k3, k4, ?_⟩
    rcases k5 with k5 | ⟨A, U, s1, s2, s3⟩
    · exact .inl k5
    · exact .inr ⟨env', o, A, U, g1, s1, s2, s3⟩

/-- C60. `echelonize --rref --no-low-rank-mode [options]`: the program succeeds and writes a matrix in reduced echelon
form, with rows in the row space of the matrix it reads, which they span unless the search for pivots was ended early.
(Missing: as in `C60_echelonize_partial`.) -/
theorem C60_rref_partial (hlow : .no_low_rank ∈ l) (hrref : .rref ∈ l) :
    (∃ g, MainEchelonize w (l.map EchelonOpt.text) g) ∧
    ∀ g, MainEchelonize w (l.map EchelonOpt.text) g → ∃ r l' c, IsFile g r m l' ∧ r ≤ (fileMat q n m e).rank ∧
      FileRref q r m l' c ∧ fileRows q r m l' ≤ fileRows q n m e ∧
      ((r = (fileMat q n m e).rank ∧ fileRows q r m l' = fileRows q n m e) ∨
        ∃ env' o A U R, w.env.Agree env' ∧ FileCsr q n m e A ∧ Same q r m l' R ∧ R.rowSpace q = U.rowSpace q ∧
          Early q env' o A U) := by
  obtain ⟨env', o, g1, g2, h1, h2, h3, h4, h5, h6, b, h7, h8⟩ :=
    main_echelonize_eq w hq henv hc0 hc5 hf hc hn hm hfits hmod hstdin hblock hr
  have ht : o.tall = false := by rw [← Bool.not_eq_true, h1]; simpa using hlow
  have hb : b = true := h7.mpr hrref
  subst hb
  obtain ⟨fact, ef, -, ⟨R, rq, k1⟩, k2⟩ := Ok_iff.mp (WpE.ok ((C53_rref_partial w.jk w.jw env' o hq hf hc
    g2 h5 (.inl h6) h3 h4 (.inl h2) (fun h => by rw [ht] at h; cases h)).weaken
      fun e h => by rw [ht] at h; cases h.1))
  rw [ef] at h8
  obtain ⟨g, eg, -⟩ := Ok_iff.mp (k2 R rq k1)
  refine ⟨⟨g, fact, true, h8, R, rq, k1, eg⟩, ?_⟩
  rintro g' ⟨fact', b', e1, e2⟩
  rw [h8] at e1
  cases e1
  obtain ⟨R', rq', e3, e4⟩ := e2
  have := k2 R' rq' e3
  rw [e4, Ok_ok] at this
  obtain ⟨r, l', c, s1, s2, s3, s4, s5⟩ := this
  refine ⟨r, l', c, s1, s2, s3, s4, ?_⟩
  rcases s5 with s5 | ⟨A, U, t1, t2, t3, t4⟩
  · exact .inl s5
  · exact .inr ⟨env', o, A, U, R', g1, t1, t2, t3, t4⟩

end

end

/-! ### Wide matrices -/

/-- C60 (negation). The program `rank` transposes the matrices that have fewer rows than columns.  If each row of such a
matrix is the first nonzero row of some column (for instance: if some columns form an identity matrix, or one row is
not zero and there are no others), the program computes 0/0 and converts the result to an integer, which is undefined
(`C57_nan`): with the default options, and with any options that allow one round. -/
theorem C60_wide (w : World) {q : ℕ} [Fact q.Prime] (hq : q ≤ 0xfffffffb) (henv : w.env.Possible q)
    {f : List Char} {n m : Nat} {e : List (Int × Int × Int)} (hf : IsFile f n m e) (hc : NoCancel q e)
    {l : List (Arg RankOpt Int (List Char))} (hl : Sane w q f l) (ht : .own .no_transpose ∉ l) (h0 : 0 < n) (hnm : n < m)
    (hrow : ∀ i, i < n → ∃ j, j < m ∧ fileEntry q e i j ≠ 0 ∧ ∀ i', i' < i → fileEntry q e i' j = 0) :
    main_rank w (l.map Arg.text) = .error .ub := by
  obtain ⟨a, ea, hM, h1, h2, h3⟩ := Ok_iff.mp (C59_rank w.atof l hl.fits)
  obtain ⟨⟨A, hash⟩, eA, hA, -⟩ := Ok_iff.mp (rank_input_spec w.jk w.jw w.h0 hq hf hc a.own.allow_transpose)
  simp only at hA
  rw [if_pos ⟨h2.mpr ht, hnm⟩] at hA
  obtain ⟨-, hround, hfile, hmod, -⟩ := hl.facts w hM
  have hround' : (rank_opts a).ints.max_round ≠ 0 := by
    have : (rank_opts a).ints.max_round = a.opts.ints.max_round := by unfold rank_opts; split <;> rfl
    rw [this]
    show a.opts.max_round.toNat ≠ 0
    rw [hM.rounds]
    have := hl.rounds
    omega
  have hub : echelonize_call w.jk w.env w.c A (some (rank_opts a)) = .error .ub := by
    refine C57_nan w.jk q w.env _ (rank_opts a).ints A henv hA.wfv hA.nodup hA.nozero (by rw [hA.m_eq]; exact h0)
      (by rw [hA.m_eq, hA.n_eq]; exact hnm) ?_ hround'
    intro j hj
    rw [hA.m_eq] at hj
    obtain ⟨i, hi, hne, hz⟩ := hrow j hj
    refine ⟨i, by rw [hA.n_eq]; exact hi, ?_, ?_⟩
    · by_contra hin
      have := Csr.entry_eq_zero_of_not_inRow (q := q) hin
      rw [hA.entry i j hi, fileEntry_flipped] at this
      exact hne this
    · intro c hin
      by_contra hlt
      have hz' := hz c (by omega)
      have := hA.wfv.entry_ne_zero hA.nodup hA.nozero (by rw [hA.n_eq]; exact hi) hin
      rw [hA.entry i c hi, fileEntry_flipped] at this
      exact this hz'
  unfold main_rank
  rw [ea]
  show (read_file w.sys a.input.filename >>= fun f => _) = _
  rw [hfile]
  show (rank_input w.jk w.jw w.h0 f a.input.prime a.own.allow_transpose >>= fun x => _) = _
  rw [hmod, eA]
  show (echelonize_call w.jk w.env w.c A (some (rank_opts a)) >>= fun fact => _) = _
  rw [hub]
  rfl

/-! ### Files that cannot be read -/

/-- C60. If the file of the matrix cannot be opened, the programs stop with an error. -/
theorem C60_missing (w : World) (l : List (Arg RankOpt Int (List Char))) (hfits : ∀ a ∈ l, a.Fits) (g : List Char)
    (hg : lastVal Arg.fileOf none l = some g) (h : w.sys.file g = none) :
    main_rank w (l.map Arg.text) = .error .exitErr := by
  obtain ⟨a, ea, hM, -⟩ := Ok_iff.mp (C59_rank w.atof l hfits)
  unfold main_rank
  rw [ea]
  show (read_file w.sys a.input.filename >>= fun f => _) = _
  rw [hM.file, hg]
  unfold read_file
  simp only [h]
  rfl

/-! ### Examples -/

/-- The matrix of `exSms` on the standard input, and in the file `a`; the right-hand side of `exRhs` in the file `b`. -/
noncomputable def exWorld (M : CertMem) : World :=
  { jk := default, jw := exJw, h0 := default, M := M, env := exDenseEnv, c := ⟨fun _ i => i, 4⟩, atof := fun _ => .fin 1
    sys := ⟨exSms, fun g => if g = ['a'] then some exSms else if g = ['b'] then some exRhs else none⟩ }

theorem exWorld_possible (M : CertMem) : (exWorld M).env.Possible 7 := exFull_possible

/-- The matrix of `exWideFile` on the standard input. -/
noncomputable def exWideWorld : World := { exWorld exCertMem with sys := ⟨exWideFile, fun _ => none⟩ }

section
attribute [local irreducible] exCertMem in
theorem exWideWorld_mem : exWideWorld.M.ctx.block.size = 44 ∧ exWideWorld.M.ctx.hash.size = 32 ∧
    exWideWorld.M.fuel = 8 * (2 ^ 31 - 1) := ⟨exCertMem_block, exCertMem_hash, exCertMem_fuel⟩

attribute [local irreducible] WpE Ok main_rank exWideFile exCertMem Fips.sha256 MainKernel MainSolve MainEchelonize exSms exRhs exTallFile rnd fileMat exDenseEnv

/-- `-m a -p 7 --no-low-rank-mode --no-dense-mode` -/
def exArgs (κ : Type) : List (Arg κ Int (List Char)) :=
  [.input (.matrix ['a']), .input (.modulus 7), .ech .no_low_rank, .ech .no_dense]

theorem exSane {κ : Type} (M : CertMem) (k : κ) :
    Sane (exWorld M) 7 exSms (exArgs κ) ∧ Sane (exWorld M) 7 exSms (.own k :: exArgs κ) := by
  have ha : (Dbl.fin 5).lt (.fin 0) = false := decide_eq_false (by norm_num : ¬ (5 : ℚ) < 0)
  constructor
  · refine ⟨?_, rfl, rfl, ha, by show (0 : Int) < 1000; decide, by show (0 : Int) < 3; decide⟩
    intro a h
    simp only [exArgs, List.mem_cons, List.not_mem_nil, or_false] at h
    rcases h with rfl | rfl | rfl | rfl <;> simp [Arg.Fits]
  · refine ⟨?_, rfl, rfl, ha, by show (0 : Int) < 1000; decide, by show (0 : Int) < 3; decide⟩
    intro a h
    simp only [exArgs, List.mem_cons, List.not_mem_nil, or_false] at h
    rcases h with rfl | rfl | rfl | rfl | rfl <;> simp [Arg.Fits]

theorem ex4 : (0 : ℚ) ≤ 4 ∧ (4 : ℚ) ≤ 5 := ⟨by norm_num, by norm_num⟩

/-- `rank -t -m a -p 7 --no-low-rank-mode --no-dense-mode` -/
example (M : CertMem) := C60_rank_partial (exWorld M) (q := 7) (by norm_num) (exWorld_possible M) ex4.1 ex4.2 exSms_file
  (exSms_noCancel 7) (by norm_num) (by norm_num) (exSane M RankOpt.no_transpose).2
  (.inr (.inr ⟨by norm_num, by simp⟩)) (by simp [exArgs]) (by simp [exArgs]) (by simp [exArgs])

/-- `kernel -m a -p 7 --no-low-rank-mode --no-dense-mode` -/
example (M : CertMem) := C60_kernel_partial (exWorld M) (q := 7) (by norm_num) (exWorld_possible M) ex4.1 ex4.2 exSms_file
  (exSms_noCancel 7) (by norm_num) (by norm_num) (exSane M KerOpt.left).1
  ⟨fun h => by simp [exArgs] at h, fun _ => .inl (by norm_num)⟩ (by simp [exArgs]) (by simp [exArgs]) (by simp [exArgs])

/-- `solve -r b -m a -p 7 --no-low-rank-mode --no-dense-mode` -/
example (M : CertMem) (rest : List Char) := C60_solve_partial (exWorld M) (q := 7) (by norm_num) (exWorld_possible M) ex4.1
  ex4.2 exSms_file (exSms_noCancel 7) (by norm_num) (by norm_num) (exSane M (SolveOpt.rhs ['b'])).2
  (.inl (by norm_num)) exRhs_file exRhs_noCancel (rest := rest) rfl (by simp [exArgs]) (by simp [exArgs])

/-- `echelonize --modulus 7 --no-low-rank-mode` -/
example (M : CertMem) := C60_echelonize_partial (exWorld M) (q := 7) (by norm_num) (exWorld_possible M) ex4.1 ex4.2 exSms_file
  (exSms_noCancel 7) (by norm_num) (by norm_num) (l := [.modulus 7, .no_low_rank])
  (by intro a h
      simp only [List.mem_cons, List.not_mem_nil, or_false] at h
      rcases h with rfl | rfl <;> simp [EchelonOpt.Fits]) rfl rfl (by show (0 : Int) < 1000; decide) (.inl (by norm_num))
  (by simp) (by simp)

/-- `echelonize --rref --modulus 7 --no-low-rank-mode` -/
example (M : CertMem) := C60_rref_partial (exWorld M) (q := 7) (by norm_num) (exWorld_possible M) ex4.1 ex4.2 exSms_file
  (exSms_noCancel 7) (by norm_num) (by norm_num) (l := [.rref, .modulus 7, .no_low_rank])
  (by intro a h
      simp only [List.mem_cons, List.not_mem_nil, or_false] at h
      rcases h with rfl | rfl | rfl <;> simp [EchelonOpt.Fits]) rfl rfl (by show (0 : Int) < 1000; decide)
  (.inl (by norm_num)) (by simp) (by simp)

/-- `kernel --left -p 7 --no-low-rank-mode`, with `exTallFile` on the standard input. -/
example (M : CertMem) := C60_left_partial { exWorld M with sys := ⟨exTallFile, fun _ => none⟩ } (q := 7) (by norm_num)
  (exWorld_possible M) ex4.1 ex4.2 exTallFile_file exTallFile_noCancel (by norm_num) (by norm_num)
  (l := [.own .left, .input (.modulus 7), .ech .no_low_rank])
  ⟨by
    intro a h
    simp only [List.mem_cons, List.not_mem_nil, or_false] at h
    rcases h with rfl | rfl | rfl <;> simp [Arg.Fits], rfl, rfl, decide_eq_false (by norm_num : ¬ (5 : ℚ) < 0),
    by show (0 : Int) < 1000; decide, by show (0 : Int) < 3; decide⟩
  ⟨fun _ => .inl (by norm_num), fun h => by simp at h⟩ (by simp) (by simp) (by simp)

theorem exWideSane (o : Arg RankOpt Int (List Char)) (ho : ∃ k, o = .own k) :
    Sane exWideWorld 7 exWideFile [o, .own .certificate, .own (.output ['z']), .input (.modulus 7), .ech .no_dense] := by
  obtain ⟨k, rfl⟩ := ho
  have ha : (Dbl.fin 5).lt (.fin 0) = false := decide_eq_false (by norm_num : ¬ (5 : ℚ) < 0)
  refine ⟨?_, rfl, rfl, ha, by show (0 : Int) < 1000; decide, by show (0 : Int) < 3; decide⟩
  intro a h
  simp only [List.mem_cons, List.not_mem_nil, or_false] at h
  rcases h with rfl | rfl | rfl | rfl | rfl <;> simp [Arg.Fits]

/-- `rank -t -c -o z -p 7 --no-dense-mode` -/
example : Ok (main_rank exWideWorld (List.map Arg.text [.own .no_transpose, .own .certificate, .own (.output ['z']),
    .input (.modulus 7), .ech .no_dense])) fun r => r.rank = (fileMat 7 1 2 [(1, 2, 1)]).rank ∧ r.verdict = some true ∧
      ∃ c, r.cert = some (['z'], certText c) := by
  obtain ⟨N, hN⟩ := exWide_enough
  exact (C60_certificate_partial exWideWorld (q := 7) (by norm_num) (exWorld_possible exCertMem) ex4.1 ex4.2 exWideFile_file
    exWideFile_noCancel (by norm_num) (by norm_num) (exWideSane _ ⟨_, rfl⟩) (.inr (.inr ⟨by norm_num, by simp⟩)) (by simp)
    (by simp) (by simp) exWideWorld_mem.1 exWideWorld_mem.2.1 hN (by rw [exWideWorld_mem.2.2]; exact hN.le)).mono
    fun _ h => ⟨h.1, h.2.1, h.2.2.imp fun c hc => hc.1⟩

/-- `rank -c -c -o z -p 7 --no-dense-mode` -/
example : main_rank exWideWorld (List.map Arg.text [.own .certificate, .own .certificate, .own (.output ['z']),
    .input (.modulus 7), .ech .no_dense]) = .error .ub := by
  refine C60_wide exWideWorld (q := 7) (by norm_num) (exWorld_possible exCertMem) exWideFile_file
    exWideFile_noCancel (exWideSane _ ⟨_, rfl⟩) (by simp) (by norm_num) (by norm_num) fun i hi => ⟨1, by norm_num, ?_, ?_⟩
  · have : i = 0 := by omega
    subst this
    decide
  · omega

/-- `rank --matrix c` -/
example (M : CertMem) : main_rank (exWorld M) [.input (.matrix ['c'])] = .error .exitErr :=
  C60_missing (exWorld M) [.input (.matrix ['c'])] (by simp [Arg.Fits]) ['c'] rfl rfl

end

end Spasm
