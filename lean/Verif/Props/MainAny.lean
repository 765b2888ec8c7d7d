import Verif.Props.Main
import Verif.Props.NumericAny

/-
C60 for all matrices and all values of the numeric options: what the programs print and write whenever they end.
-/

namespace Spasm

open Sha Finset

/-- One call of `spasm_echelonize` with the options of a command line: undefined, or as with arbitrary decisions. -/
theorem call_any (jk : Junk) {q : ℕ} [Fact q.Prime] {env : Env} (henv : env.Possible q) (c : Chance)
    {A : Csr} (hA : A.WFV q) (hnd : A.NoDup) (hz : A.NoZero) (o : EchOpts) (hn : A.n < 2 ^ 31) (hm : A.m < 2 ^ 31) :
    echelonize_call jk env c A (some o) = .error .ub ∨ ∃ env' : Env, env.Agree env' ∧ env'.Possible q ∧
      echelonize_call jk env c A (some o) = echelonize jk env' o.ints A :=
  C57_any_partial jk q env (o.num c) o.ints A henv hA hnd hz hn hm

/-- What is assumed of a command line: the numbers fit in their types, and the file can be read.  Dense blocks must not be
empty and there must be a round (or `malloc(0)` must not return NULL). -/
structure Plain {κ : Type} (w : World) (q : ℕ) (f : List Char) (l : List (Arg κ Int (List Char))) : Prop where
  fits : ∀ a ∈ l, a.Fits
  modulus : lastVal Arg.modulusOf 42013 l = q
  file : read_file w.sys (lastVal Arg.fileOf none l) = .ok f
  block : 0 < lastVal Arg.blockOf 1000 l
  rounds : 0 < lastVal Arg.roundsOf 3 l ∨ w.jk.null0 = false

section
variable (w : World) {q : ℕ} [Fact q.Prime] (hq : q ≤ 0xfffffffb) (henv : w.env.Possible q)
  {f : List Char} {n m : Nat} {e : List (Int × Int × Int)} (hf : IsFile f n m e) (hc : NoCancel q e)

omit [Fact q.Prime] in
theorem Plain.facts {κ : Type} {l : List (Arg κ Int (List Char))} (hl : Plain w q f l) {i : InputArgs} {o : EchOpts}
    (hM : Means w.atof l i o) : 0 < o.ints.block ∧ (o.ints.max_round ≠ 0 ∨ w.jk.null0 = false) ∧
      read_file w.sys i.filename = .ok f ∧ i.prime = (q : Int) := by
  refine ⟨?_, ?_, ?_, ?_⟩
  · show 0 < o.dense_block_size
    rw [hM.block]; exact hl.block
  · refine hl.rounds.imp_left fun h => ?_
    show o.max_round.toNat ≠ 0
    rw [hM.rounds]
    omega
  · rw [hM.file]; exact hl.file
  · rw [hM.prime]; exact hl.modulus

include hq henv hf hc

/-! ### rank -/

section
variable {l : List (Arg RankOpt Int (List Char))} (hl : Plain w q f l)
include hl

omit henv in
theorem rank_call : ∃ (a : Args RankArgs) (A : Csr) (hash : Array B), Means w.atof l a.input a.opts ∧
    (a.own.certificate = true ↔ .own .certificate ∈ l) ∧ a.own.cert_file = lastVal Arg.certOf none l ∧
    rank_input w.jk w.jw w.h0 f q a.own.allow_transpose = .ok (A, hash) ∧
    (A.WFV q ∧ A.NoDup ∧ A.NoZero ∧ A.n < 2 ^ 31 ∧ A.m < 2 ^ 31 ∧ (A.toMat q).rank = (fileMat q n m e).rank ∧
      (FileCsr q m n (flipped e) A ∨ FileCsr q n m e A)) ∧
    main_rank w (l.map Arg.text) =
      echelonize_call w.jk w.env w.c A (some (rank_opts a)) >>= fun fact => rank_end w.M a.own A hash fact := by
  obtain ⟨a, ea, hM, h1, h2, h3⟩ := Ok_iff.mp (C59_rank w.atof l hl.fits)
  obtain ⟨⟨A, hash⟩, eA, hA, -⟩ := Ok_iff.mp (rank_input_spec w.jk w.jw w.h0 hq hf hc a.own.allow_transpose)
  obtain ⟨-, -, hfile, hmod⟩ := hl.facts w hM
  have hnl := hf.n_lt
  have hml := hf.m_lt
  refine ⟨a, A, hash, hM, h1, h3, eA, ?_, ?_⟩
  · simp only at hA
    split at hA
    · refine ⟨hA.wfv, hA.nodup, hA.nozero, by rw [hA.n_eq]; omega, by rw [hA.m_eq]; omega, ?_, .inl hA⟩
      rw [hA.rank, fileMat_flipped, Matrix.rank_transpose]
    · exact ⟨hA.wfv, hA.nodup, hA.nozero, by rw [hA.n_eq]; omega, by rw [hA.m_eq]; omega, hA.rank, .inr hA⟩
  · unfold main_rank
    rw [ea]
    show (read_file w.sys a.input.filename >>= fun f => _) = _
    rw [hfile]
    show (rank_input w.jk w.jw w.h0 f a.input.prime a.own.allow_transpose >>= fun x => _) = _
    rw [hmod, eA]
    rfl

/-- C60 for all matrices: `rank` without a certificate, with any options.  Whenever the program ends, the number it prints
is at most the rank of the matrix; unless GPLU is disabled, it is the rank or the search was ended early.  The only other
outcomes are undefined behaviour and, unless the low-rank method is disabled, a computation that does not stop.
(Missing: cancellations in the file, see C10.) -/
theorem C60_any_rank_partial (hcert : .own .certificate ∉ l) :
    WpE (fun x => x = .ub ∨ (.ech .no_low_rank ∉ l ∧ x = .fuel)) (main_rank w (l.map Arg.text)) fun r =>
      r.verdict = none ∧ r.cert = none ∧ r.rank ≤ (fileMat q n m e).rank ∧
      (.ech .no_gplu ∉ l → r.rank = (fileMat q n m e).rank ∨
        ∃ env' o A U, w.env.Agree env' ∧ (FileCsr q m n (flipped e) A ∨ FileCsr q n m e A) ∧ r.rank = U.n ∧
          Early q env' o A U) := by
  obtain ⟨a, A, hash, hM, h1, -, -, ⟨k1, k2, k3, k4, k5, k6, k7⟩, h2⟩ := rank_call w hq hf hc hl
  obtain ⟨hb, hnull, -⟩ := hl.facts w hM
  have hn' : a.own.certificate = false := by rw [← Bool.not_eq_true, h1]; exact hcert
  have ho : rank_opts a = a.opts := by unfold rank_opts; rw [if_neg (by simp [hn'])]
  rw [h2, ho, WpE_bind]
  have ht : a.opts.ints.tall = true → .ech .no_low_rank ∉ l := hM.low_rank.mp
  refine ((C57_any_rank_partial w.jk q w.env (a.opts.num w.c) a.opts.ints A henv k1 k2 k3 k4 k5 hb hnull hM.L hM.complete).weaken
    fun x hx => hx.imp_right fun h => ⟨ht h.1, h.2⟩).mono ?_
  rintro fact ⟨-, -, g1, -, g2, g3⟩
  unfold rank_end
  rw [if_neg (by simp [hn']), WpE_ok]
  refine ⟨rfl, rfl, ?_, fun hg => ?_⟩
  · show fact.U.n ≤ _
    rw [← g1, ← k6]; exact g2
  · rcases g3 (hM.gplu.mpr hg) with g | ⟨env', s1, s2⟩
    · refine .inl ?_
      show fact.U.n = _
      rw [← g1, ← k6]; exact g.1
    · exact .inr ⟨env', a.opts.ints, A, fact.U, s1, k7, rfl, s2⟩

/-- C60 for all matrices: `rank --certificate --no-dense-mode [options]`, with GPLU.  Whenever the program ends, it prints
the rank of the matrix, says that the certificate is correct, and writes the text of a certificate of this rank.  The only
other outcome is undefined behaviour. -/
theorem C60_any_certificate_partial (hd : .ech .no_dense ∈ l) (hg : .ech .no_gplu ∉ l) (hcert : .own .certificate ∈ l)
    (hmb : w.M.ctx.block.size = 44) (hmc : w.M.ctx.hash.size = 32) {N : Nat}
    (hN : Enough q n m (Fips.sha256 (f.map byte)) N) (hfu : N ≤ w.M.fuel) :
    WpE (fun x => x = .ub) (main_rank w (l.map Arg.text)) fun r => r.rank = (fileMat q n m e).rank ∧ r.verdict = some true ∧
      ∃ c, r.cert = (lastVal Arg.certOf none l).map (fun g => (g, certText c)) ∧ c.Fits ∧ c.r = r.rank ∧ c.prime = q ∧
        c.hash.toList = Fips.sha256 (f.map byte) := by
  obtain ⟨a, A, hash, hM, h1, h3, eA, ⟨k1, k2, k3, k4, k5, -, -⟩, h2⟩ := rank_call w hq hf hc hl
  obtain ⟨hb, hnull, -⟩ := hl.facts w hM
  have hy' : a.own.certificate = true := h1.mpr hcert
  have ho : rank_opts a = { a.opts with L := true } := by unfold rank_opts; rw [if_pos hy']
  rcases call_any w.jk henv w.c k1 k2 k3 (rank_opts a) k4 k5 with h | ⟨env', g1, g2, g3⟩
  · rw [h2, h]; exact (rfl : Err.ub = .ub)
  have hmain : main_rank w (l.map Arg.text) =
      tool_rank_cert w.jk w.jw w.h0 w.M env' a.opts.ints f q a.own.allow_transpose >>= fun x =>
        .ok ⟨x.1, some x.2.1, a.own.cert_file.map fun g => (g, x.2.2)⟩ := by
    rw [h2, g3, ho]
    unfold tool_rank_cert
    rw [eA]
    show (echelonize w.jk env' { a.opts.ints with L := true } A >>= fun fact => _) =
      ((echelonize w.jk env' { a.opts.ints with L := true } A >>= fun fact => _) >>= fun r => _)
    generalize echelonize w.jk env' { a.opts.ints with L := true } A = x
    cases x with
    | error _ => rfl
    | ok fact =>
      show rank_end w.M a.own A hash fact = ((rank_certificate w.M A hash fact >>= fun x => _) >>= fun x => _)
      unfold rank_end
      rw [if_pos hy']
      generalize rank_certificate w.M A hash fact = y
      cases y with
      | error _ => rfl
      | ok y => rfl
  have hdn : a.opts.ints.dense = false := by
    show a.opts.enable_dense = false
    rw [← Bool.not_eq_true, hM.dense]; simpa using hd
  rw [hmain]
  refine Ok.wpe ?_
  rw [Ok_bind]
  refine (C55_certificate_partial w.jk w.jw w.h0 env' a.opts.ints hq hf hc g2 hb hnull
    (fun _ h => by rw [hdn] at h; cases h) (.inl (hM.gplu.mpr hg)) w.M hmb hmc hN hfu).mono ?_
  rintro ⟨r, b, t⟩ ⟨k1, k2, c, k3, k4, k5, k6, k7, -⟩
  simp only at k1 k2 k3
  refine (Ok_ok ..).mpr ⟨k1, by rw [k2], c, ?_, k4, by rw [k5, k1], k6, k7⟩
  simp only
  rw [h3, k3]

end

/-! ### kernel -/

section
variable {l : List (Arg KerOpt Int (List Char))} (hl : Plain w q f l)
include hl

/-- The factorization of the program `kernel`. -/
theorem kernel_any (left : Bool) (hleft : left = true ↔ .own .left ∈ l) :
    ∃ A, (if left = true then FileCsr q m n (flipped e) A else FileCsr q n m e A) ∧
    WpE (fun x => x = .ub ∨ (.ech .no_low_rank ∉ l ∧ x = .fuel)) (main_kernel_fact w (l.map Arg.text)) fun r =>
      r.2 = lastVal Arg.kerOf none l ∧ Echelon q r.1.U r.1.qinv ∧ r.1.U.m = A.m ∧ r.1.U.rowSpace q ≤ A.rowSpace q ∧
      (.ech .no_gplu ∉ l → r.1.U.rowSpace q = A.rowSpace q ∨ ∃ env' o, w.env.Agree env' ∧ Early q env' o A r.1.U) := by
  have hnl := hf.n_lt
  have hml := hf.m_lt
  obtain ⟨a, ea, hM, h1, h2⟩ := Ok_iff.mp (C59_kernel w.atof l hl.fits)
  have hlf : a.own.left = left := Bool.eq_iff_iff.mpr (h1.trans hleft.symm)
  obtain ⟨hb, hnull, hfile, hmod⟩ := hl.facts w hM
  obtain ⟨⟨T, hash⟩, eT, hT⟩ := Ok_iff.mp
    (load_file w.jk w.jw (prime_range hq) hf (hash := none) (by rintro _ h; cases h))
  simp only at hT
  have hcomp : Ok (compress w.jk (if left = true then triplet_transpose T else T)) fun A =>
      if left = true then FileCsr q m n (flipped e) A else FileCsr q n m e A := by
    cases left with
    | true => exact compress_file w.jk hT.transpose hc.flipped
    | false => exact compress_file w.jk hT hc
  obtain ⟨A, eA, hA⟩ := Ok_iff.mp hcomp
  have hF : A.WFV q ∧ A.NoDup ∧ A.NoZero ∧ A.n < 2 ^ 31 ∧ A.m < 2 ^ 31 := by
    split at hA
    · exact ⟨hA.wfv, hA.nodup, hA.nozero, by rw [hA.n_eq]; omega, by rw [hA.m_eq]; omega⟩
    · exact ⟨hA.wfv, hA.nodup, hA.nozero, by rw [hA.n_eq]; omega, by rw [hA.m_eq]; omega⟩
  obtain ⟨k1, k2, k3, k4, k5⟩ := hF
  refine ⟨A, hA, ?_⟩
  have hmain : main_kernel_fact w (l.map Arg.text) =
      echelonize_call w.jk w.env w.c A (some a.opts) >>= fun fact => .ok (fact, lastVal Arg.kerOf none l) := by
    unfold main_kernel_fact
    rw [ea]
    show (read_file w.sys a.input.filename >>= fun f => _) = _
    rw [hfile]
    show (triplet_load w.jk w.jw f a.input.prime none >>= fun x => _) = _
    rw [hmod, eT]
    show (compress w.jk (if a.own.left = true then triplet_transpose T else T) >>= fun A => _) = _
    rw [hlf, eA, ← h2]
    rfl
  have ht : a.opts.ints.tall = true → .ech .no_low_rank ∉ l := hM.low_rank.mp
  rw [hmain, WpE_bind]
  refine ((C57_any_rank_partial w.jk q w.env (a.opts.num w.c) a.opts.ints A henv k1 k2 k3 k4 k5 hb hnull hM.L hM.complete).weaken
    fun x hx => hx.imp_right fun h => ⟨ht h.1, h.2⟩).mono ?_
  rintro fact ⟨g0, g1, g2, g3, g4, g5⟩
  rw [WpE_ok]
  refine ⟨rfl, g0, g1, g3, fun hg => ?_⟩
  rcases g5 (hM.gplu.mpr hg) with g | ⟨env', s1, s2⟩
  · exact .inl g.2
  · exact .inr ⟨env', a.opts.ints, s1, s2⟩

/-- `kernel`, with or without `--left`: `n'`, `m'` and `l0` describe the matrix whose right kernel is computed. -/
theorem kernel_any_files (left : Bool) (hleft : left = true ↔ .own .left ∈ l) {n' m' : Nat} {l0 : List (Int × Int × Int)}
    (hl0 : ∀ A, (if left = true then FileCsr q m n (flipped e) A else FileCsr q n m e A) → FileCsr q n' m' l0 A)
    (hm' : m' < 2 ^ 31) :
    ((∃ out g, MainKernel w (l.map Arg.text) out g) ∨ main_kernel_fact w (l.map Arg.text) = .error .ub ∨
      (.ech .no_low_rank ∉ l ∧ main_kernel_fact w (l.map Arg.text) = .error .fuel)) ∧
    ∀ out g, MainKernel w (l.map Arg.text) out g → out = lastVal Arg.kerOf none l ∧ ∃ k l', IsFile g k m' l' ∧
      LinearIndependent (ZMod q) (fun i => fileMat q k m' l' i) ∧
      LinearMap.ker (fileMat q n' m' l0).mulVecLin ≤ fileRows q k m' l' ∧
      (.ech .no_gplu ∉ l → fileRows q k m' l' = LinearMap.ker (fileMat q n' m' l0).mulVecLin ∨
        ∃ env' o A U, w.env.Agree env' ∧ FileCsr q n' m' l0 A ∧ Early q env' o A U) := by
  obtain ⟨A, hA, hW⟩ := kernel_any w hq henv hf hc hl left hleft
  have hA := hl0 A hA
  cases hx : main_kernel_fact w (l.map Arg.text) with
  | error x =>
    have hx' := hW.err hx
    refine ⟨.inr (hx'.imp (fun h => by rw [h]) fun h => ⟨h.1, by rw [h.2]⟩), ?_⟩
    rintro out g ⟨fact, K, e1, -⟩
    rw [hx] at e1; cases e1
  | ok r =>
    obtain ⟨fact, out0⟩ := r
    obtain ⟨g0, g1, g2, g3, g4⟩ := hW.val hx
    simp only at g0 g1 g2 g3 g4
    subst g0
    have hm : fact.U.m = m' := by rw [g2, hA.m_eq]
    obtain ⟨k1, k2⟩ := kernel_saved w.jk fact g1 (by omega)
    constructor
    · obtain ⟨K, hK⟩ := k1
      obtain ⟨g, eg, -⟩ := Ok_iff.mp (k2 K hK)
      exact .inl ⟨_, g, fact, K, hx, hK, eg⟩
    · rintro out g ⟨fact', K, e1, hK, eg⟩
      rw [hx] at e1
      cases e1
      obtain ⟨g', e', l', s1, s2, s3⟩ := Ok_iff.mp (k2 K hK)
      rw [eg] at e'
      cases e'
      rw [hm] at s1
      obtain ⟨i1, i2, i3⟩ := s3.file (n := n') (l := l0) hm s2
      refine ⟨rfl, K.n, l', s1, i1, i2 ?_, fun hg => ?_⟩
      · rw [hA.same.rows]; exact Submodule.map_mono g3
      · rcases g4 hg with g4 | ⟨env', o, t1, t2⟩
        · exact .inl (i3 (by rw [g4, hA.same.rows])).symm
        · exact .inr ⟨env', o, A, fact.U, t1, hA, t2⟩

/-- C60 for all matrices: `kernel` with any options.  Every text that the program may write goes in the file given by
`--output` (else on the standard output) and describes a matrix with independent rows, whose span contains the right
kernel of the matrix, and (unless GPLU is disabled) is equal to it or the search for pivots was ended early.  If it can
write nothing, its behaviour is undefined or (unless the low-rank method is disabled) it does not stop. -/
theorem C60_any_kernel_partial (hleft : .own .left ∉ l) :
    ((∃ out g, MainKernel w (l.map Arg.text) out g) ∨ main_kernel_fact w (l.map Arg.text) = .error .ub ∨
      (.ech .no_low_rank ∉ l ∧ main_kernel_fact w (l.map Arg.text) = .error .fuel)) ∧
    ∀ out g, MainKernel w (l.map Arg.text) out g → out = lastVal Arg.kerOf none l ∧ ∃ k l', IsFile g k m l' ∧
      LinearIndependent (ZMod q) (fun i => fileMat q k m l' i) ∧
      LinearMap.ker (fileMat q n m e).mulVecLin ≤ fileRows q k m l' ∧
      (.ech .no_gplu ∉ l → fileRows q k m l' = LinearMap.ker (fileMat q n m e).mulVecLin ∨
        ∃ env' o A U, w.env.Agree env' ∧ FileCsr q n m e A ∧ Early q env' o A U) :=
  kernel_any_files w hq henv hf hc hl false (by simpa using hleft) (fun _ h => h) hf.m_lt

/-- C60 for all matrices: `kernel --left` with any options, the same for the left kernel. -/
theorem C60_any_left_partial (hleft : .own .left ∈ l) :
    ((∃ out g, MainKernel w (l.map Arg.text) out g) ∨ main_kernel_fact w (l.map Arg.text) = .error .ub ∨
      (.ech .no_low_rank ∉ l ∧ main_kernel_fact w (l.map Arg.text) = .error .fuel)) ∧
    ∀ out g, MainKernel w (l.map Arg.text) out g → out = lastVal Arg.kerOf none l ∧ ∃ k l', IsFile g k n l' ∧
      LinearIndependent (ZMod q) (fun i => fileMat q k n l' i) ∧
      (∀ x, Matrix.vecMul x (fileMat q n m e) = 0 → x ∈ fileRows q k n l') ∧
      (.ech .no_gplu ∉ l → (∀ x, x ∈ fileRows q k n l' ↔ Matrix.vecMul x (fileMat q n m e) = 0) ∨
        ∃ env' o A U, w.env.Agree env' ∧ FileCsr q m n (flipped e) A ∧ Early q env' o A U) := by
  obtain ⟨h1, h2⟩ := kernel_any_files w hq henv hf hc hl true (by simpa using hleft) (fun _ h => h) hf.n_lt
  have key : ∀ x, x ∈ LinearMap.ker (fileMat q m n (flipped e)).mulVecLin ↔ Matrix.vecMul x (fileMat q n m e) = 0 := by
    intro x
    rw [LinearMap.mem_ker, Matrix.mulVecLin_apply, fileMat_flipped, Matrix.mulVec_transpose]
  refine ⟨h1, fun out g hg => ?_⟩
  obtain ⟨k1, k, l', k2, k3, k4, k5⟩ := h2 out g hg
  refine ⟨k1, k, l', k2, k3, fun x hx => k4 ((key x).mpr hx), fun h => (k5 h).imp_left fun h x => ?_⟩
  rw [h, key]

end

/-! ### solve -/

section
variable {l : List (Arg SolveOpt Int (List Char))} (hl : Plain w q f l) {g : List Char} {k : Nat} {e2 : List (Int × Int × Int)}
  (hg : IsFile g k m e2) (hc2 : NoCancel q e2) {rest : List Char}
  (hrhs : read_file { w.sys with stdin := if (lastVal Arg.fileOf none l).isNone then rest else w.sys.stdin }
    (lastVal Arg.rhsOf none l) = .ok g)
include hl hg hc2 hrhs

theorem solve_any : main_solve_fact w rest (l.map Arg.text) = .error .ub ∨
    ∃ (env' : Env) (o : EchOpts), w.env.Agree env' ∧ env'.Possible q ∧
    (∃ i, Means w.atof l i o) ∧ main_solve_fact w rest (l.map Arg.text) =
      solve_input w.jk w.jw w.h0 env' o.ints f g q >>= fun x => .ok (x, lastVal Arg.solOf none l) := by
  have hnl := hf.n_lt
  have hml := hf.m_lt
  obtain ⟨a, ea, hM, h1, h2⟩ := Ok_iff.mp (C59_solve w.atof l hl.fits)
  obtain ⟨-, -, hfile, hmod⟩ := hl.facts w hM
  obtain ⟨⟨T, hash⟩, eT, hT, md, emd, hmd⟩ := Ok_iff.mp
    (load_file_hash w.jk w.jw (prime_range hq) hf (md := mkArr 32 w.h0) (by simp))
  simp only at hT emd
  subst emd
  obtain ⟨A, eA, hA⟩ := Ok_iff.mp (compress_file w.jk hT hc)
  obtain ⟨⟨T2, hash2⟩, eT2, hT2, -⟩ := Ok_iff.mp (load_file_hash w.jk w.jw (prime_range hq) hg hmd)
  simp only at hT2
  obtain ⟨B, eB, hB⟩ := Ok_iff.mp (compress_file w.jk hT2 hc2)
  have hrhs' : read_file { w.sys with stdin := if a.input.filename.isNone then rest else w.sys.stdin }
      a.own.rhs_filename = .ok g := by
    rw [h1, hM.file]; exact hrhs
  have hmain : main_solve_fact w rest (l.map Arg.text) =
      echelonize_call w.jk w.env w.c A (some { a.opts with L := true }) >>= fun fact =>
        .ok ((fact, B), lastVal Arg.solOf none l) := by
    unfold main_solve_fact
    rw [ea]
    show (read_file w.sys a.input.filename >>= fun f => _) = _
    rw [hfile]
    show (triplet_load w.jk w.jw f a.input.prime (some (mkArr 32 w.h0)) >>= fun x => _) = _
    rw [hmod, eT]
    show (compress w.jk T >>= fun A => _) = _
    rw [eA]
    show (read_file { w.sys with stdin := if a.input.filename.isNone then rest else w.sys.stdin }
        a.own.rhs_filename >>= fun g => _) = _
    rw [hrhs']
    show (triplet_load w.jk w.jw g (q : Int) (some md) >>= fun x => _) = _
    rw [eT2]
    show (compress w.jk T2 >>= fun A => _) = _
    rw [eB, ← h2]
    rfl
  rcases call_any w.jk henv w.c hA.wfv hA.nodup hA.nozero { a.opts with L := true } (by rw [hA.n_eq]; omega)
    (by rw [hA.m_eq]; omega) with h | ⟨env', g1, g2, g3⟩
  · refine .inl ?_
    rw [hmain, h]
    rfl
  refine .inr ⟨env', a.opts, g1, g2, ⟨_, hM⟩, ?_⟩
  rw [hmain, g3]
  unfold solve_input
  rw [eT]
  show _ = ((compress w.jk T >>= fun A => _) >>= fun x => _)
  rw [eA]
  show _ = ((triplet_load w.jk w.jw g (q : Int) (some md) >>= fun x => _) >>= fun x => _)
  rw [eT2]
  show _ = ((compress w.jk T2 >>= fun A => _) >>= fun x => _)
  rw [eB]
  show (echelonize w.jk env' { a.opts.ints with L := true } A >>= fun fact => _) = _
  generalize echelonize w.jk env' { a.opts.ints with L := true } A = x
  cases x <;> rfl

/-- C60 for all matrices: `solve --no-dense-mode [options]` with GPLU.  Every text that the program may write goes in the
file given by `--output` (else on the standard output) and describes a matrix with one row for each row of the right-hand
side, which is a solution of the system whenever there is one; there is a warning for each of the other rows.  If it can
write nothing, its behaviour is undefined. -/
theorem C60_any_solve_partial (hd : .ech .no_dense ∈ l) (hgp : .ech .no_gplu ∉ l) :
    ((∃ warn out t, MainSolve w rest (l.map Arg.text) warn out t) ∨ main_solve_fact w rest (l.map Arg.text) = .error .ub) ∧
    ∀ warn out t, MainSolve w rest (l.map Arg.text) warn out t → out = lastVal Arg.solOf none l ∧
      warn = warnings k (Solvable q n m e e2) ∧ ∃ l3, IsFile t k n l3 ∧
        ∀ i, (hi : i < k) → Solvable q n m e e2 i →
          Matrix.vecMul (fileMat q k n l3 ⟨i, hi⟩) (fileMat q n m e) = fun c : Fin m => fileEntry q e2 i c := by
  rcases solve_any w hq henv hf hc hl hg hc2 hrhs with hx | ⟨env', o, g1, g2, ⟨i, hM⟩, h2⟩
  · refine ⟨.inr hx, ?_⟩
    rintro warn out t ⟨fact', B', X', ok', s1, -⟩
    rw [hx] at s1; cases s1
  obtain ⟨hb, hnull, -⟩ := hl.facts w hM
  have hdn : o.ints.dense = false := by
    show o.enable_dense = false
    rw [← Bool.not_eq_true, hM.dense]; simpa using hd
  obtain ⟨k1, k2⟩ := C54_solve_partial w.jk w.jw w.h0 env' o.ints hq hf hc hg hc2 g2 hb hnull
    (fun _ h => by rw [hdn] at h; cases h) (.inl (hM.gplu.mpr hgp))
  obtain ⟨⟨fact, B⟩, es, ⟨X, ok, k3⟩, k4⟩ := Ok_iff.mp k1
  have h3 := h2
  rw [es] at h3
  constructor
  · obtain ⟨t, e1⟩ := k4 X ok k3
    exact .inl ⟨_, _, t, fact, B, X, ok, h3, k3, rfl, e1⟩
  · rintro warn out t ⟨fact', B', X', ok', s1, s2, s3, s4⟩
    rw [h3] at s1
    cases s1
    obtain ⟨l3, t1, t2, t3⟩ := k2 warn t ⟨fact, B, X', ok', es, s2, s3, s4⟩
    exact ⟨rfl, t2, l3, t1, t3⟩

end

/-! ### echelonize -/

section
variable {l : List (EchelonOpt Int (List Char))} (hfits : ∀ a ∈ l, a.Fits)
  (hmod : lastVal EchelonOpt.modulusOf 42013 l = q) (hstdin : w.sys.stdin = f)
  (hblock : 0 < lastVal EchelonOpt.blockOf 1000 l)
include hfits hmod hstdin hblock

/-- The factorization of the program `echelonize`. -/
theorem echelonize_any : ∃ A, FileCsr q n m e A ∧
    WpE (fun x => x = .ub ∨ (.no_low_rank ∉ l ∧ x = .fuel)) (main_echelonize_fact w (l.map EchelonOpt.text)) fun r =>
      (r.2 = true ↔ .rref ∈ l) ∧ Echelon q r.1.U r.1.qinv ∧ r.1.U.m = A.m ∧ r.1.U.rowSpace q ≤ A.rowSpace q ∧
      r.1.U.n ≤ (fileMat q n m e).rank ∧
      (r.1.U.n = (fileMat q n m e).rank ∨ ∃ env' o, w.env.Agree env' ∧ Early q env' o A r.1.U) := by
  have hnl := hf.n_lt
  have hml := hf.m_lt
  obtain ⟨a, ea, k1, k2, k3, -, k5⟩ := Ok_iff.mp (C59_echelonize_partial w.atof l hfits)
  obtain ⟨⟨T, hash⟩, eT, hT⟩ := Ok_iff.mp
    (load_file w.jk w.jw (prime_range hq) hf (hash := none) (by rintro _ h; cases h))
  obtain ⟨A, eA, hA⟩ := Ok_iff.mp (compress_file w.jk hT hc)
  refine ⟨A, hA, ?_⟩
  have hmain : main_echelonize_fact w (l.map EchelonOpt.text) =
      echelonize_call w.jk w.env w.c A (some a.opts) >>= fun fact => .ok (fact, a.rref) := by
    unfold main_echelonize_fact
    rw [ea]
    show (triplet_load w.jk w.jw w.sys.stdin a.prime none >>= fun x => _) = _
    rw [hstdin, k1, hmod, eT]
    show (compress w.jk T >>= fun A => _) = _
    rw [eA]
    rfl
  have ht : a.opts.ints.tall = true → .no_low_rank ∉ l := k5.mp
  rw [hmain, WpE_bind]
  refine ((C57_any_rank_partial w.jk q w.env (a.opts.num w.c) a.opts.ints A henv hA.wfv hA.nodup hA.nozero
    (by rw [hA.n_eq]; omega) (by rw [hA.m_eq]; omega)
    (by show 0 < a.opts.dense_block_size; rw [k3]; exact hblock)
    (.inl (by show a.opts.max_round.toNat ≠ 0; rw [k3]; exact (by decide : (3 : Int).toNat ≠ 0)))
    (by show a.opts.L = false; rw [k3]; rfl) (by show a.opts.complete = false; rw [k3]; rfl)).weaken
    fun x hx => hx.imp_right fun h => ⟨ht h.1, h.2⟩).mono ?_
  rintro fact ⟨g0, g1, g2, g3, g4, g5⟩
  rw [WpE_ok]
  refine ⟨k2, g0, g1, g3, by rw [← hA.rank, ← g2]; exact g4, ?_⟩
  rcases g5 (by show a.opts.enable_GPLU = true; rw [k3]; rfl) with g | ⟨env', s1, s2⟩
  · exact .inl (by rw [← hA.rank, ← g.1, g2])
  · exact .inr ⟨env', a.opts.ints, s1, s2⟩

/-- C60 for all matrices: `echelonize` without `--rref`, with any options.  Every text that the program may write describes
a matrix in echelon form, with rows in the row space of the matrix it reads, which they span unless the search for pivots
was ended early.  If it can write nothing, its behaviour is undefined or (unless the low-rank method is disabled) it does
not stop. -/
theorem C60_any_echelonize_partial (hrref : .rref ∉ l) :
    ((∃ g, MainEchelonize w (l.map EchelonOpt.text) g) ∨ main_echelonize_fact w (l.map EchelonOpt.text) = .error .ub ∨
      (.no_low_rank ∉ l ∧ main_echelonize_fact w (l.map EchelonOpt.text) = .error .fuel)) ∧
    ∀ g, MainEchelonize w (l.map EchelonOpt.text) g → ∃ r l' c, IsFile g r m l' ∧ r ≤ (fileMat q n m e).rank ∧
      FileEchelon q r m l' c ∧ fileRows q r m l' ≤ fileRows q n m e ∧
      ((r = (fileMat q n m e).rank ∧ fileRows q r m l' = fileRows q n m e) ∨
        ∃ env' o A U, w.env.Agree env' ∧ FileCsr q n m e A ∧ Same q r m l' U ∧ Early q env' o A U) := by
  obtain ⟨A, hA, hW⟩ := echelonize_any w hq henv hf hc hfits hmod hstdin hblock
  cases hx : main_echelonize_fact w (l.map EchelonOpt.text) with
  | error x =>
    have hx' := hW.err hx
    refine ⟨.inr (hx'.imp (fun h => by rw [h]) fun h => ⟨h.1, by rw [h.2]⟩), ?_⟩
    rintro g ⟨fact, b, e1, -⟩
    rw [hx] at e1; cases e1
  | ok r =>
    obtain ⟨fact, b⟩ := r
    obtain ⟨g0, g1, g2, g3, g4, g5⟩ := hW.val hx
    simp only at g0 g1 g2 g3 g4 g5
    have hb : b = false := by rw [← Bool.not_eq_true, g0]; exact hrref
    subst hb
    have hs := saved_echelon hf hA g1 g2 g3
    obtain ⟨g, eg, -⟩ := Ok_iff.mp hs
    refine ⟨.inl ⟨g, fact, false, hx, eg⟩, ?_⟩
    rintro g' ⟨fact', b', e1, e2⟩
    rw [hx] at e1
    cases e1
    have e2 : csr_save fact.U = .ok g' := e2
    rw [e2, Ok_ok] at hs
    obtain ⟨l', c, s1, s2, s3, -, s4, s5⟩ := hs
    refine ⟨_, l', c, s1, g4, s3, s4, ?_⟩
    rcases g5 with g5 | ⟨env', o, t1, t2⟩
    · exact .inl ⟨g5, s5 g5⟩
    · exact .inr ⟨env', o, A, fact.U, t1, hA, s2, t2⟩

/-- C60 for all matrices: `echelonize --rref` with any options, the same for the reduced echelon form. -/
theorem C60_any_rref_partial (hrref : .rref ∈ l) :
    ((∃ g, MainEchelonize w (l.map EchelonOpt.text) g) ∨ main_echelonize_fact w (l.map EchelonOpt.text) = .error .ub ∨
      (.no_low_rank ∉ l ∧ main_echelonize_fact w (l.map EchelonOpt.text) = .error .fuel)) ∧
    ∀ g, MainEchelonize w (l.map EchelonOpt.text) g → ∃ r l' c, IsFile g r m l' ∧ r ≤ (fileMat q n m e).rank ∧
      FileRref q r m l' c ∧ fileRows q r m l' ≤ fileRows q n m e ∧
      ((r = (fileMat q n m e).rank ∧ fileRows q r m l' = fileRows q n m e) ∨
        ∃ env' o A U R, w.env.Agree env' ∧ FileCsr q n m e A ∧ Same q r m l' R ∧ R.rowSpace q = U.rowSpace q ∧
          Early q env' o A U) := by
  obtain ⟨A, hA, hW⟩ := echelonize_any w hq henv hf hc hfits hmod hstdin hblock
  cases hx : main_echelonize_fact w (l.map EchelonOpt.text) with
  | error x =>
    have hx' := hW.err hx
    refine ⟨.inr (hx'.imp (fun h => by rw [h]) fun h => ⟨h.1, by rw [h.2]⟩), ?_⟩
    rintro g ⟨fact, b, e1, -⟩
    rw [hx] at e1; cases e1
  | ok r =>
    obtain ⟨fact, b⟩ := r
    obtain ⟨g0, g1, g2, g3, g4, g5⟩ := hW.val hx
    simp only at g0 g1 g2 g3 g4 g5
    have hb : b = true := g0.mpr hrref
    subst hb
    obtain ⟨⟨R, rq, k1⟩, k2⟩ := rref_files w.jk hf hA g1 g2 g3
    obtain ⟨g, eg, -⟩ := Ok_iff.mp (k2 R rq k1)
    refine ⟨.inl ⟨g, fact, true, hx, R, rq, k1, eg⟩, ?_⟩
    rintro g' ⟨fact', b', e1, e2⟩
    rw [hx] at e1
    cases e1
    obtain ⟨R', rq', e3, e4⟩ := e2
    have := k2 R' rq' e3
    rw [e4, Ok_ok] at this
    obtain ⟨l', c, s1, s2, s3, s4, s5, s6⟩ := this
    refine ⟨_, l', c, s1, g4, s4, s5, ?_⟩
    rcases g5 with g5 | ⟨env', o, t1, t2⟩
    · exact .inl ⟨g5, s6 g5⟩
    · exact .inr ⟨env', o, A, fact.U, R', t1, hA, s2, s3, t2⟩

end

end

/-! ### Examples -/

section
attribute [local irreducible] WpE Ok main_rank exWideFile exCertMem Fips.sha256 MainKernel MainSolve MainEchelonize exSms exRhs exTallFile rnd fileMat exDenseEnv

/-- `-m a -p 7 --dense-block-size 3`, with all the methods enabled. -/
theorem exPlain {κ : Type} (M : CertMem) (k : κ) :
    Plain (exWorld M) 7 exSms [.own k, .input (.matrix ['a']), .input (.modulus 7), .ech (.blksz 3)] := by
  refine ⟨?_, rfl, rfl, by show (0 : Int) < 3; decide, .inl (by show (0 : Int) < 3; decide)⟩
  intro a h
  simp only [List.mem_cons, List.not_mem_nil, or_false] at h
  rcases h with rfl | rfl | rfl | rfl <;> simp [Arg.Fits]

/-- `rank -t -m a -p 7 --dense-block-size 3` -/
example (M : CertMem) := C60_any_rank_partial (exWorld M) (q := 7) (by norm_num) (exWorld_possible M) exSms_file
  (exSms_noCancel 7) (exPlain M RankOpt.no_transpose) (by simp)

/-- `rank -t -c -o z -p 7 --no-dense-mode` -/
example : WpE (fun x => x = .ub) (main_rank exWideWorld (List.map Arg.text [.own .no_transpose, .own .certificate,
    .own (.output ['z']), .input (.modulus 7), .ech .no_dense])) fun r => r.rank = (fileMat 7 1 2 [(1, 2, 1)]).rank ∧
      r.verdict = some true := by
  obtain ⟨N, hN⟩ := exWide_enough
  have h := exWideSane (.own .no_transpose) ⟨_, rfl⟩
  exact (C60_any_certificate_partial exWideWorld (q := 7) (by norm_num) (exWorld_possible exCertMem) exWideFile_file
    exWideFile_noCancel ⟨h.fits, h.modulus, h.file, h.block, .inl h.rounds⟩ (by simp) (by simp) (by simp)
    exWideWorld_mem.1 exWideWorld_mem.2.1 hN (by rw [exWideWorld_mem.2.2]; exact hN.le)).mono fun _ h => ⟨h.1, h.2.1⟩

/-- `kernel -o z -m a -p 7 --dense-block-size 3` -/
example (M : CertMem) := C60_any_kernel_partial (exWorld M) (q := 7) (by norm_num) (exWorld_possible M) exSms_file
  (exSms_noCancel 7) (exPlain M (KerOpt.output ['z'])) (by simp)

/-- `kernel --left -m a -p 7 --dense-block-size 3` -/
example (M : CertMem) := C60_any_left_partial (exWorld M) (q := 7) (by norm_num) (exWorld_possible M) exSms_file
  (exSms_noCancel 7) (exPlain M KerOpt.left) (by simp)

/-- `solve -r b -m a -p 7 --no-low-rank-mode --no-dense-mode` -/
example (M : CertMem) (rest : List Char) :=
  have h := (exSane M (SolveOpt.rhs ['b'])).2
  C60_any_solve_partial (exWorld M) (q := 7) (by norm_num) (exWorld_possible M) exSms_file (exSms_noCancel 7)
    ⟨h.fits, h.modulus, h.file, h.block, .inl h.rounds⟩ exRhs_file exRhs_noCancel (rest := rest) rfl (by simp [exArgs])
    (by simp [exArgs])

/-- `echelonize --modulus 7` -/
example (M : CertMem) := C60_any_echelonize_partial (exWorld M) (q := 7) (by norm_num) (exWorld_possible M) exSms_file
  (exSms_noCancel 7) (l := [.modulus 7]) (by simp [EchelonOpt.Fits]) rfl rfl (by show (0 : Int) < 1000; decide) (by simp)

/-- `echelonize --rref --modulus 7` -/
example (M : CertMem) := C60_any_rref_partial (exWorld M) (q := 7) (by norm_num) (exWorld_possible M) exSms_file
  (exSms_noCancel 7) (l := [.rref, .modulus 7]) (by simp [EchelonOpt.Fits]) rfl rfl (by show (0 : Int) < 1000; decide)
  (by simp)

end

end Spasm
