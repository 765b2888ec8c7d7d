import Verif.Proofs.Draws
import Verif.Props.Main
import Verif.Props.Samples

/-
C67 for the programs `rank`, `kernel` and `echelonize`, from the command line: the proportion of the tables of random numbers for which
the result is wrong.
-/

namespace Spasm

open Sha Finset

/-- The same world with other random numbers in the completion test. -/
def World.draws (w : World) (d : Nat → Nat → Int) : World := { w with env := { w.env with draw := d } }

/-- One call of `spasm_echelonize` with the options of a command line, without the low-rank method. -/
theorem call_draws (jk : Junk) {q : ℕ} [Fact q.Prime] {env : Env} (henv : env.Possible q) (c : Chance)
    {A : Csr} (hA : A.WFV q) (hnd : A.NoDup) (hz : A.NoZero) (o : EchOpts) (ht : o.ints.tall = false)
    (hr : A.n ≤ A.m ∨ (A.toMat q).rank < A.m) (hn : A.n < 2 ^ 31) (hm : A.m < 2 ^ 31) :
    ∃ env' : Env, env.Agree env' ∧ env'.Possible q ∧
      ∀ d, echelonize_call jk { env with draw := d } c A (some o) = echelonize jk { env' with draw := d } o.ints A := by
  obtain ⟨env', h1, h2⟩ := echelonize_num_draws jk henv (o.num c) ht hA hnd hz hr hn hm
  refine ⟨env', h1, ⟨?_, ?_, ?_, ?_, ?_⟩, h2⟩
  · rw [h1.greedy]; exact henv.greedy
  · rw [h1.schur]; exact henv.schur
  · rw [h1.dense]; exact henv.dense
  · rw [h1.ff]; exact henv.ff
  · rw [h1.draw]; exact henv.draw

/-- C67 for one call of `spasm_echelonize` with the options of a command line. -/
theorem call_error (jk : Junk) {q : ℕ} [Fact q.Prime] {env : Env} (henv : env.Possible q) (c : Chance)
    {A : Csr} (hA : A.WFV q) (hnd : A.NoDup) (hz : A.NoZero) (o : EchOpts) (ht : o.ints.tall = false)
    (hg : o.ints.gplu = true) (hb : 0 < o.ints.block) (hnull : o.ints.max_round ≠ 0 ∨ jk.null0 = false)
    (hL : o.ints.L = false) (hc : o.ints.complete = false)
    (hr : A.n ≤ A.m ∨ (A.toMat q).rank < A.m) (hn : A.n < 2 ^ 31) (hm : A.m < 2 ^ 31)
    (h2 : 2 * (A.toMat q).rank ≤ A.n) {lg2 : Dbl → Dbl} (hlg : Log2 lg2) (hs : test_samples lg2 q = .ok env.samples) :
    Nat.card {d : Fin env.samples → Fin A.n → ZMod q //
      ¬ Ok (echelonize_call jk { env with draw := tableDraw d } c A (some o)) (fun f => Echelon q f.U f.qinv ∧
        f.U.m = A.m ∧ f.U.n = f.r ∧ f.r = (A.toMat q).rank ∧ f.U.rowSpace q = A.rowSpace q)} * 2 ^ 128 ≤
    99 * Nat.card (Fin env.samples → Fin A.n → ZMod q) := by
  obtain ⟨env', g1, g2, g3⟩ := call_draws jk henv c hA hnd hz o ht hr hn hm
  have key := C67_rank_partial jk q env' o.ints A g2 hA hnd hz hb hnull hL hc ht (.inl ⟨hg, .inr h2⟩) hlg
    (by rw [g1.samples]; exact hs)
  have es := g1.samples
  have e : ∀ d : Fin env.samples → Fin A.n → ZMod q, echelonize_call jk { env with draw := tableDraw d } c A (some o) =
      echelonize jk { env' with draw := tableDraw d } o.ints A := fun d => g3 _
  simp only [e]
  clear e g3
  revert key
  generalize env.samples = x at es
  subst es
  exact id

/-- A bound on a proportion of tables, for a smaller set of failures. -/
theorem card_mono {α : Type} [Finite α] {P Q : α → Prop} (h : ∀ a, P a → Q a) {c k : ℕ}
    (hq : Nat.card {a // Q a} * c ≤ k) : Nat.card {a // P a} * c ≤ k := by
  refine le_trans (Nat.mul_le_mul_right _ ?_) hq
  exact Nat.card_le_card_of_injective (fun a : {a // P a} => (⟨a.1, h a.1 a.2⟩ : {a // Q a}))
    fun a b e => Subtype.ext (congrArg (fun x : {a // Q a} => x.1) e)

section
variable (w : World) {q : ℕ} [Fact q.Prime] (hq : q ≤ 0xfffffffb) (henv : w.env.Possible q)
  {f : List Char} {n m : Nat} {e : List (Int × Int × Int)}
  (hf : IsFile f n m e) (hc : NoCancel q e) (hn : n < 2 ^ 28) (hm : m < 2 ^ 28)
  {lg2 : Dbl → Dbl} (hlg : Log2 lg2) (hs : test_samples lg2 q = .ok w.env.samples)

include hq henv hf hc hn hm hlg hs

/-- C67 (program `rank`).  The full claim: whatever the options, `rank` prints the rank of the matrix in the file, except
for at most 99 tables of random numbers out of `2 ^ 128`.  Proved for `rank --no-low-rank-mode [options]` with GPLU and
without a certificate, when the matrix that is processed (the transpose for wide matrices, unless `--no-transpose` is
given) has at least twice as many rows as its rank.  (Missing: see `C67_rank_partial` and `C60_rank_partial`.) -/
theorem C67_program_partial {l : List (Arg RankOpt Int (List Char))} (hl : Sane w q f l)
    (hr : n = m ∨ (fileMat q n m e).rank < min n m ∨ (n < m ∧ .own .no_transpose ∈ l))
    (hlow : .ech .no_low_rank ∈ l) (hg : .ech .no_gplu ∉ l) (hcert : .own .certificate ∉ l) {rows : ℕ}
    (hr1 : .own .no_transpose ∉ l → rows = max n m) (hr2 : .own .no_transpose ∈ l → rows = n) (h2 : 2 * (fileMat q n m e).rank ≤ rows) :
    Nat.card {d : Fin w.env.samples → Fin rows → ZMod q //
      ¬ Ok (main_rank (w.draws (tableDraw d)) (l.map Arg.text)) (fun r => r.rank = (fileMat q n m e).rank ∧
        r.verdict = none ∧ r.cert = none)} * 2 ^ 128 ≤ 99 * Nat.card (Fin w.env.samples → Fin rows → ZMod q) := by
  have hne : NeZero q := ⟨(Fact.out : q.Prime).ne_zero⟩
  obtain ⟨a, ea, hM, h1, h3, -⟩ := Ok_iff.mp (C59_rank w.atof l hl.fits)
  obtain ⟨⟨A, hash⟩, eA, hA, -⟩ := Ok_iff.mp (rank_input_spec w.jk w.jw w.h0 hq hf hc a.own.allow_transpose)
  have hF : A.WFV q ∧ A.NoDup ∧ A.NoZero ∧ A.n < 2 ^ 31 ∧ A.m < 2 ^ 31 ∧ (A.n ≤ A.m ∨ (A.toMat q).rank < A.m) ∧
      (A.toMat q).rank = (fileMat q n m e).rank ∧ A.n = rows := by
    simp only at hA
    split at hA
    · rename_i hcond
      have e1 : (A.toMat q).rank = (fileMat q n m e).rank := by
        rw [hA.rank, fileMat_flipped, Matrix.rank_transpose]
      refine ⟨hA.wfv, hA.nodup, hA.nozero, by rw [hA.n_eq]; omega, by rw [hA.m_eq]; omega, .inr ?_, e1, ?_⟩
      · rw [e1, hA.m_eq]
        rcases hr with hr | hr | ⟨-, hr⟩
        · omega
        · omega
        · exact absurd hr (h3.mp hcond.1)
      · rw [hr1 (h3.mp hcond.1), hA.n_eq]
        omega
    · rename_i hcond
      refine ⟨hA.wfv, hA.nodup, hA.nozero, by rw [hA.n_eq]; omega, by rw [hA.m_eq]; omega, ?_, hA.rank, ?_⟩
      · rw [hA.rank, hA.n_eq, hA.m_eq]
        omega
      · rw [hA.n_eq]
        by_cases ht : .own .no_transpose ∈ l
        · exact (hr2 ht).symm
        · have : ¬ n < m := fun h => hcond ⟨h3.mpr ht, h⟩
          have := hr1 ht
          omega
  obtain ⟨w1, w2, w3, w4, w5, w6, w7, w8⟩ := hF
  obtain ⟨hb, hnull, hfile, hmod, -, -⟩ := hl.facts w hM
  have ht : a.opts.ints.tall = false := by
    show a.opts.enable_tall_and_skinny = false
    rw [← Bool.not_eq_true, hM.low_rank]; simpa using hlow
  have hn' : a.own.certificate = false := by rw [← Bool.not_eq_true, h1]; exact hcert
  have ho : rank_opts a = a.opts := by unfold rank_opts; rw [if_neg (by simp [hn'])]
  have hmain : ∀ d, main_rank (w.draws d) (l.map Arg.text) =
      echelonize_call w.jk { w.env with draw := d } w.c A (some a.opts) >>= fun fact => rank_end w.M a.own A hash fact := by
    intro d
    unfold main_rank
    show (argp_parse w.atof _ _ _ >>= fun a => _) = _
    rw [ea]
    show (read_file w.sys a.input.filename >>= fun f => _) = _
    rw [hfile]
    show (rank_input w.jk w.jw w.h0 f a.input.prime a.own.allow_transpose >>= fun x => _) = _
    rw [hmod, eA]
    show (echelonize_call w.jk { w.env with draw := d } w.c A (some (rank_opts a)) >>= fun fact => _) = _
    rw [ho]
    rfl
  subst w8
  have key := call_error w.jk henv w.c w1 w2 w3 a.opts ht (hM.gplu.mpr hg) hb hnull hM.L hM.complete w6 w4 w5
    (by rw [w7]; exact h2) hlg hs
  refine card_mono (fun d hd h => hd ?_) key
  rw [hmain, Ok_bind]
  refine h.mono fun fact hfact => ?_
  unfold rank_end
  rw [if_neg (by simp [hn']), Ok_ok]
  exact ⟨by rw [← w7, ← hfact.2.2.2.1, ← hfact.2.2.1], rfl, rfl⟩

omit hn hm in
/-- `kernel`, with or without `--left`: `n'`, `m'` and `l0` describe the matrix whose right kernel is computed. -/
theorem kernel_error {l : List (Arg KerOpt Int (List Char))} (hl : Sane w q f l) (left : Bool)
    (hleft : left = true ↔ .own .left ∈ l) {n' m' : Nat} {l0 : List (Int × Int × Int)}
    (hl0 : ∀ A, (if left = true then FileCsr q m n (flipped e) A else FileCsr q n m e A) → FileCsr q n' m' l0 A)
    (hn' : n' < 2 ^ 28) (hm' : m' < 2 ^ 28) (hr : n' ≤ m' ∨ (fileMat q n' m' l0).rank < m')
    (hlow : .ech .no_low_rank ∈ l) (hg : .ech .no_gplu ∉ l) (h2 : 2 * (fileMat q n' m' l0).rank ≤ n') :
    Nat.card {d : Fin w.env.samples → Fin n' → ZMod q //
      ¬ ((∃ out g, MainKernel (w.draws (tableDraw d)) (l.map Arg.text) out g) ∧
        ∀ out g, MainKernel (w.draws (tableDraw d)) (l.map Arg.text) out g → out = lastVal Arg.kerOf none l ∧
          ∃ k l', IsFile g k m' l' ∧ LinearIndependent (ZMod q) (fun i => fileMat q k m' l' i) ∧
            fileRows q k m' l' = LinearMap.ker (fileMat q n' m' l0).mulVecLin)} * 2 ^ 128 ≤
      99 * Nat.card (Fin w.env.samples → Fin n' → ZMod q) := by
  have hne : NeZero q := ⟨(Fact.out : q.Prime).ne_zero⟩
  obtain ⟨a, ea, hM, h1, h3⟩ := Ok_iff.mp (C59_kernel w.atof l hl.fits)
  have hlf : a.own.left = left := Bool.eq_iff_iff.mpr (h1.trans hleft.symm)
  obtain ⟨hb, hnull, hfile, hmod, -, -⟩ := hl.facts w hM
  obtain ⟨⟨T, hash⟩, eT, hT⟩ := Ok_iff.mp
    (load_file w.jk w.jw (prime_range hq) hf (hash := none) (by rintro _ h; cases h))
  simp only at hT
  have hcomp : Ok (compress w.jk (if left = true then triplet_transpose T else T)) fun A =>
      if left = true then FileCsr q m n (flipped e) A else FileCsr q n m e A := by
    cases left with
    | true => exact compress_file w.jk hT.transpose hc.flipped
    | false => exact compress_file w.jk hT hc
  obtain ⟨A, eA, hA⟩ := Ok_iff.mp hcomp
  have hA := hl0 A hA
  have ht : a.opts.ints.tall = false := by
    show a.opts.enable_tall_and_skinny = false
    rw [← Bool.not_eq_true, hM.low_rank]; simpa using hlow
  have hmain : ∀ d, main_kernel_fact (w.draws d) (l.map Arg.text) =
      echelonize_call w.jk { w.env with draw := d } w.c A (some a.opts) >>= fun fact =>
        .ok (fact, lastVal Arg.kerOf none l) := by
    intro d
    unfold main_kernel_fact
    show (argp_parse w.atof _ _ _ >>= fun a => _) = _
    rw [ea]
    show (read_file w.sys a.input.filename >>= fun f => _) = _
    rw [hfile]
    show (triplet_load w.jk w.jw f a.input.prime none >>= fun x => _) = _
    rw [hmod, eT]
    show (compress w.jk (if a.own.left = true then triplet_transpose T else T) >>= fun A => _) = _
    rw [hlf, eA, ← h3]
    rfl
  have en := hA.n_eq
  subst en
  have key := call_error w.jk henv w.c hA.wfv hA.nodup hA.nozero a.opts ht (hM.gplu.mpr hg) hb hnull hM.L hM.complete
    (by rw [hA.rank, hA.m_eq]; exact hr) (by omega) (by rw [hA.m_eq]; omega) (by rw [hA.rank]; exact h2) hlg hs
  refine card_mono (fun d hd h => hd ?_) key
  obtain ⟨fact, ef, g1, g2, g3, g4, g5⟩ := Ok_iff.mp h
  have hfact : main_kernel_fact (w.draws (tableDraw d)) (l.map Arg.text) = .ok (fact, lastVal Arg.kerOf none l) := by
    rw [hmain, ef]; rfl
  have hm : fact.U.m = m' := by rw [g2, hA.m_eq]
  obtain ⟨k1, k2⟩ := kernel_saved w.jk fact g1 (by omega)
  constructor
  · obtain ⟨K, hK⟩ := k1
    obtain ⟨g, eg, -⟩ := Ok_iff.mp (k2 K hK)
    exact ⟨_, g, fact, K, hfact, hK, eg⟩
  · rintro out g ⟨fact', K, e1, hK, eg⟩
    rw [hfact] at e1
    cases e1
    obtain ⟨g', e, l', s1, s2, s3⟩ := Ok_iff.mp (k2 K hK)
    rw [eg] at e
    cases e
    rw [hm] at s1
    obtain ⟨i1, i2, i3⟩ := s3.file (n := A.n) (l := l0) hm s2
    exact ⟨rfl, K.n, l', s1, i1, (i3 (by rw [g5, hA.same.rows])).symm⟩

/-- C67 (program `kernel`).  The full claim: the text written describes a basis of the right kernel of the matrix in the
file, except for at most 99 tables of random numbers out of `2 ^ 128`.  Proved for `kernel --no-low-rank-mode [options]`
with GPLU, for matrices with at least twice as many rows as their rank.  (Missing: see `C67_rank_partial` and
`C60_kernel_partial`.) -/
theorem C67_kernel_partial {l : List (Arg KerOpt Int (List Char))} (hl : Sane w q f l)
    (hr : n ≤ m ∨ (fileMat q n m e).rank < m) (hlow : .ech .no_low_rank ∈ l) (hg : .ech .no_gplu ∉ l)
    (hleft : .own .left ∉ l) (h2 : 2 * (fileMat q n m e).rank ≤ n) :
    Nat.card {d : Fin w.env.samples → Fin n → ZMod q //
      ¬ ((∃ out g, MainKernel (w.draws (tableDraw d)) (l.map Arg.text) out g) ∧
        ∀ out g, MainKernel (w.draws (tableDraw d)) (l.map Arg.text) out g → out = lastVal Arg.kerOf none l ∧
          ∃ k l', IsFile g k m l' ∧ LinearIndependent (ZMod q) (fun i => fileMat q k m l' i) ∧
            fileRows q k m l' = LinearMap.ker (fileMat q n m e).mulVecLin)} * 2 ^ 128 ≤
      99 * Nat.card (Fin w.env.samples → Fin n → ZMod q) :=
  kernel_error w hq henv hf hc hlg hs hl false (by simpa using hleft) (fun _ h => h) hn hm hr hlow hg h2

/-- C67 (program `kernel --left`). The same for the left kernel, for matrices with at least twice as many columns as
their rank. -/
theorem C67_left_partial {l : List (Arg KerOpt Int (List Char))} (hl : Sane w q f l)
    (hr : m ≤ n ∨ (fileMat q n m e).rank < n) (hlow : .ech .no_low_rank ∈ l) (hg : .ech .no_gplu ∉ l)
    (hleft : .own .left ∈ l) (h2 : 2 * (fileMat q n m e).rank ≤ m) :
    Nat.card {d : Fin w.env.samples → Fin m → ZMod q //
      ¬ ((∃ out g, MainKernel (w.draws (tableDraw d)) (l.map Arg.text) out g) ∧
        ∀ out g, MainKernel (w.draws (tableDraw d)) (l.map Arg.text) out g → out = lastVal Arg.kerOf none l ∧
          ∃ k l', IsFile g k n l' ∧ LinearIndependent (ZMod q) (fun i => fileMat q k n l' i) ∧
            ∀ x, x ∈ fileRows q k n l' ↔ Matrix.vecMul x (fileMat q n m e) = 0)} * 2 ^ 128 ≤
      99 * Nat.card (Fin w.env.samples → Fin m → ZMod q) := by
  have hne : NeZero q := ⟨(Fact.out : q.Prime).ne_zero⟩
  have hrk : (fileMat q m n (flipped e)).rank = (fileMat q n m e).rank := by
    rw [fileMat_flipped, Matrix.rank_transpose]
  refine card_mono (fun d hd h => hd ⟨h.1, fun out g hg => ?_⟩) (kernel_error w hq henv hf hc hlg hs hl true
    (by simpa using hleft) (fun _ h => h) hm hn (by rw [hrk]; exact hr) hlow hg (by rw [hrk]; exact h2))
  obtain ⟨k1, k, l', k2, k3, k4⟩ := h.2 out g hg
  refine ⟨k1, k, l', k2, k3, fun x => ?_⟩
  rw [k4, LinearMap.mem_ker, Matrix.mulVecLin_apply, fileMat_flipped, Matrix.mulVec_transpose]

section
variable {l : List (EchelonOpt Int (List Char))} (hfits : ∀ a ∈ l, a.Fits)
  (hmod : lastVal EchelonOpt.modulusOf 42013 l = q) (hstdin : w.sys.stdin = f)
  (hblock : 0 < lastVal EchelonOpt.blockOf 1000 l) (hr : n ≤ m ∨ (fileMat q n m e).rank < m)
  (hlow : .no_low_rank ∈ l) (h2 : 2 * (fileMat q n m e).rank ≤ n)
include hfits hmod hstdin hblock hr hlow h2

omit hc in
/-- The factorization computed by the program `echelonize`, before the matrix is written. -/
theorem echelonize_error {A : Csr} (hA : FileCsr q n m e A)
    (hcomp : ∀ T hash, triplet_load w.jk w.jw f q none = .ok (T, hash) → compress w.jk T = .ok A) :
    Nat.card {d : Fin w.env.samples → Fin n → ZMod q //
      ¬ Ok (main_echelonize_fact (w.draws (tableDraw d)) (l.map EchelonOpt.text)) (fun r =>
        (r.2 = true ↔ .rref ∈ l) ∧ Echelon q r.1.U r.1.qinv ∧ r.1.U.m = A.m ∧
          r.1.U.n = (fileMat q n m e).rank ∧ r.1.U.rowSpace q = A.rowSpace q)} * 2 ^ 128 ≤
      99 * Nat.card (Fin w.env.samples → Fin n → ZMod q) := by
  have hne : NeZero q := ⟨(Fact.out : q.Prime).ne_zero⟩
  obtain ⟨a, ea, k1, k2, k3, -, k5⟩ := Ok_iff.mp (C59_echelonize_partial w.atof l hfits)
  obtain ⟨⟨T, hash⟩, eT, hT⟩ := Ok_iff.mp
    (load_file w.jk w.jw (prime_range hq) hf (hash := none) (by rintro _ h; cases h))
  have eA := hcomp T hash eT
  have ht : a.opts.ints.tall = false := by
    show a.opts.enable_tall_and_skinny = false
    rw [← Bool.not_eq_true, k5]; simpa using hlow
  have hmain : ∀ d, main_echelonize_fact (w.draws d) (l.map EchelonOpt.text) =
      echelonize_call w.jk { w.env with draw := d } w.c A (some a.opts) >>= fun fact => .ok (fact, a.rref) := by
    intro d
    unfold main_echelonize_fact
    show (parse_echelon w.atof _ >>= fun a => _) = _
    rw [ea]
    show (triplet_load w.jk w.jw w.sys.stdin a.prime none >>= fun x => _) = _
    rw [hstdin, k1, hmod, eT]
    show (compress w.jk T >>= fun A => _) = _
    rw [eA]
    rfl
  have en := hA.n_eq
  subst en
  have key := call_error w.jk henv w.c hA.wfv hA.nodup hA.nozero a.opts ht
    (by show a.opts.enable_GPLU = true; rw [k3]; rfl) (by show 0 < a.opts.dense_block_size; rw [k3]; exact hblock)
    (.inl (by show a.opts.max_round.toNat ≠ 0; rw [k3]; exact (by decide : (3 : Int).toNat ≠ 0)))
    (by show a.opts.L = false; rw [k3]; rfl) (by show a.opts.complete = false; rw [k3]; rfl)
    (by rw [hA.rank, hA.m_eq]; exact hr) (by omega) (by rw [hA.m_eq]; omega) (by rw [hA.rank]; exact h2) hlg hs
  refine card_mono (fun d hd h => hd ?_) key
  rw [hmain, Ok_bind]
  refine h.mono fun fact ⟨g1, g2, g3, g4, g5⟩ => ?_
  exact ⟨k2, g1, g2, by rw [g3, g4, hA.rank], g5⟩

/-- C67 (program `echelonize`).  The full claim: the text written describes a matrix in echelon form with the row space of
the matrix read, except for at most 99 tables of random numbers out of `2 ^ 128`.  Proved for `echelonize
--no-low-rank-mode [options]` without `--rref`, for matrices with at least twice as many rows as their rank.  (Missing:
see `C67_rank_partial` and `C60_echelonize_partial`.) -/
theorem C67_echelonize_partial (hrref : .rref ∉ l) :
    Nat.card {d : Fin w.env.samples → Fin n → ZMod q //
      ¬ ((∃ g, MainEchelonize (w.draws (tableDraw d)) (l.map EchelonOpt.text) g) ∧
        ∀ g, MainEchelonize (w.draws (tableDraw d)) (l.map EchelonOpt.text) g → ∃ l' c,
          IsFile g (fileMat q n m e).rank m l' ∧ FileEchelon q (fileMat q n m e).rank m l' c ∧
          fileRows q (fileMat q n m e).rank m l' = fileRows q n m e)} * 2 ^ 128 ≤
      99 * Nat.card (Fin w.env.samples → Fin n → ZMod q) := by
  have hne : NeZero q := ⟨(Fact.out : q.Prime).ne_zero⟩
  obtain ⟨⟨T, hash⟩, eT, hT⟩ := Ok_iff.mp
    (load_file w.jk w.jw (prime_range hq) hf (hash := none) (by rintro _ h; cases h))
  obtain ⟨A, eA, hA⟩ := Ok_iff.mp (compress_file w.jk hT hc)
  refine card_mono (fun d hd h => hd ?_) (echelonize_error w hq henv hf hn hm hlg hs hfits hmod hstdin hblock hr hlow
    h2 hA (fun T' hash' e => by rw [eT] at e; cases e; exact eA))
  obtain ⟨⟨fact, b⟩, ef, g0, g1, g2, g3, g5⟩ := Ok_iff.mp h
  have hb : b = false := by rw [← Bool.not_eq_true, g0]; exact hrref
  subst hb
  have hs := saved_echelon hf hA g1 g2 (le_of_eq g5)
  obtain ⟨g, eg, -⟩ := Ok_iff.mp hs
  refine ⟨⟨g, fact, false, ef, eg⟩, ?_⟩
  rintro g' ⟨fact', b', e1, e2⟩
  rw [ef] at e1
  cases e1
  have e2 : csr_save fact.U = .ok g' := e2
  rw [e2, Ok_ok] at hs
  obtain ⟨l', c, s1, s2, s3, -, s4, s5⟩ := hs
  simp only at g3
  have s5 := s5 g3
  rw [g3] at s1 s3 s5
  exact ⟨l', c, s1, s3, s5⟩

/-- C67 (program `echelonize --rref`).  The same for the reduced echelon form. -/
theorem C67_rref_partial (hrref : .rref ∈ l) :
    Nat.card {d : Fin w.env.samples → Fin n → ZMod q //
      ¬ ((∃ g, MainEchelonize (w.draws (tableDraw d)) (l.map EchelonOpt.text) g) ∧
        ∀ g, MainEchelonize (w.draws (tableDraw d)) (l.map EchelonOpt.text) g → ∃ l' c,
          IsFile g (fileMat q n m e).rank m l' ∧ FileRref q (fileMat q n m e).rank m l' c ∧
          fileRows q (fileMat q n m e).rank m l' = fileRows q n m e)} * 2 ^ 128 ≤
      99 * Nat.card (Fin w.env.samples → Fin n → ZMod q) := by
  have hne : NeZero q := ⟨(Fact.out : q.Prime).ne_zero⟩
  obtain ⟨⟨T, hash⟩, eT, hT⟩ := Ok_iff.mp
    (load_file w.jk w.jw (prime_range hq) hf (hash := none) (by rintro _ h; cases h))
  obtain ⟨A, eA, hA⟩ := Ok_iff.mp (compress_file w.jk hT hc)
  refine card_mono (fun d hd h => hd ?_) (echelonize_error w hq henv hf hn hm hlg hs hfits hmod hstdin hblock hr hlow
    h2 hA (fun T' hash' e => by rw [eT] at e; cases e; exact eA))
  obtain ⟨⟨fact, b⟩, ef, g0, g1, g2, g3, g5⟩ := Ok_iff.mp h
  have hb : b = true := g0.mpr hrref
  subst hb
  obtain ⟨⟨R, rq, k1⟩, k2⟩ := rref_files w.jk hf hA g1 g2 (le_of_eq g5)
  obtain ⟨g, eg, -⟩ := Ok_iff.mp (k2 R rq k1)
  refine ⟨⟨g, fact, true, ef, R, rq, k1, eg⟩, ?_⟩
  rintro g' ⟨fact', b', e1, e2⟩
  rw [ef] at e1
  cases e1
  obtain ⟨R', rq', e3, e4⟩ := e2
  have := k2 R' rq' e3
  rw [e4, Ok_ok] at this
  obtain ⟨l', c, s1, s2, s3, s4, s5, s6⟩ := this
  simp only at g3
  have s6 := s6 g3
  rw [g3] at s1 s4 s6
  exact ⟨l', c, s1, s4, s6⟩

end

end

/-! ### Examples -/

/-- A matrix with four rows, of rank 2. -/
def exHalfFile : List Char := "4 4 M\n1 1 1\n2 2 1\n3 1 1\n3 2 1\n4 1 2\n0 0 0\n".toList

def exHalfList : List (Int × Int × Int) := [(1, 1, 1), (2, 2, 1), (3, 1, 1), (3, 2, 1), (4, 1, 2)]

theorem exHalf_file : IsFile exHalfFile 4 4 exHalfList := by
  refine ⟨.inl ?_, by decide, by decide, by decide, by decide, by decide⟩
  have key : ∀ (b : List Char) (x y z : Int), Short b → b = dec x ++ [' '] ++ dec y ++ [' '] ++ dec z →
      EntryLine b (x, y, z) := by
    intro b x y z hb e
    exact ⟨hb, [], [' '], [' '], [], by simp [Blank], by simp [Blank], by simp [Blank], by simp, by simp, by simp,
      by simpa using e⟩
  refine ⟨"4 4 M".toList, ["1 1 1".toList, "2 2 1".toList, "3 1 1".toList, "3 2 1".toList, "4 1 2".toList], "0 0 0".toList, [],
    ⟨⟨by decide, by decide, by decide⟩, [], [' '], [' '], [], by simp [Blank], by simp [Blank],
      by simp [Blank], by simp, by decide +kernel⟩, ?_, ?_, by simp, by decide +kernel⟩
  · exact .cons (key _ _ _ _ ⟨by decide, by decide, by decide⟩ (by decide +kernel))
      (.cons (key _ _ _ _ ⟨by decide, by decide, by decide⟩ (by decide +kernel))
        (.cons (key _ _ _ _ ⟨by decide, by decide, by decide⟩ (by decide +kernel))
          (.cons (key _ _ _ _ ⟨by decide, by decide, by decide⟩ (by decide +kernel))
            (.cons (key _ _ _ _ ⟨by decide, by decide, by decide⟩ (by decide +kernel)) .nil))))
  · exact key _ _ _ _ ⟨by decide, by decide, by decide⟩ (by decide +kernel)

theorem exHalf_noCancel : NoCancel 7 exHalfList := Distinct.noCancel (by unfold Distinct exHalfList; decide)

theorem exHalf_rank : 2 * (fileMat 7 4 4 exHalfList).rank ≤ 4 := by
  let X : Matrix (Fin 4) (Fin 2) (ZMod 7) := !![1, 0; 0, 1; 1, 1; 2, 0]
  let Y : Matrix (Fin 2) (Fin 4) (ZMod 7) := !![1, 0, 0, 0; 0, 1, 0, 0]
  have h : fileMat 7 4 4 exHalfList = X * Y := by decide +kernel
  have h1 := Matrix.rank_mul_le_left X Y
  have h2 := X.rank_le_width
  rw [h]
  omega

noncomputable def exHalfWorld (M : CertMem) : World :=
  { exWorld M with env := { exDenseEnv with samples := 46 }, sys := ⟨exHalfFile, fun _ => none⟩ }

theorem exHalf_possible (M : CertMem) : (exHalfWorld M).env.Possible 7 :=
  ⟨exFull_possible.greedy, exFull_possible.schur, exFull_possible.dense, exFull_possible.ff, exFull_possible.draw⟩

theorem exHalf_sane {κ : Type} (M : CertMem) : Sane (κ := κ) (exHalfWorld M) 7 exHalfFile [.input (.modulus 7), .ech .no_low_rank] := by
  have ha : (Dbl.fin 5).lt (.fin 0) = false := decide_eq_false (by norm_num : ¬ (5 : ℚ) < 0)
  refine ⟨?_, rfl, rfl, ha, by show (0 : Int) < 1000; decide, by show (0 : Int) < 3; decide⟩
  intro a h
  simp only [List.mem_cons, List.not_mem_nil, or_false] at h
  rcases h with rfl | rfl <;> simp [Arg.Fits]

theorem exHalf_sane_left (M : CertMem) :
    Sane (exHalfWorld M) 7 exHalfFile [.own KerOpt.left, .input (.modulus 7), .ech .no_low_rank] := by
  have ha : (Dbl.fin 5).lt (.fin 0) = false := decide_eq_false (by norm_num : ¬ (5 : ℚ) < 0)
  refine ⟨?_, rfl, rfl, ha, by show (0 : Int) < 1000; decide, by show (0 : Int) < 3; decide⟩
  intro a h
  simp only [List.mem_cons, List.not_mem_nil, or_false] at h
  rcases h with rfl | rfl | rfl <;> simp [Arg.Fits]

section
attribute [local irreducible] WpE Ok main_rank MainKernel MainEchelonize exHalfFile fileMat exDenseEnv rnd

/-- `rank -p 7 --no-low-rank-mode` -/
example (M : CertMem) : ∃ lg2, Log2 lg2 ∧ Nat.card {d : Fin 46 → Fin 4 → ZMod 7 //
      ¬ Ok (main_rank ((exHalfWorld M).draws (tableDraw d)) [.input (.modulus (dec 7)), .ech .no_low_rank]) (fun r =>
        r.rank = (fileMat 7 4 4 exHalfList).rank ∧ r.verdict = none ∧ r.cert = none)} * 2 ^ 128 ≤
    99 * Nat.card (Fin 46 → Fin 4 → ZMod 7) := by
  obtain ⟨lg2, h⟩ := exLog2
  exact ⟨lg2, h, C67_program_partial (exHalfWorld M) (by norm_num) (exHalf_possible M) exHalf_file exHalf_noCancel
    (by norm_num) (by norm_num) h (exLog2_seven h) (exHalf_sane M) (.inl rfl) (by simp) (by simp) (by simp) (fun _ => rfl)
    (fun _ => rfl) exHalf_rank⟩

/-- `kernel -p 7 --no-low-rank-mode` -/
example (M : CertMem) {lg2 : Dbl → Dbl} (h : Log2 lg2) := C67_kernel_partial (exHalfWorld M) (by norm_num)
  (exHalf_possible M) exHalf_file exHalf_noCancel (by norm_num) (by norm_num) h (exLog2_seven h) (exHalf_sane M)
  (.inl le_rfl) (by simp) (by simp) (by simp) exHalf_rank

/-- `kernel --left -p 7 --no-low-rank-mode` -/
example (M : CertMem) {lg2 : Dbl → Dbl} (h : Log2 lg2) := C67_left_partial (exHalfWorld M) (by norm_num)
  (exHalf_possible M) exHalf_file exHalf_noCancel (by norm_num) (by norm_num) h (exLog2_seven h) (exHalf_sane_left M)
  (.inl le_rfl) (by simp) (by simp) (by simp) exHalf_rank

theorem exHalf_fits {b : Bool} : ∀ a ∈ (if b then [EchelonOpt.rref] else []) ++
    [EchelonOpt.modulus (7 : Int), (.no_low_rank : EchelonOpt Int (List Char))], a.Fits := by
  intro a h
  cases b <;> simp only [Bool.false_eq_true, if_true, if_false, List.nil_append, List.cons_append, List.mem_cons, List.not_mem_nil, or_false] at h <;>
    rcases h with rfl | rfl | rfl <;> simp [EchelonOpt.Fits]

/-- `echelonize -p 7 --no-low-rank-mode` -/
example (M : CertMem) {lg2 : Dbl → Dbl} (h : Log2 lg2) := C67_echelonize_partial (exHalfWorld M) (by norm_num)
  (exHalf_possible M) exHalf_file exHalf_noCancel (by norm_num) (by norm_num) h (exLog2_seven h) (exHalf_fits (b := false))
  rfl rfl (by show (0 : Int) < 1000; decide) (.inl le_rfl) (by simp) exHalf_rank (by simp)

/-- `echelonize --rref -p 7 --no-low-rank-mode` -/
example (M : CertMem) {lg2 : Dbl → Dbl} (h : Log2 lg2) := C67_rref_partial (exHalfWorld M) (by norm_num)
  (exHalf_possible M) exHalf_file exHalf_noCancel (by norm_num) (by norm_num) h (exLog2_seven h) (exHalf_fits (b := true))
  rfl rfl (by show (0 : Int) < 1000; decide) (.inl le_rfl) (by simp) exHalf_rank (by simp)

end

end Spasm
