import Verif.Model.Options
import Verif.Model.ToolsLin

/-
The programs of /repo/tools that echelonize a matrix, from the command line to the files they write, with the
floating-point decisions of `spasm_echelonize` (`Model/Numeric.lean`).  Files that cannot be written are not modelled.
-/

namespace Spasm

open Sha

/-- The files a program can read: standard input, and those that `fopen` can open. -/
structure Sys where
  stdin : List Char
  file : List Char → Option (List Char)

/-- `load_input_matrix` and `open_input` (tools/common.c:113-136): where the matrix comes from. -/
def read_file (sys : Sys) (name : Option (List Char)) : C (List Char) :=
  match name with
  | none => .ok sys.stdin
  | some f => match sys.file f with
    | none => .error .exitErr
    | some t => .ok t

/-- What `argp_parse` and `getopt` do not determine: memory, schedules, random numbers, files. -/
structure World where
  jk : Junk
  jw : Nat → W
  h0 : Nat → B
  M : CertMem
  env : Env
  c : Chance
  atof : List Char → Dbl
  sys : Sys

/-- What the program `rank` prints and writes: the rank; with `--certificate`, the verdict, and the certificate if the
option `--output` gives a file. -/
structure RankOut where
  rank : Nat
  verdict : Option Bool
  cert : Option (List Char × List Char)

/-- The end of `main` (tools/rank.c:106-123).  Simplification: the text of the certificate is computed also when it is
not written. -/
def rank_end (M : CertMem) (a : RankArgs) (A : Csr) (hash : Array B) (fact : Lu) : C RankOut :=
  if a.certificate = true then do
    let (correct, t) ← rank_certificate M A hash fact
    .ok ⟨fact.U.n, some correct, a.cert_file.map fun g => (g, t)⟩
  else .ok ⟨fact.U.n, none, none⟩

/-- tools/rank.c:97-98 -/
def rank_opts (a : Args RankArgs) : EchOpts := if a.own.certificate = true then { a.opts with L := true } else a.opts

/-- `main` of tools/rank.c:75-128 -/
def main_rank (w : World) (argv : List (Arg RankOpt (List Char) (List Char))) : C RankOut := do
  let a ← argp_parse w.atof RankArgs.init parse_rank_opt argv
  let f ← read_file w.sys a.input.filename
  let (A, hash) ← rank_input w.jk w.jw w.h0 f a.input.prime a.own.allow_transpose
  let fact ← echelonize_call w.jk w.env w.c A (some (rank_opts a))
  rank_end w.M a.own A hash fact

/-- `main` of tools/kernel.c:69-94, up to the echelonization: the factorization and the name of the file to write. -/
def main_kernel_fact (w : World) (argv : List (Arg KerOpt (List Char) (List Char))) : C (Lu × Option (List Char)) := do
  let a ← argp_parse w.atof KerArgs.init parse_ker_opt argv
  let f ← read_file w.sys a.input.filename
  let (T, _) ← triplet_load w.jk w.jw f a.input.prime none
  let T := if a.own.left = true then triplet_transpose T else T
  let A ← compress w.jk T
  let fact ← echelonize_call w.jk w.env w.c A (some a.opts)
  .ok (fact, a.own.output_filename)

/-- `main` of tools/kernel.c: `g` is a text that the program may write in the file `out` (standard output if `none`). -/
def MainKernel (w : World) (argv : List (Arg KerOpt (List Char) (List Char))) (out : Option (List Char))
    (g : List Char) : Prop :=
  ∃ fact K, main_kernel_fact w argv = .ok (fact, out) ∧ KernelRun w.jk fact.U fact.qinv K ∧ csr_save K = .ok g

/-- `main` of tools/solve.c:69-98, up to the echelonization: the factorization, the right-hand side, and the name of the
file to write.  `rest` is what remains of the standard input when it has been read once. -/
def main_solve_fact (w : World) (rest : List Char) (argv : List (Arg SolveOpt (List Char) (List Char))) :
    C ((Lu × Csr) × Option (List Char)) := do
  let a ← argp_parse w.atof SolveArgs.init parse_solve_opt argv
  let f ← read_file w.sys a.input.filename
  let (T, hash) ← triplet_load w.jk w.jw f a.input.prime (some (mkArr 32 w.h0))
  let A ← compress w.jk T
  let g ← read_file { w.sys with stdin := if a.input.filename.isNone then rest else w.sys.stdin } a.own.rhs_filename
  let (T, _) ← triplet_load w.jk w.jw g a.input.prime hash
  let B ← compress w.jk T
  let fact ← echelonize_call w.jk w.env w.c A (some { a.opts with L := true })
  .ok ((fact, B), a.own.output_filename)

/-- `main` of tools/solve.c: the warnings, and the text that the program may write in the file `out`. -/
def MainSolve (w : World) (rest : List Char) (argv : List (Arg SolveOpt (List Char) (List Char)))
    (warn : List Char) (out : Option (List Char)) (t : List Char) : Prop :=
  ∃ fact B X ok, main_solve_fact w rest argv = .ok ((fact, B), out) ∧ GesvRun w.jk fact B X ok ∧
    warn = solve_warnings B.n ok ∧ csr_save X = .ok t

/-- `main` of tools/echelonize.c:56-68, up to the echelonization. -/
def main_echelonize_fact (w : World) (argv : List (EchelonOpt (List Char) (List Char))) : C (Lu × Bool) := do
  let a ← parse_echelon w.atof argv
  let (T, _) ← triplet_load w.jk w.jw w.sys.stdin a.prime none
  let A ← compress w.jk T
  let fact ← echelonize_call w.jk w.env w.c A (some a.opts)
  .ok (fact, a.rref)

/-- `main` of tools/echelonize.c: `g` is a text that the program may write on the standard output. -/
def MainEchelonize (w : World) (argv : List (EchelonOpt (List Char) (List Char))) (g : List Char) : Prop :=
  ∃ fact rref, main_echelonize_fact w argv = .ok (fact, rref) ∧
    if rref = true then ∃ R rq, RrefRun w.jk fact.U fact.qinv (mkArr fact.U.m w.jk.int) R rq ∧ csr_save R = .ok g
    else csr_save fact.U = .ok g

end Spasm
