import Verif.Model.Numeric
import Verif.Model.Text

/-
The options of `spasm_echelonize` as the caller gives them (src/spasm.h:84-108) and the command lines of the
programs that call it (tools/common.c, tools/rank.c, tools/kernel.c, tools/solve.c, tools/check_cert.c,
tools/echelonize.c).

The libraries `argp` and `getopt` are not modelled: a command line is the list of the options they recognise, in
order, with their arguments.  An unknown option or a missing argument makes them print a message and exit.
`atof` is a parameter.
-/

namespace Spasm

/-! ### Options of spasm_echelonize -/

/-- `struct echelonize_opts` (src/spasm.h:84-108). -/
structure EchOpts where
  enable_greedy_pivot_search : Bool
  enable_tall_and_skinny : Bool
  enable_dense : Bool
  enable_GPLU : Bool
  L : Bool
  complete : Bool
  min_pivot_proportion : Dbl
  max_round : Int
  sparsity_threshold : Dbl
  dense_block_size : Int
  low_rank_ratio : Dbl
  tall_and_skinny_ratio : Dbl
  low_rank_start_weight : Dbl

/-- `spasm_echelonize_init_opts` (src/spasm_echelonize.c:9-28).  0.1 and 0.05 are not exact. -/
def EchOpts.init : EchOpts :=
  { enable_greedy_pivot_search := true, enable_tall_and_skinny := true, enable_dense := true, enable_GPLU := true,
    L := false, complete := false, min_pivot_proportion := .fin (rnd 53 (1 / 10)), max_round := 3,
    sparsity_threshold := .fin (rnd 53 (1 / 20)), dense_block_size := 1000, low_rank_ratio := .fin (1 / 2),
    tall_and_skinny_ratio := .fin 5, low_rank_start_weight := .fin (-1) }

/-- The fields that are not floating-point numbers.  The loop `for (round = 0; round < opts->max_round; round++)`
(src/spasm_echelonize.c:525) makes no iteration if `max_round` is negative. -/
def EchOpts.ints (o : EchOpts) : Opts :=
  { greedy := o.enable_greedy_pivot_search, tall := o.enable_tall_and_skinny, dense := o.enable_dense,
    gplu := o.enable_GPLU, L := o.L, complete := o.complete, max_round := o.max_round.toNat,
    block := o.dense_block_size }

/-- The floating-point fields. -/
def EchOpts.floats (o : EchOpts) : FOpts :=
  { min_pivot_proportion := o.min_pivot_proportion, sparsity_threshold := o.sparsity_threshold,
    low_rank_ratio := o.low_rank_ratio, tall_and_skinny_ratio := o.tall_and_skinny_ratio,
    low_rank_start_weight := o.low_rank_start_weight }

/-- What the floating-point computations depend on besides the options and the data. -/
structure Chance where
  rand : Nat → Nat → Nat
  mlog : ℚ

/-- `Num` for given options. -/
def EchOpts.num (o : EchOpts) (c : Chance) : Num := ⟨o.floats, c.rand, c.mlog⟩

/-- `spasm_echelonize(A, opts)` (src/spasm_echelonize.c:473-617), `none` for a NULL pointer (lines 475-480). -/
def echelonize_call (jk : Junk) (env : Env) (c : Chance) (A : Csr) (opts : Option EchOpts) : C Lu :=
  let o := opts.getD EchOpts.init
  echelonize_num jk env (o.num c) o.ints A

/-! ### Command lines -/

/-- `atoi` (`bits = 31`), `atoll` (`bits = 63`): 0 if there is no number; undefined if the number cannot be
represented (C99 7.20.1). -/
def ato (bits : Nat) (s : List Char) : C Int :=
  match (scanInt s).1 with
  | none => .ok 0
  | some x => if -2 ^ bits ≤ x ∧ x < 2 ^ bits then .ok x else .error .ub

/-- The options of `input_options` (tools/common.c:12-17); `ι` is the type of the arguments that are integers. -/
inductive InputOpt (ι : Type) where
  | matrix (file : List Char)
  | modulus (p : ι)

/-- `struct input_matrix` (tools/common.h:7-10). -/
structure InputArgs where
  filename : Option (List Char)
  prime : Int

/-- The case `ARGP_KEY_INIT` (tools/common.c:24-27). -/
def InputArgs.init : InputArgs := ⟨none, 42013⟩

/-- `parse_input_opt` (tools/common.c:20-38). -/
def parse_input_opt (a : InputArgs) : InputOpt (List Char) → C InputArgs
  | .matrix f => .ok { a with filename := some f }
  | .modulus s => do
    let p ← ato 63 s
    .ok { a with prime := p }

/-- The options of `echelonize_options` (tools/common.c:50-67); `δ` is the type of the arguments that are
floating-point numbers. -/
inductive EchOpt (ι δ : Type) where
  | no_low_rank
  | no_dense
  | no_gplu
  | max_iter (n : ι)
  | dense_thr (d : δ)
  | min_piv (d : δ)
  | blksz (n : ι)
  | min_rank (d : δ)
  | max_aspect (d : δ)

/-- `parse_ech_opt` (tools/common.c:70-109). -/
def parse_ech_opt (atof : List Char → Dbl) (o : EchOpts) : EchOpt (List Char) (List Char) → C EchOpts
  | .no_low_rank => .ok { o with enable_tall_and_skinny := false }
  | .no_dense => .ok { o with enable_dense := false }
  | .no_gplu => .ok { o with enable_GPLU := false }
  | .max_iter s => do
    let n ← ato 31 s
    .ok { o with max_round := n }
  | .dense_thr s => .ok { o with sparsity_threshold := atof s }
  | .min_piv s => .ok { o with min_pivot_proportion := atof s }
  | .blksz s => do
    let n ← ato 31 s
    .ok { o with dense_block_size := n }
  | .min_rank s => .ok { o with low_rank_ratio := atof s }
  | .max_aspect s => .ok { o with tall_and_skinny_ratio := atof s }

/-- The command line of a program: an option of its own, an option for the input, one for the echelonization, or
an argument that is not an option. -/
inductive Arg (κ ι δ : Type) where
  | own (k : κ)
  | input (o : InputOpt ι)
  | ech (o : EchOpt ι δ)
  | arg (s : List Char)

/-- `struct cmdline_args`: what is common to the programs, and what is their own. -/
structure Args (ρ : Type) where
  own : ρ
  input : InputArgs
  opts : EchOpts

/-- One call of the parsers by `argp`; a program stops on an argument that is not an option (tools/rank.c:48-50,
tools/kernel.c:44-46, tools/solve.c:43-45). -/
def parse_arg {κ ρ : Type} (atof : List Char → Dbl) (own : ρ → κ → ρ) (a : Args ρ) :
    Arg κ (List Char) (List Char) → C (Args ρ)
  | .own k => .ok { a with own := own a.own k }
  | .input o => do
    let i ← parse_input_opt a.input o
    .ok { a with input := i }
  | .ech o => do
    let e ← parse_ech_opt atof a.opts o
    .ok { a with opts := e }
  | .arg _ => .error .exitErr

/-- `argp_parse`: the parsers are called with `ARGP_KEY_INIT`, then for each element of the command line. -/
def argp_parse {κ ρ : Type} (atof : List Char → Dbl) (init : ρ) (own : ρ → κ → ρ)
    (l : List (Arg κ (List Char) (List Char))) : C (Args ρ) :=
  l.foldlM (parse_arg atof own) ⟨init, InputArgs.init, EchOpts.init⟩

/-- Options of tools/rank.c:26-32. -/
inductive RankOpt where
  | no_transpose
  | certificate
  | output (file : List Char)

structure RankArgs where
  certificate : Bool
  cert_file : Option (List Char)
  allow_transpose : Bool

/-- tools/rank.c:51-54. -/
def RankArgs.init : RankArgs := ⟨false, none, true⟩

/-- `parse_rank_opt` (tools/rank.c:34-62). -/
def parse_rank_opt (a : RankArgs) : RankOpt → RankArgs
  | .no_transpose => { a with allow_transpose := false }
  | .certificate => { a with certificate := true }
  | .output f => { a with cert_file := some f }

/-- Options of tools/kernel.c:26-31. -/
inductive KerOpt where
  | left
  | output (file : List Char)

structure KerArgs where
  left : Bool
  output_filename : Option (List Char)

/-- tools/kernel.c:47-49. -/
def KerArgs.init : KerArgs := ⟨false, none⟩

/-- `parse_ker_opt` (tools/kernel.c:34-57). -/
def parse_ker_opt (a : KerArgs) : KerOpt → KerArgs
  | .left => { a with left := true }
  | .output f => { a with output_filename := some f }

/-- Options of tools/solve.c:25-30. -/
inductive SolveOpt where
  | rhs (file : List Char)
  | output (file : List Char)

structure SolveArgs where
  rhs_filename : Option (List Char)
  output_filename : Option (List Char)

/-- tools/solve.c:46-48. -/
def SolveArgs.init : SolveArgs := ⟨none, none⟩

/-- `parse_solve_opt` (tools/solve.c:33-56). -/
def parse_solve_opt (a : SolveArgs) : SolveOpt → SolveArgs
  | .rhs f => { a with rhs_filename := some f }
  | .output f => { a with output_filename := some f }

/-- Options of tools/echelonize.c:16-25. -/
inductive EchelonOpt (ι δ : Type) where
  | modulus (p : ι)
  | rref
  | no_greedy
  | no_low_rank
  | blksz (n : ι)
  | start_weight (n : ι)
  | sparsity (d : δ)

/-- The global variables of tools/echelonize.c:9-12. -/
structure EchelonArgs where
  prime : Int
  rref : Bool
  opts : EchOpts

/-- tools/echelonize.c:9-10, 58. -/
def EchelonArgs.init : EchelonArgs := ⟨42013, false, EchOpts.init⟩

/-- One iteration of the loop of `parse_command_line_options` (tools/echelonize.c:26-53).  (`ch` is a `char`: where
this type is unsigned the loop does not stop; the model is for a signed `char`.) -/
def parse_echelon_opt (atof : List Char → Dbl) (a : EchelonArgs) :
    EchelonOpt (List Char) (List Char) → C EchelonArgs
  | .modulus s => do
    let p ← ato 31 s
    .ok { a with prime := p }
  | .rref => .ok { a with rref := true }
  | .no_greedy => .ok { a with opts := { a.opts with enable_greedy_pivot_search := false } }
  | .no_low_rank => .ok { a with opts := { a.opts with enable_tall_and_skinny := false } }
  | .blksz s => do
    let n ← ato 31 s
    .ok { a with opts := { a.opts with dense_block_size := n } }
  | .start_weight s => do
    let n ← ato 31 s
    .ok { a with opts := { a.opts with low_rank_start_weight := .ofInt n } }
  | .sparsity s => .ok { a with opts := { a.opts with sparsity_threshold := atof s } }

/-- `parse_command_line_options` of tools/echelonize.c:14-54.  `getopt` puts aside the arguments that are not options,
and they are ignored. -/
def parse_echelon (atof : List Char → Dbl) (l : List (EchelonOpt (List Char) (List Char))) : C EchelonArgs :=
  l.foldlM (parse_echelon_opt atof) EchelonArgs.init

end Spasm
