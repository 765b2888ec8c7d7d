import Verif.Model.Options
import Verif.Spec.Text

/-
What a command line means: the last value given to an option counts, else the default one; flags are set if they
occur.  Integer arguments are written in decimal.
-/

namespace Spasm

/-- The last value given on the command line, `d` if there is none. -/
def lastVal {α β : Type} (g : α → Option β) (d : β) (l : List α) : β := ((l.filterMap g).getLast?).getD d

/-- The text of an option for the input. -/
def InputOpt.text : InputOpt Int → InputOpt (List Char)
  | .matrix f => .matrix f
  | .modulus p => .modulus (dec p)

/-- The text of an option for the echelonization. -/
def EchOpt.text : EchOpt Int (List Char) → EchOpt (List Char) (List Char)
  | .no_low_rank => .no_low_rank
  | .no_dense => .no_dense
  | .no_gplu => .no_gplu
  | .max_iter n => .max_iter (dec n)
  | .dense_thr d => .dense_thr d
  | .min_piv d => .min_piv d
  | .blksz n => .blksz (dec n)
  | .min_rank d => .min_rank d
  | .max_aspect d => .max_aspect d

def Arg.text {κ : Type} : Arg κ Int (List Char) → Arg κ (List Char) (List Char)
  | .own k => .own k
  | .input o => .input o.text
  | .ech o => .ech o.text
  | .arg s => .arg s

def EchelonOpt.text : EchelonOpt Int (List Char) → EchelonOpt (List Char) (List Char)
  | .modulus p => .modulus (dec p)
  | .rref => .rref
  | .no_greedy => .no_greedy
  | .no_low_rank => .no_low_rank
  | .blksz n => .blksz (dec n)
  | .start_weight n => .start_weight (dec n)
  | .sparsity d => .sparsity d

/-- The integers that a command line may contain: 64 bits for the modulus, 32 bits elsewhere; and nothing but
options. -/
def Arg.Fits {κ : Type} : Arg κ Int (List Char) → Prop
  | .own _ => True
  | .input (.matrix _) => True
  | .input (.modulus p) => -2 ^ 63 ≤ p ∧ p < 2 ^ 63
  | .ech (.max_iter n) => -2 ^ 31 ≤ n ∧ n < 2 ^ 31
  | .ech (.blksz n) => -2 ^ 31 ≤ n ∧ n < 2 ^ 31
  | .ech _ => True
  | .arg _ => False

/-- 32 bits everywhere (tools/echelonize.c). -/
def EchelonOpt.Fits : EchelonOpt Int (List Char) → Prop
  | .modulus n => -2 ^ 31 ≤ n ∧ n < 2 ^ 31
  | .blksz n => -2 ^ 31 ≤ n ∧ n < 2 ^ 31
  | .start_weight n => -2 ^ 31 ≤ n ∧ n < 2 ^ 31
  | _ => True

section
variable {κ : Type}

def Arg.fileOf : Arg κ Int (List Char) → Option (Option (List Char))
  | .input (.matrix f) => some (some f)
  | _ => none
def Arg.modulusOf : Arg κ Int (List Char) → Option Int
  | .input (.modulus p) => some p
  | _ => none
def Arg.roundsOf : Arg κ Int (List Char) → Option Int
  | .ech (.max_iter n) => some n
  | _ => none
def Arg.blockOf : Arg κ Int (List Char) → Option Int
  | .ech (.blksz n) => some n
  | _ => none
def Arg.thresholdOf : Arg κ Int (List Char) → Option (List Char)
  | .ech (.dense_thr d) => some d
  | _ => none
def Arg.proportionOf : Arg κ Int (List Char) → Option (List Char)
  | .ech (.min_piv d) => some d
  | _ => none
def Arg.rankOf : Arg κ Int (List Char) → Option (List Char)
  | .ech (.min_rank d) => some d
  | _ => none
def Arg.aspectOf : Arg κ Int (List Char) → Option (List Char)
  | .ech (.max_aspect d) => some d
  | _ => none
def Arg.ownOf : Arg κ Int (List Char) → Option κ
  | .own k => some k
  | _ => none

/-- The meaning of the options common to the programs (`--help`). -/
structure Means (atof : List Char → Dbl) (l : List (Arg κ Int (List Char))) (i : InputArgs) (o : EchOpts) : Prop where
  file : i.filename = lastVal Arg.fileOf none l
  prime : i.prime = lastVal Arg.modulusOf 42013 l
  greedy : o.enable_greedy_pivot_search = true
  low_rank : o.enable_tall_and_skinny = true ↔ .ech .no_low_rank ∉ l
  dense : o.enable_dense = true ↔ .ech .no_dense ∉ l
  gplu : o.enable_GPLU = true ↔ .ech .no_gplu ∉ l
  L : o.L = false
  complete : o.complete = false
  rounds : o.max_round = lastVal Arg.roundsOf 3 l
  block : o.dense_block_size = lastVal Arg.blockOf 1000 l
  proportion : o.min_pivot_proportion = lastVal (fun a => (Arg.proportionOf a).map atof) (.fin (rnd 53 (1 / 10))) l
  threshold : o.sparsity_threshold = lastVal (fun a => (Arg.thresholdOf a).map atof) (.fin (rnd 53 (1 / 20))) l
  rank : o.low_rank_ratio = lastVal (fun a => (Arg.rankOf a).map atof) (.fin (1 / 2)) l
  aspect : o.tall_and_skinny_ratio = lastVal (fun a => (Arg.aspectOf a).map atof) (.fin 5) l
  weight : o.low_rank_start_weight = .fin (-1)

end

/-! ### Options of each program -/

def Arg.certOf : Arg RankOpt Int (List Char) → Option (Option (List Char))
  | .own (.output f) => some (some f)
  | _ => none
def Arg.kerOf : Arg KerOpt Int (List Char) → Option (Option (List Char))
  | .own (.output f) => some (some f)
  | _ => none
def Arg.rhsOf : Arg SolveOpt Int (List Char) → Option (Option (List Char))
  | .own (.rhs f) => some (some f)
  | _ => none
def Arg.solOf : Arg SolveOpt Int (List Char) → Option (Option (List Char))
  | .own (.output f) => some (some f)
  | _ => none

def EchelonOpt.modulusOf : EchelonOpt Int (List Char) → Option Int
  | .modulus p => some p
  | _ => none
def EchelonOpt.blockOf : EchelonOpt Int (List Char) → Option Int
  | .blksz n => some n
  | _ => none
def EchelonOpt.weightOf : EchelonOpt Int (List Char) → Option Int
  | .start_weight n => some n
  | _ => none
def EchelonOpt.thresholdOf : EchelonOpt Int (List Char) → Option (List Char)
  | .sparsity d => some d
  | _ => none

end Spasm
