import Verif.Model.Density
import Verif.Model.Text

/-
Model of `spasm_human_format` (src/spasm_util.c:40-65) and of the sizes in memory which are announced by
`spasm_compress` (src/spasm_triplet.c:152-156) and `spasm_echelonize` (src/spasm_echelonize.c:553-556).
-/

namespace Spasm

/-- `printf("%.1f", x)` (C99 7.19.6.1): the nearest tenth of the value of `x`, ties to even. -/
def fmtF1 : Dbl → List Char
  | .nan => "nan".toList
  | .inf s => if s then "-inf".toList else "inf".toList
  | .fin x =>
    let t := nearestEven (|x| * 10)
    (if x < 0 then ['-'] else []) ++ fmtD (t / 10) ++ '.' :: fmtD (t % 10)

/-- `snprintf(target, 8, ...)`: the string in `target`, when the complete text is `l`. -/
def snprintf8 (l : List Char) : List Char := l.take 7

/-- `spasm_human_format` (src/spasm_util.c:41-65): the string in `target`, if anything was written to it. -/
def human_format (n : Int) : Option (List Char) :=
  if n < 1000 then some (snprintf8 (fmtD n))
  else if n < 1000000 then some (snprintf8 (fmtF1 ((Dbl.ofInt n).div (.fin 1000)) ++ ['k']))
  else if n < 1000000000 then some (snprintf8 (fmtF1 ((Dbl.ofInt n).div (.fin 1000000)) ++ ['m']))
  else if n < 1000000000000 then some (snprintf8 (fmtF1 ((Dbl.ofInt n).div (.fin 1000000000)) ++ ['g']))
  else if n < 1000000000000000 then some (snprintf8 (fmtF1 ((Dbl.ofInt n).div (.fin 1000000000000)) ++ ['t']))
  else none

/-- The size announced at the end of `spasm_compress` (src/spasm_triplet.c:154): it is stored in an `int`.  `n` is the
number of rows, `nz` the number of triplets, `x` tells if there are values. -/
def compress_size (n nz : Nat) (x : Bool) : Int :=
  toI32 (4 * ((n : Int) + nz) + 4 * (if x then (nz : Int) else 0))

/-- The message at the end of `spasm_compress` (src/spasm_triplet.c:155-156): the size in memory. -/
def compress_mem (n nz : Nat) (x : Bool) : Option (List Char) := human_format (compress_size n nz x)

end Spasm
