import Verif.Model.Triangular
import Verif.Model.Lu

/-
Model of src/spasm_solve.c (the parallel region of `spasm_gesv` is in Model/Gesv.lean).
-/

namespace Spasm

/-- `spasm_solve` (src/spasm_solve.c:13-47); returns `(x, ok)`. `x` is the output buffer. -/
def solve (jk : Junk) (fact : Lu) (b x : Array Int) : C (Array Int × Bool) := do
  let L ← match fact.L with
    | some L => .ok L
    | none => .error .assertFail
  let U := fact.U
  let Uq ← forRange 0 U.m (mkArr U.n jk.nat) fun j Uq => do
    let i ← rd fact.qinv j
    if i ≠ -1 then do
      let i ← idx i
      wr Uq i j
    else .ok Uq
  let y ← forRange 0 U.m (mkArr U.m jk.int) fun i y => do
    let bi ← rd b i
    wr y i bi
  let (_, z, ok) ← dense_forward_solve U y (mkArr U.n jk.int) (some Uq)
  let (_, x) ← dense_back_solve L z x fact.p
  .ok (x, ok)

end Spasm
