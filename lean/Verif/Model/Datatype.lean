import Verif.Model.ZZp

/-
Model of the "runtime type selection" of src/spasm_ffpack.cpp:98-146.  A cell of a dense matrix is the
rational number it holds; `float` has 24 significant bits and `double` 53 (IEEE-754 binary32 and
binary64, rounding to nearest, no overflow or underflow since the values are integers of at most 32
bits).
-/

namespace Spasm

/-- `spasm_datatype` (src/spasm.h:84). -/
inductive Datatype
  | double
  | float
  | i64
  deriving DecidableEq, Inhabited

/-- The value of type `dt` obtained when an integer is converted to it. -/
def Datatype.conv (dt : Datatype) (v : Int) : ℚ :=
  match dt with
  | .double => rnd 53 v
  | .float => rnd 24 v
  | .i64 => v

/-- `spasm_datatype_read` (src/spasm_ffpack.cpp:100-108): conversion of cell `i` to `spasm_ZZp` (i32).
From a floating-point type it truncates and is undefined out of range; from `i64` it is reduced modulo
2^32. -/
def datatype_read (A : Array ℚ) (i : Nat) (dt : Datatype) : C Int := do
  let x ← rd A i
  match dt with
  | .double => i32 (truncQ x)
  | .float => i32 (truncQ x)
  | .i64 => .ok (toI32 x.num)

/-- `spasm_datatype_write` (src/spasm_ffpack.cpp:110-118). -/
def datatype_write (A : Array ℚ) (i : Nat) (dt : Datatype) (value : Int) : C (Array ℚ) :=
  wr A i (dt.conv value)

/-- `spasm_datatype_choose` (src/spasm_ffpack.cpp:130-139). -/
def datatype_choose (prime : Int) : Datatype :=
  if prime ≤ 8191 then .float
  else if prime ≤ 189812531 then .double
  else .i64

end Spasm
