import Verif.Model.Csr
import Verif.Model.Triplet

namespace Spasm

/-- `struct spasm_lu` (src/spasm.h:64-73).  The array `p` is only ever read at positions that have
been written with row indices, so that its entries are natural numbers in the model (the initial
value `-1` is an arbitrary number). -/
structure Lu where
  r : Nat
  complete : Bool
  L : Option Csr
  U : Csr
  qinv : Array Int
  p : Option (Array Nat)
  Ltmp : Option Triplet
  deriving DecidableEq, Inhabited

end Spasm
