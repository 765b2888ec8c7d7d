import Verif.Model.MainTools
import Verif.Spec.Options

/-
What the command lines of `bitmap`, `dm` and `check_cert` mean (as in Spec/Options.lean).
-/

namespace Spasm

/-! ### bitmap -/

def BitmapOpt.text : BitmapOpt Int (List Char) → BitmapOpt (List Char) (List Char)
  | .gray => .gray
  | .width n => .width (dec n)
  | .height n => .height (dec n)
  | .mpixels d => .mpixels d
  | .unknown => .unknown

/-- An option of the program, with an integer of 32 bits. -/
def BitmapOpt.Fits : BitmapOpt Int (List Char) → Prop
  | .width n => -2 ^ 31 ≤ n ∧ n < 2 ^ 31
  | .height n => -2 ^ 31 ≤ n ∧ n < 2 ^ 31
  | .unknown => False
  | _ => True

def BitmapOpt.widthOf : BitmapOpt Int (List Char) → Option Int
  | .width n => some n
  | _ => none
def BitmapOpt.heightOf : BitmapOpt Int (List Char) → Option Int
  | .height n => some n
  | _ => none
def BitmapOpt.mpixelsOf : BitmapOpt Int (List Char) → Option (List Char)
  | .mpixels d => some d
  | _ => none

/-! ### dm -/

/-- What to write. -/
inductive DmWhat (δ : Type) where
  | permuted
  | verbose
  | nothing
  | image (d : δ)

def DmOpt.whatOf : DmOpt (List Char) → Option (DmWhat (List Char))
  | .permuted => some .permuted
  | .verbose => some .verbose
  | .tabulated => some .nothing
  | .image d => some (.image d)
  | .unknown => none

/-- An option of the program. -/
def DmOpt.Known : DmOpt (List Char) → Prop
  | .unknown => False
  | _ => True

/-! ### check_cert -/

def CheckOpt.text : CheckOpt Int → CheckOpt (List Char)
  | .certificate f => .certificate f
  | .input o => .input o.text
  | .arg s => .arg s
  | .unknown => .unknown

/-- An option of the program, with an integer of 64 bits. -/
def CheckOpt.Fits : CheckOpt Int → Prop
  | .certificate _ => True
  | .input (.matrix _) => True
  | .input (.modulus p) => -2 ^ 63 ≤ p ∧ p < 2 ^ 63
  | .arg _ => False
  | .unknown => False

def CheckOpt.certOf : CheckOpt Int → Option (Option (List Char))
  | .certificate f => some (some f)
  | _ => none
def CheckOpt.fileOf : CheckOpt Int → Option (Option (List Char))
  | .input (.matrix f) => some (some f)
  | _ => none
def CheckOpt.modulusOf : CheckOpt Int → Option Int
  | .input (.modulus p) => some p
  | _ => none

end Spasm
