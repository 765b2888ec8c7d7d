import Verif.Model.Gray
import Verif.Model.Main

/-
The command lines and the main functions of tools/bitmap.c, tools/dm.c and tools/check_cert.c.
-/

namespace Spasm

open Sha

/-! ### tools/bitmap.c -/

/-- Options of tools/bitmap.c:16-22, and what `getopt_long` does not recognise. -/
inductive BitmapOpt (ι δ : Type) where
  | gray
  | width (n : ι)
  | height (n : ι)
  | mpixels (d : δ)
  | unknown
  deriving DecidableEq

/-- tools/bitmap.c:12-13 -/
def BitmapOpts.init : BitmapOpts := ⟨-1, -1, 1, .fin (-1)⟩

/-- One iteration of the loop (tools/bitmap.c:24-41). -/
def parse_bitmap_opt (atof : List Char → Dbl) (o : BitmapOpts) : BitmapOpt (List Char) (List Char) → C BitmapOpts
  | .gray => .ok { o with mode := 2 }
  | .width s => do
    let n ← ato 31 s
    .ok { o with w := n }
  | .height s => do
    let n ← ato 31 s
    .ok { o with h := n }
  | .mpixels s => .ok { o with mpix := atof s }
  | .unknown => .error .exitErr

/-- `main` of tools/bitmap.c:11-76: `f` is the standard input. -/
def main_bitmap (jk : Junk) (jw : Nat → W) (M : LibM) (atof : List Char → Dbl)
    (argv : List (BitmapOpt (List Char) (List Char))) (f : List Char) : C (List Char) := do
  let o ← argv.foldlM (parse_bitmap_opt atof) BitmapOpts.init
  tool_bitmap_opts jk jw M o f

/-! ### tools/dm.c -/

/-- Options of tools/dm.c:17-23, and what `getopt_long` does not recognise. -/
inductive DmOpt (δ : Type) where
  | permuted
  | verbose
  | tabulated
  | image (d : δ)
  | unknown

/-- `mode` (tools/dm.c:26) -/
inductive DmMode where
  | p
  | v
  | t
  | i

/-- One iteration of the loop (tools/dm.c:27-41); the state is `mode` and `mpix`. -/
def parse_dm_opt (atof : List Char → Dbl) (s : DmMode × Dbl) : DmOpt (List Char) → C (DmMode × Dbl)
  | .permuted => .ok (.p, s.2)
  | .verbose => .ok (.v, s.2)
  | .tabulated => .ok (.t, s.2)
  | .image d => .ok (.i, atof d)
  | .unknown => .error .exitErr

/-- The size of the image (tools/dm.c:101-103). -/
def dm_dims (M : LibM) (n m : Nat) (mpix : Dbl) : C (Int × Int) := do
  let alpha := bitmap_alpha M n m mpix
  let w ← (alpha.mul (Dbl.ofInt m)).toI32
  let h ← (alpha.mul (Dbl.ofInt n)).toI32
  .ok (w, h)

/-- The `switch` (tools/dm.c:59-106). -/
def dm_print (jk : Junk) (M : LibM) (n m : Nat) (D : Dm) (B : Csr) (mode : DmMode) (mpix : Dbl) : C (List Char) :=
  match mode with
  | .t => .ok []
  | .v => dm_report D
  | .p => csr_save B
  | .i => do
    let (w, h) ← dm_dims M n m mpix
    save_ppm jk B w h D

/-- `main` of tools/dm.c:12-109: `f` is the standard input and `d0` what the uninitialised `mpix` contains. -/
def main_dm (jk : Junk) (jw : Nat → W) (M : LibM) (atof : List Char → Dbl) (d0 : Dbl)
    (argv : List (DmOpt (List Char))) (f : List Char) : C (List Char) := do
  let s ← argv.foldlM (parse_dm_opt atof) (.p, d0)
  let (T, _) ← triplet_load jk jw f 42013 none
  let A ← compress jk T
  let (D, B) ← dm_decompose jk A
  dm_print jk M A.n A.m D B s.1 s.2

/-! ### tools/check_cert.c -/

/-- The command line of tools/check_cert.c: its own option (lines 20-24), an option for the input, an argument that is
not an option, something that `argp` does not recognise. -/
inductive CheckOpt (ι : Type) where
  | certificate (file : List Char)
  | input (o : InputOpt ι)
  | arg (s : List Char)
  | unknown

/-- `parse_check_opt` (tools/check_cert.c:27-47) and `parse_input_opt`; the state is `cert_file` and `input`. -/
def parse_check_opt (a : Option (List Char) × InputArgs) : CheckOpt (List Char) → C (Option (List Char) × InputArgs)
  | .certificate f => .ok (some f, a.2)
  | .input o => do
    let i ← parse_input_opt a.2 o
    .ok (a.1, i)
  | .arg _ => .error .exitErr
  | .unknown => .error .exitErr

/-- `main` of tools/check_cert.c:58-82: the message and the exit status.  `rest` is what remains of the standard input
when it has been read once; the other parameters are those of `tool_check_cert`. -/
def main_check_cert (jk : Junk) (jw : Nat → W) (jc : Nat → Char) (h0 : Nat → B) (c0 : Cert) (ctx0 : Prng) (fuel : Nat)
    (sys : Sys) (rest : List Char) (argv : List (CheckOpt (List Char))) : C (List Char × Bool) := do
  let a ← argv.foldlM parse_check_opt (none, InputArgs.init)
  let f ← read_file sys a.2.filename
  let (T, hash) ← triplet_load jk jw f a.2.prime (some (mkArr 32 h0))
  let A ← compress jk T
  let g ← read_file { sys with stdin := if a.2.filename.isNone then rest else sys.stdin } a.1
  let (_, proof) ← certificate_load jk jc c0 g
  let hash ← deref hash
  let correct ← cert_verify jw jk ctx0 fuel A hash proof
  let msg := if !correct then "CORRECT certificate\n" else "INCORRECT certificate\n"
  .ok (msg.toList, correct)

end Spasm
