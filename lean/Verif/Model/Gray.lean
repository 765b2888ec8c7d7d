import Verif.Model.Pnm
import Verif.Model.Density
import Verif.Model.Tools

/-
Model of `spasm_save_pnm` (src/spasm_io.c:203-312) in mode 2 (gray levels) and of the size of the images computed by
tools/bitmap.c.  The functions `exp`, `log` and `sqrt` of the C library are parameters.
-/

namespace Spasm

open Sha

namespace Dbl

/-- `a - b`. -/
def sub : Dbl → Dbl → Dbl
  | .nan, _ => .nan
  | _, .nan => .nan
  | .inf s, .inf t => if s = t then .nan else .inf s
  | .inf s, .fin _ => .inf s
  | .fin _, .inf t => .inf (!t)
  | .fin x, .fin y => .fin (rnd 53 (x - y))

/-- `a <= b`: false as soon as an operand is NaN. -/
def le : Dbl → Dbl → Bool
  | .nan, _ => false
  | _, .nan => false
  | .inf s, .inf t => s || !t
  | .inf s, .fin _ => s
  | .fin _, .inf t => !t
  | .fin x, .fin y => decide (x ≤ y)

end Dbl

/-- The functions of `math.h` which are used. -/
structure LibM where
  exp : Dbl → Dbl
  log : Dbl → Dbl
  sqrt : Dbl → Dbl

/-- `"%.0f"`: the exact value rounded to the nearest integer, ties to even.  (The sign of negative numbers that are
rounded to zero is missing; no such number is printed.) -/
def fmtF0 : Dbl → List Char
  | .nan => "nan".toList
  | .inf s => (if s then "-inf" else "inf").toList
  | .fin x => fmtD (nearestEven x)

/-- The largest number of entries in a cell (src/spasm_io.c:232-234).  `spasm_max` (src/spasm.h:283-286) takes two
`int`: each step converts `max` to `int` and back, exactly. -/
def pnm_max (w : Array Int) (xy : Nat) : C Int :=
  forRange 0 xy 0 fun j m => do
    let v ← rd w j
    .ok (max m v)

/-- The intensity (src/spasm_io.c:271). -/
def pnm_intensity (M : LibM) (v mx : Int) : Dbl :=
  (Dbl.fin 1).sub (M.exp ((Dbl.fin (rnd 53 (1 / 10))).mul (M.log ((Dbl.ofInt v).div (Dbl.ofInt mx)))))

/-- What is printed for a pixel (src/spasm_io.c:271-274). -/
def pnm_gray (M : LibM) (v mx : Int) : C (List Char) := do
  let intensity := pnm_intensity M v mx
  cassert (Dbl.le (.fin 0) intensity && Dbl.le intensity (.fin 1))
  .ok (fmtF0 ((Dbl.fin 255).mul intensity) ++ [' '])

/-- `spasm_save_pnm` with `mode = 2` and `DM = NULL`. -/
def save_pgm (jk : Junk) (M : LibM) (A : Csr) (x y : Int) : C (List Char) := do
  let x := min x A.m
  let y := min y A.n
  let w ← pnm_cells jk A x y
  let mx ← pnm_max w (x * y).toNat
  let out := "P2\n".toList ++ fmtD x ++ [' '] ++ fmtD y ++ "\n255\n".toList
  let s ← forRange 0 y.toNat (out, 0) fun i (s : List Char × Nat) =>
    forRange 0 x.toNat s fun j s => do
      let v ← rdI w (i * x + j)
      let g ← pnm_gray M v mx
      .ok (s.1 ++ g ++ pnm_break s.2, s.2 + 1)
  .ok s.1

/-- The options of tools/bitmap.c (tools/bitmap.c:12-13). -/
structure BitmapOpts where
  w : Int
  h : Int
  mode : Nat
  mpix : Dbl

/-- `--mpixels` and `--width` or `--height` (tools/bitmap.c:49-53). -/
def bitmap_mpix (o : BitmapOpts) : C Dbl :=
  if (Dbl.fin 0).lt o.mpix ∧ (0 < o.w ∨ 0 < o.h) then .error .exitErr
  else if o.mpix.lt (.fin 0) ∧ o.w < 0 ∧ o.h < 0 then .ok (.fin 1)
  else .ok o.mpix

/-- `alpha` (tools/bitmap.c:56). -/
def bitmap_alpha (M : LibM) (n m : Nat) (mpix : Dbl) : Dbl :=
  M.sqrt ((mpix.mul (.fin 1000000)).div ((Dbl.ofInt n).mul (Dbl.ofInt m)))

/-- The size of the image (tools/bitmap.c:55-70). -/
def bitmap_dims (M : LibM) (n m : Nat) (o : BitmapOpts) (mpix : Dbl) : C (Int × Int) :=
  if (Dbl.fin 0).lt mpix ∧ o.w < 0 ∧ o.h < 0 then do
    let alpha := bitmap_alpha M n m mpix
    let w ← (alpha.mul (Dbl.ofInt m)).toI32
    let h ← (alpha.mul (Dbl.ofInt n)).toI32
    .ok (min w m, min h n)
  else if mpix.lt (.fin 0) then bitmap_size n m o.w o.h
  else .ok (min o.w m, min o.h n)

/-- tools/bitmap.c, all options. -/
def tool_bitmap_opts (jk : Junk) (jw : Nat → W) (M : LibM) (o : BitmapOpts) (f : List Char) : C (List Char) := do
  let (T, _) ← triplet_load jk jw f (-1) none
  let A ← compress jk T
  let mpix ← bitmap_mpix o
  let (w, h) ← bitmap_dims M A.n A.m o mpix
  if o.mode = 2 then save_pgm jk M A w h else save_pbm jk A w h

end Spasm
