import Verif.Model.Text
import Verif.Model.Csr
import Verif.Model.Scc

/-
Model of `spasm_save_pnm` (src/spasm_io.c:203-312), modes 1 (black and white) and 3 (colours).  Mode 2 (gray levels)
is in Model/Gray.lean.  The sums in a cell, the offsets and the conversions are those of
the code; the products of two `int` in 64 bits cannot overflow.
-/

namespace Spasm

/-- Integer division: undefined if the divisor is zero. -/
def cdiv (a b : Int) : C Int := if b = 0 then .error .ub else .ok (Int.tdiv a b)

/-- The number of entries in each cell (src/spasm_io.c:223-230). -/
def pnm_count (A : Csr) (x y : Int) (w : Array Int) : C (Array Int) :=
  forRange 0 A.n w fun i w => do
    let k ← cdiv (i * y) A.n
    let a ← rd A.p i
    let b ← rd A.p (i + 1)
    forRange a b w fun px w => do
      let j ← rd A.j px
      let t ← cdiv (j * x) A.m
      let t := toI32 t
      let v ← rdI w (k * x + t)
      let v ← i32 (v + 1)
      wrI w (k * x + t) v

/-- The array `w` (src/spasm_io.c:209-216, 223-230), for sizes that were already reduced.  When `x * y` is negative,
the allocation fails.  The maximum (src/spasm_io.c:232-234) is used only in mode 2. -/
def pnm_cells (jk : Junk) (A : Csr) (x y : Int) : C (Array Int) := do
  let xy ← i32 (x * y)
  if xy < 0 then .error .exitErr
  else do
    let w ← forRange 0 xy.toNat (mkArr xy.toNat jk.int) fun i w => wr w i 0
    pnm_count A x y w

/-- A newline after some pixels (src/spasm_io.c:307-308). -/
def pnm_break (t : Nat) : List Char := if t % 32 = 0 then ['\n'] else []

/-- `spasm_save_pnm` with `mode = 1` and `DM = NULL`. -/
def save_pbm (jk : Junk) (A : Csr) (x y : Int) : C (List Char) := do
  let x := min x A.m
  let y := min y A.n
  let w ← pnm_cells jk A x y
  let out := "P1\n".toList ++ fmtD x ++ [' '] ++ fmtD y ++ ['\n']
  let s ← forRange 0 y.toNat (out, 0) fun i (s : List Char × Nat) =>
    forRange 0 x.toNat s fun j s => do
      let v ← rdI w (i * x + j)
      .ok (s.1 ++ fmtD (if v > 0 then 1 else 0) ++ [' '] ++ pnm_break s.2, s.2 + 1)
  .ok s.1

/-- `bgcolor` (src/spasm_io.c:236-240). -/
def bgcolor (v h : Nat) : Nat :=
  match v, h with
  | 0, 0 => 0xFF0000
  | 0, 1 => 0xCC0000
  | 0, _ => 0x990000
  | 1, 0 => 0xFFFFFF
  | 1, 1 => 0xFFCC00
  | 1, _ => 0xCC9900
  | _, 2 => 0x33CC00
  | _, _ => 0xFFFFFF

/-- The variables of the loop of mode 3 (src/spasm_io.c:259-264). -/
structure Pnm where
  out : List Char
  t : Nat
  scc : Nat
  left : Int
  right : Int
  bot : Int

/-- Number of the coarse block (src/spasm_io.c:281-286). -/
def pnm_block (lo hi i : Int) : Nat := if lo ≤ i then (if i < hi then 1 else 2) else 0

/-- The strongly connected component of row `i` of the image (src/spasm_io.c:292-297).  The counter stays below the
size of the array, otherwise the access is out of bounds: fuel is its size. -/
def pnm_scc (n m : Nat) (D : Dm) (x y : Int) (i : Nat) (s : Pnm) : C Pnm :=
  whileFuel (D.r.size + 1) s fun s =>
    if s.bot ≤ i then do
      let c ← rd D.c (s.scc + 1)
      let right ← cdiv (c * x) m
      let r ← rd D.r (s.scc + 1)
      let bot ← cdiv (r * y) n
      .ok (.cont { s with left := s.right, scc := s.scc + 1, right := toI32 right, bot := toI32 bot })
    else .ok (.brk s)

/-- A pixel of mode 3 (src/spasm_io.c:304-305). -/
def pnm_rgb (pixel : Nat) : List Char :=
  fmtD (pixel / 65536 % 256 : Nat) ++ [' '] ++ fmtD (pixel / 256 % 256 : Nat) ++ [' '] ++ fmtD (pixel % 256 : Nat) ++
    [' ']

/-- The background of pixel `(i, j)` (src/spasm_io.c:279-302). -/
def pnm_bg (n m : Nat) (D : Dm) (x y h0 h1 v0 v1 : Int) (i j : Nat) (s : Pnm) : C (Nat × Pnm) := do
  let bv := pnm_block v0 v1 i
  let bh := pnm_block h0 h1 j
  let bg := bgcolor bv bh
  if bh = 1 ∧ bv = 1 then do
    let s ← pnm_scc n m D x y i s
    if (j : Int) < s.left then .ok (0xFFFFFF, s)
    else if (j : Int) < s.right then .ok (bg + 0x003366, s)
    else .ok (bg, s)
  else .ok (bg, s)

/-- `spasm_save_pnm` with `mode = 3` and `DM ≠ NULL`. -/
def save_ppm (jk : Junk) (A : Csr) (x y : Int) (D : Dm) : C (List Char) := do
  let x := min x A.m
  let y := min y A.n
  let w ← pnm_cells jk A x y
  let out := "P3\n".toList ++ fmtD x ++ [' '] ++ fmtD y ++ "\n255\n".toList
  let c2 ← rd D.cc 2
  let h0 ← cdiv (c2 * x) A.m
  let c3 ← rd D.cc 3
  let h1 ← cdiv (c3 * x) A.m
  let r1 ← rd D.rr 1
  let v0 ← cdiv (r1 * y) A.n
  let r2 ← rd D.rr 2
  let v1 ← cdiv (r2 * y) A.n
  let s ← forRange 0 y.toNat ⟨out, 0, 0, 0, 0, 0⟩ fun i s =>
    forRange 0 x.toNat s fun j s => do
      let (bg, s) ← pnm_bg A.n A.m D x y (toI32 h0) (toI32 h1) (toI32 v0) (toI32 v1) i j s
      let v ← rdI w (i * x + j)
      let pixel := if v > 0 then 0 else bg
      .ok { s with out := s.out ++ pnm_rgb pixel ++ pnm_break s.t, t := s.t + 1 }
  .ok s.out

end Spasm
