import Verif.Model.Io
import Verif.Model.Pnm
import Verif.Model.Dm
import Verif.Model.Permutation

/-
Model of the tools (tools/*.c).  The input files are lists of characters; the result is what the tool writes to its
output.  Options given on the command line are parameters (their parsing is not modelled); messages on the standard
error output are not modelled, except the verdict of `check_cert`.
-/

namespace Spasm

open Sha

/-! ### tools/stack.c -/

/-- tools/stack.c:27-32, one array: zero everywhere. -/
def stack_zero (jk : Junk) (n : Nat) : C (Array Int) := forRange 0 n (mkArr n jk.int) fun i p => wr p i 0

/-- tools/stack.c:35-38: the rows and columns with entries are marked. -/
def stack_mark (nz : Nat) (Ai Aj : Array Nat) (p q : Array Int) : C (Array Int × Array Int) :=
  forRange 0 nz (p, q) fun k s => do
    let i ← rd Ai k
    let p ← wr s.1 i 1
    let j ← rd Aj k
    let q ← wr s.2 j 1
    .ok (p, q)

/-- tools/stack.c:41-44 and 46-49: the marked ones are numbered. -/
def stack_number (n : Nat) (p : Array Int) : C (Array Int × Int) :=
  forRange 0 n (p, 0) fun i s => do
    let v ← rd s.1 i
    if v > 0 then do
      let p ← wr s.1 i s.2
      let u ← i32 (s.2 + 1)
      .ok (p, u)
    else .ok s

/-- tools/stack.c:57-60: the entries are renumbered. -/
def stack_rename (nz : Nat) (p q : Array Int) (Ai Aj : Array Nat) : C (Array Nat × Array Nat) :=
  forRange 0 nz (Ai, Aj) fun k s => do
    let i ← rd s.1 k
    let i ← rd p i
    let i ← idx i
    let Ai ← wr s.1 k i
    let j ← rd s.2 k
    let j ← rd q j
    let j ← idx j
    let Aj ← wr s.2 k j
    .ok (Ai, Aj)

/-- tools/stack.c:16-60.  `nz` is an `int`. -/
def stack_matrix (jk : Junk) (A : Triplet) : C Triplet := do
  let nz := (toI32 A.nz).toNat
  let p ← stack_zero jk A.n
  let q ← stack_zero jk A.m
  let (p, q) ← stack_mark nz A.i A.j p q
  let (p, u) ← stack_number A.n p
  let (q, v) ← stack_number A.m q
  let u ← idx u
  let v ← idx v
  let (Ai, Aj) ← stack_rename nz p q A.i A.j
  .ok { A with n := u, m := v, i := Ai, j := Aj }

/-- tools/stack.c -/
def tool_stack (jk : Junk) (jw : Nat → W) (f : List Char) : C (List Char) := do
  let (A, _) ← triplet_load jk jw f 42013 none
  let A ← stack_matrix jk A
  triplet_save A

/-! ### tools/vertical_swap.c -/

/-- tools/vertical_swap.c:12-17 -/
def swap_matrix (A : Triplet) : C Triplet := do
  let Aj ← forRange 0 A.nz A.j fun k Aj => do
    let j ← rd Aj k
    let v ← i32 ((A.m : Int) - j - 1)
    let v ← idx v
    wr Aj k v
  .ok { A with j := Aj }

/-- tools/vertical_swap.c -/
def tool_vertical_swap (jk : Junk) (jw : Nat → W) (f : List Char) : C (List Char) := do
  let (A, _) ← triplet_load jk jw f 42013 none
  let A ← swap_matrix A
  triplet_save A

/-! ### tools/bitmap.c -/

/-- The size of the image (tools/bitmap.c:62-70), with the option `--width` or `--height` or both (negative: absent).
The other options are in Model/Gray.lean. -/
def bitmap_size (n m : Nat) (w h : Int) : C (Int × Int) := do
  let w' ← if w < 0 ∧ h > 0 then do
      let k ← cdiv h n
      i32 (m * k)
    else .ok w
  let h' ← if w' > 0 ∧ h < 0 then do
      let k ← cdiv w' m
      i32 (n * k)
    else .ok h
  .ok (min w' m, min h' n)

/-- tools/bitmap.c with `--width` or `--height`, without `--gray`. -/
def tool_bitmap (jk : Junk) (jw : Nat → W) (f : List Char) (w h : Int) : C (List Char) := do
  let (T, _) ← triplet_load jk jw f (-1) none
  let A ← compress jk T
  let (w, h) ← bitmap_size A.n A.m w h
  save_pbm jk A w h

/-! ### tools/dm.c -/

/-- The decomposition and the permuted matrix (tools/dm.c:50-57). -/
def dm_decompose (jk : Junk) (A : Csr) : C (Dm × Csr) := do
  let D ← dulmage_mendelsohn jk A
  let qinv ← pinv jk (some D.q) A.m
  let B ← permute jk A (some D.p) qinv true
  .ok (D, B)

/-- tools/dm.c with `--permuted`, which is the default. -/
def tool_dm (jk : Junk) (jw : Nat → W) (f : List Char) : C (List Char) := do
  let (T, _) ← triplet_load jk jw f 42013 none
  let A ← compress jk T
  let (_, B) ← dm_decompose jk A
  csr_save B

/-- The sizes of the strongly connected components, one line for each that has more than one row
(tools/dm.c:75-83); also counts the others. -/
def dm_sizes (D : Dm) : C (List Char × Int) :=
  forRange 1 (D.nb - 1) (([] : List Char), (0 : Int)) fun i (s : List Char × Int) => do
    let a ← rd D.r (i + 1)
    let b ← rd D.r i
    let size ← i32 (a - b)
    if size = 1 then do
      let k ← i32 (s.2 + 1)
      .ok (s.1, k)
    else .ok (s.1 ++ "    *) SCC of size ".toList ++ fmtD size ++ ['\n'], s.2)

/-- A line of the report (tools/dm.c:69, 92). -/
def dm_part (name : String) (a b : Int) : List Char :=
  if a > 0 ∧ b > 0 then ("*) " ++ name ++ " (").toList ++ fmtD a ++ " x ".toList ++ fmtD b ++ ")\n".toList else []

/-- The part of the report on the square part (tools/dm.c:71-86). -/
def dm_square (D : Dm) (a b : Int) : C (List Char) :=
  if a > 0 ∧ b > 0 then do
    let (t, k) ← dm_sizes D
    .ok ("*) S (".toList ++ fmtD a ++ " x ".toList ++ fmtD b ++ ") : \n".toList ++ t ++
      (if k > 0 then "    -> plus ".toList ++ fmtD k ++ " SCC of size 1\n".toList else []))
  else .ok []

/-- The report (tools/dm.c:64-93). -/
def dm_report (D : Dm) : C (List Char) := do
  let rr0 ← rd D.rr 0
  let rr1 ← rd D.rr 1
  let rr2 ← rd D.rr 2
  let rr4 ← rd D.rr 4
  let cc0 ← rd D.cc 0
  let cc2 ← rd D.cc 2
  let cc3 ← rd D.cc 3
  let cc4 ← rd D.cc 4
  let s ← i32 (rr2 + cc4)
  let s ← i32 (s - cc3)
  let hn ← i32 (rr1 - rr0)
  let hm ← i32 (cc2 - cc0)
  let sn ← i32 (rr2 - rr1)
  let sm ← i32 (cc3 - cc2)
  let sq ← dm_square D sn sm
  let vn ← i32 (rr4 - rr2)
  let vm ← i32 (cc4 - cc3)
  .ok ("structural rank = ".toList ++ fmtD s ++ ['\n'] ++ dm_part "H" hn hm ++ sq ++ dm_part "V" vn vm)

/-- tools/dm.c with `--verbose`. -/
def tool_dm_verbose (jk : Junk) (jw : Nat → W) (f : List Char) : C (List Char) := do
  let (T, _) ← triplet_load jk jw f 42013 none
  let A ← compress jk T
  let (D, _) ← dm_decompose jk A
  dm_report D

/-- tools/dm.c with `--image`; the size of the image is computed in floating-point arithmetic (tools/dm.c:101-103) and
is here a parameter. -/
def tool_dm_image (jk : Junk) (jw : Nat → W) (f : List Char) (w h : Int) : C (List Char) := do
  let (T, _) ← triplet_load jk jw f 42013 none
  let A ← compress jk T
  let (D, B) ← dm_decompose jk A
  save_ppm jk B w h D

/-! ### tools/check_cert.c -/

/-- tools/check_cert.c: the message and the exit status.  `fA` is the file of the matrix, `fC` that of the
certificate (two different files); `h0`, `c0` and `ctx0` are what the uninitialised `hash`, `proof` and generator
contain, `jc` an uninitialised array of characters. -/
def tool_check_cert (jk : Junk) (jw : Nat → W) (jc : Nat → Char) (h0 : Nat → B) (c0 : Cert) (ctx0 : Prng) (fuel : Nat)
    (fA fC : List Char) (prime : Int) : C (List Char × Bool) := do
  let (T, hash) ← triplet_load jk jw fA prime (some (mkArr 32 h0))
  let A ← compress jk T
  let (_, proof) ← certificate_load jk jc c0 fC
  let hash ← deref hash
  let correct ← cert_verify jw jk ctx0 fuel A hash proof
  let msg := if !correct then "CORRECT certificate\n" else "INCORRECT certificate\n"
  .ok (msg.toList, correct)

end Spasm
