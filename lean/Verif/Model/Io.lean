import Verif.Model.Text
import Verif.Model.Triplet
import Verif.Model.Certificate

/-
Model of src/spasm_io.c (for images see Model/Pnm.lean) and of the files of certificates
(src/spasm_certificate.c:221-270).  Progress messages are not modelled.
-/

namespace Spasm

open Sha

/-- `read_line` (src/spasm_io.c:11-26) with `size = 1024`: the line (`none` at the end of the file), what
remains of the file, the hash context.  `jw` is what the stack arrays of the hash function contain. -/
def read_line (jw : Nat → W) (f : List Char) (ctx : Option Ctx) :
    C (Option (List Char) × List Char × Option Ctx) :=
  if f.isEmpty then .ok (none, f, ctx)
  else
    let l := (takeLine 1023 f).1
    let f := (takeLine 1023 f).2
    let buffer := cstr l
    if buffer.length = 0 then .error .exitErr
    else if buffer.getLast? ≠ some '\n' ∧ atEof 1023 l = false then .error .exitErr
    else match ctx with
      | none => .ok (some buffer, f, none)
      | some c => do
        let c ← SHA256_update jw c (buffer.map byte).toArray buffer.length
        .ok (some buffer, f, some c)

/-- `validate_mm_header` (src/spasm_io.c:28-52); the line is known to start with `%%MatrixMarket`. -/
def validate_mm_header (buffer : List Char) : C Unit := do
  let (a, s) ← scanS 1024 (skipWs (buffer.drop 14))
  match a with
  | none => .error .exitErr
  | some a => do
    let (b, s) ← scanS 1024 (skipWs s)
    match b with
    | none => .error .exitErr
    | some b => do
      let (c, s) ← scanS 1024 (skipWs s)
      match c with
      | none => .error .exitErr
      | some c => do
        let (d, _) ← scanS 1024 (skipWs s)
        match d with
        | none => .error .exitErr
        | some d =>
          if a.map Char.toLower ≠ "matrix".toList then .error .exitErr
          else if b.map Char.toLower ≠ "coordinate".toList then .error .exitErr
          else if c.map Char.toLower ≠ "integer".toList then .error .exitErr
          else if d.map Char.toLower ≠ "general".toList then .error .exitErr
          else .ok ()

/-- The comments of a MatrixMarket file are skipped (src/spasm_io.c:85-92). -/
def skip_comments (jw : Nat → W) (f : List Char) (ctx : Option Ctx) : C (List Char × List Char × Option Ctx) :=
  whileFuel (f.length + 1) ([], f, ctx) fun s => do
    let (l, f, ctx) ← read_line jw s.2.1 s.2.2
    match l with
    | none => .error .exitErr
    | some buffer =>
      if buffer.head? ≠ some '%' then .ok (.brk (buffer, f, ctx)) else .ok (.cont (buffer, f, ctx))

/-- What the header gives: MatrixMarket or not, dimensions, number of entries. -/
structure Header where
  mm : Bool
  n : Int
  m : Int
  nnz : Int

/-- The header (src/spasm_io.c:72-108). -/
def load_header (jw : Nat → W) (f : List Char) (prime : Int) (ctx : Option Ctx) :
    C (Header × List Char × Option Ctx) := do
  let (l, f, ctx) ← read_line jw f ctx
  match l with
  | none => .error .exitErr
  | some buffer =>
    if buffer.take 14 = "%%MatrixMarket".toList then do
      validate_mm_header buffer
      let (buffer, f, ctx) ← skip_comments jw f ctx
      match ← scan3 buffer with
      | none => .error .exitErr
      | some (i, j, nnz) => .ok (⟨true, i, j, nnz⟩, f, ctx)
    else do
      match ← scan2c buffer with
      | none => .error .exitErr
      | some (i, j, type) =>
        if prime ≠ -1 ∧ type ≠ 'M' then .error .exitErr
        else .ok (⟨false, i, j, 1⟩, f, ctx)

/-- The allocation (src/spasm_io.c:111).  A negative number of entries makes `spasm_malloc` fail.  Negative
dimensions are accepted by the code; in the model this is a failure. -/
def load_alloc (jk : Junk) (h : Header) (prime : Int) : C Triplet :=
  if h.nnz < 0 then .error .exitErr
  else if h.n < 0 ∨ h.m < 0 then .error .ub
  else triplet_alloc jk h.n.toNat h.m.toNat h.nnz.toNat prime (decide (prime ≠ -1))

/-- The state of the main loop. -/
structure LoadSt where
  T : Triplet
  f : List Char
  ctx : Option Ctx
  fin : Bool
  entries : Nat

/-- A line that is not after the end (src/spasm_io.c:128-140). -/
def load_line (jk : Junk) (h : Header) (buffer f : List Char) (ctx : Option Ctx) (s : LoadSt) : C LoadSt := do
  match ← scan3 buffer with
  | none => .error .exitErr
  | some (i, j, x) =>
    if i = 0 ∧ j = 0 ∧ x = 0 then
      if h.mm then .error .exitErr
      else .ok ⟨s.T, f, ctx, true, s.entries⟩
    else do
      let i ← i32 (i - 1)
      let j ← i32 (j - 1)
      let T ← add_entry jk s.T i j x
      .ok ⟨T, f, ctx, h.mm && decide (((s.entries + 1 : Nat) : Int) = h.nnz), s.entries + 1⟩

/-- One iteration of the main loop (src/spasm_io.c:116-141). -/
def load_step (jk : Junk) (jw : Nat → W) (h : Header) (s : LoadSt) : C (Step LoadSt) := do
  let (l, f, ctx) ← read_line jw s.f s.ctx
  match l with
  | none => if s.fin then .ok (.brk { s with f := f, ctx := ctx }) else .error .exitErr
  | some buffer =>
    if s.fin then .ok (.cont { s with f := f, ctx := ctx })
    else do
      let s ← load_line jk h buffer f ctx s
      .ok (.cont s)

/-- The arrays are trimmed (src/spasm_io.c:143-144). -/
def load_trim (jk : Junk) (mm : Bool) (T : Triplet) : C Triplet :=
  if mm then .ok T else triplet_realloc jk T (-1)

/-- The end (src/spasm_io.c:143-157). -/
def load_end (jk : Junk) (jw : Nat → W) (h : Header) (s : LoadSt) (hash : Option (Array B)) :
    C (Triplet × Option (Array B)) := do
  let T ← load_trim jk h.mm s.T
  match s.ctx, hash with
  | some c, some md => do
    let r ← SHA256_final jw md c
    .ok (T, some r.1)
  | _, _ => .ok (T, hash)

/-- `spasm_triplet_load` (src/spasm_io.c:59-159): the matrix and the hash (if asked for). -/
def triplet_load (jk : Junk) (jw : Nat → W) (f : List Char) (prime : Int) (hash : Option (Array B)) :
    C (Triplet × Option (Array B)) := do
  let (h, f, ctx) ← load_header jw f prime (hash.map fun _ => SHA256_init)
  let T ← load_alloc jk h prime
  let s ← whileFuel (f.length + 1) ⟨T, f, ctx, false, 0⟩ fun s => load_step jk jw h s
  load_end jk jw h s hash

/-! ### Saving -/

/-- The header of a SMS file (src/spasm_io.c:173, 192). -/
def save_header (n m : Nat) : List Char := fmtD n ++ [' '] ++ fmtD m ++ " M\n".toList

/-- One line of a SMS file (src/spasm_io.c:177, 194). -/
def save_line (i j : Nat) (x : Int) : List Char :=
  fmtD ((i + 1 : Nat) : Int) ++ [' '] ++ fmtD ((j + 1 : Nat) : Int) ++ [' '] ++ fmtD x ++ ['\n']

/-- A value, 1 if there are no values (src/spasm_io.c:176, 194). -/
def save_val (x : Option (Array Int)) (px : Nat) : C Int :=
  match x with
  | some x => rd x px
  | none => .ok 1

/-- `spasm_csr_save` (src/spasm_io.c:164-180). -/
def csr_save (A : Csr) : C (List Char) := do
  let out ← forRange 0 A.n (save_header A.n A.m) fun i out => do
    let a ← rd A.p i
    let b ← rd A.p (i + 1)
    forRange a b out fun px out => do
      let x ← save_val A.x px
      let j ← rd A.j px
      .ok (out ++ save_line i j x)
  .ok (out ++ "0 0 0\n".toList)

/-- `spasm_triplet_save` (src/spasm_io.c:185-196). -/
def triplet_save (T : Triplet) : C (List Char) := do
  let out ← forRange 0 T.nz (save_header T.n T.m) fun px out => do
    let i ← rd T.i px
    let j ← rd T.j px
    let x ← save_val T.x px
    .ok (out ++ save_line i j x)
  .ok (out ++ "0 0 0\n".toList)

/-! ### Files of certificates -/

/-- A list of numbers (src/spasm_certificate.c:229-240). -/
def save_list (r : Nat) (a : Array Int) (out : List Char) : C (List Char) := do
  let out ← forRange 0 r out fun k out => do
    let v ← rd a k
    .ok (out ++ fmtD v ++ [' '])
  .ok (out ++ ['\n'])

/-- `spasm_rank_certificate_save` (src/spasm_certificate.c:221-241). -/
def certificate_save (c : Cert) : C (List Char) := do
  let out := fmtD c.r ++ ['\n'] ++ fmtD c.prime ++ ['\n']
  let out ← forRange 0 32 out fun i out => do
    let b ← rd c.hash i
    .ok (out ++ fmt02x b)
  let out := out ++ ['\n']
  let out ← save_list c.r c.i out
  let out ← save_list c.r c.j out
  let out ← save_list c.r c.x out
  save_list c.r c.y out

/-- `for (int k = 0; k < r; k++) fscanf(f, "%d", &a[k]);` (src/spasm_certificate.c:262-269); the result of
`fscanf` is ignored. -/
def load_list (r : Nat) (a : Array Int) (f : List Char) : C (Array Int × List Char) :=
  forRange 0 r (a, f) fun k s => do
    let (v, f) ← scanD 31 s.2
    match v with
    | none => .ok (s.1, f)
    | some v => do
      let a ← wr s.1 k v
      .ok (a, f)

/-- The array `hash` of `spasm_rank_certificate_load` (src/spasm_certificate.c:255-261) after
`fgets(hash, 65, f)` took the characters `l`: these and a NUL; `jc` is what the stack contains. -/
def hash_buffer (jc : Nat → Char) (l : List Char) (i : Nat) : Char :=
  if i < l.length then l.getD i '\x00' else if i = l.length then '\x00' else jc i

/-- `spasm_rank_certificate_load` (src/spasm_certificate.c:243-270): the value returned and the certificate.  `c0` is what
the uninitialised certificate contains.  A negative number of rows is the same as 0: it is only compared with indices
(the huge size asked from `malloc` gives NULL pointers that are not used). -/
def certificate_load (jk : Junk) (jc : Nat → Char) (c0 : Cert) (f : List Char) : C (Bool × Cert) := do
  let (r, f) ← scanD 31 f
  match r with
  | none => .ok (false, c0)
  | some r =>
    let r := r.toNat
    let c := { c0 with r := r, i := mkArr r jk.int, j := mkArr r jk.int, x := mkArr r jk.int,
                       y := mkArr r jk.int }
    let (prime, f) ← scanD 63 f
    match prime with
    | none => .ok (false, c)
    | some prime =>
      let f := skipWs f
      if f.isEmpty then .ok (false, { c with prime := prime })
      else do
        let l := (takeLine 64 f).1
        let f := (takeLine 64 f).2
        let hash ← forRange 0 32 c.hash fun i h =>
          wr h i (strtoul16 (cstr [hash_buffer jc l (2 * i), hash_buffer jc l (2 * i + 1)]))
        let (i, f) ← load_list r c.i f
        let (i, f) ← load_list r i f
        let (x, f) ← load_list r c.x f
        let (y, _) ← load_list r c.y f
        .ok (true, ⟨r, prime, hash, i, c.j, x, y⟩)

end Spasm
