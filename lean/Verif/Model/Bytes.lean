import Verif.Model.Io
import Verif.Model.Echelonize

/-
The sizes given to `malloc` and `realloc`, in bytes, for the matrices that are read from a file and for the dense
blocks.  In the other files of the model an array has the number of cells that the code asks for; here the number of
bytes is computed as in the code, in a `size_t` (64 bits, wraps around), and the array has the number of cells that
fit.  `Triplet.nzmax`, equal to the size of the arrays in the other files, is a field of its own, and the dimensions
may be negative.  Whether a block of a given number of bytes is granted is a parameter `grant`.
-/

namespace Spasm

open Sha

/-- `count * sizeof(...)`: the signed factor is converted to `size_t`, the product wraps around
(src/spasm_util.c:97-99, 113-115, 129-131, 146-149). -/
def bytes (count : Int) (size : Nat) : Nat := ((count * size) % 2 ^ 64).toNat

/-- `spasm_malloc` (src/spasm_util.c:65-71) and `spasm_realloc` (src/spasm_util.c:80-86, pointer not `NULL`): the number of cells
of `size` bytes that fit in the block obtained; the program ends if there is no memory.  The conversion of the size to `i64` and back to
`size_t` changes nothing. -/
def alloc_cells (grant : Nat → Bool) (count : Int) (size : Nat) : C Nat :=
  if grant (bytes count size) then .ok (bytes count size / size) else .error .exitErr

/-- `struct spasm_triplet` (src/spasm.h:52-62), with `nzmax` and signed dimensions. -/
structure TripletB where
  nzmax : Int
  nz : Nat
  n : Int
  m : Int
  i : Array Nat
  j : Array Nat
  x : Option (Array Int)
  F : Field
  deriving DecidableEq, Inhabited

/-- `spasm_triplet_alloc` (src/spasm_util.c:105-117). -/
def triplet_alloc_b (grant : Nat → Bool) (jk : Junk) (n m nzmax prime : Int) (with_values : Bool) : C TripletB := do
  let F ← field_init prime
  let ki ← alloc_cells grant nzmax 4
  let kj ← alloc_cells grant nzmax 4
  let x ← if with_values then do
      let kx ← alloc_cells grant nzmax 4
      .ok (some (mkArr kx jk.int))
    else .ok none
  .ok { nzmax := nzmax, nz := 0, n := n, m := m, i := mkArr ki jk.nat, j := mkArr kj jk.nat, x := x, F := F }

/-- The reallocation of `A->x` (src/spasm_util.c:147-148), see `csr_realloc`. -/
def realloc_x (grant : Nat → Bool) (jk : Junk) (x : Option (Array Int)) (nzmax : Int) : C (Option (Array Int)) :=
  match x with
  | none => .ok none
  | some a => do
    let k ← alloc_cells grant nzmax 4
    .ok (if bytes nzmax 4 = 0 ∧ jk.null0 then none else some (reallocArr a k jk.int))

/-- `spasm_triplet_realloc` (src/spasm_util.c:139-150). -/
def triplet_realloc_b (grant : Nat → Bool) (jk : Junk) (T : TripletB) (nzmax : Int) : C TripletB := do
  let nzmax := if nzmax < 0 then (T.nz : Int) else nzmax
  let ki ← alloc_cells grant nzmax 4
  let kj ← alloc_cells grant nzmax 4
  let x ← realloc_x grant jk T.x nzmax
  .ok { T with nzmax := nzmax, i := reallocArr T.i ki jk.nat, j := reallocArr T.j kj jk.nat, x := x }

/-- The end of `spasm_add_entry` (src/spasm_triplet.c:19-23); `i + 1` is an `int`. -/
def add_entry_end (T : TripletB) (px : Nat) (i j : Int) : C TripletB := do
  let ti ← wr T.i px i.toNat
  let tj ← wr T.j px j.toNat
  let i1 ← i32 (i + 1)
  let j1 ← i32 (j + 1)
  .ok { T with i := ti, j := tj, nz := T.nz + 1, n := max T.n i1, m := max T.m j1 }

/-- The enlargement in `spasm_add_entry` (src/spasm_triplet.c:11-12); `1 + 2 * T->nzmax` is an `i64`. -/
def add_entry_room (grant : Nat → Bool) (jk : Junk) (T : TripletB) : C TripletB :=
  if (T.nz : Int) = T.nzmax then do
    let a ← i64 (2 * T.nzmax)
    let b ← i64 (1 + a)
    triplet_realloc_b grant jk T b
  else .ok T

/-- `spasm_add_entry` (src/spasm_triplet.c:7-24). -/
def add_entry_b (grant : Nat → Bool) (jk : Junk) (T : TripletB) (i j x : Int) : C TripletB := do
  cassert (decide (i ≥ 0) && decide (j ≥ 0))
  let px := T.nz
  let T ← add_entry_room grant jk T
  match T.x with
  | some a => do
    let xp ← ZZp_init T.F x
    if xp = 0 then .ok T
    else do
      let a ← wr a px xp
      add_entry_end { T with x := some a } px i j
  | none => add_entry_end T px i j

/-- The state of the main loop of `spasm_triplet_load`. -/
structure LoadStB where
  T : TripletB
  f : List Char
  ctx : Option Ctx
  fin : Bool
  entries : Nat

/-- A line that is not after the end (src/spasm_io.c:128-140). -/
def load_line_b (grant : Nat → Bool) (jk : Junk) (h : Header) (buffer f : List Char) (ctx : Option Ctx) (s : LoadStB) :
    C LoadStB := do
  match ← scan3 buffer with
  | none => .error .exitErr
  | some (i, j, x) =>
    if i = 0 ∧ j = 0 ∧ x = 0 then
      if h.mm then .error .exitErr
      else .ok ⟨s.T, f, ctx, true, s.entries⟩
    else do
      let i ← i32 (i - 1)
      let j ← i32 (j - 1)
      let T ← add_entry_b grant jk s.T i j x
      .ok ⟨T, f, ctx, h.mm && decide (((s.entries + 1 : Nat) : Int) = h.nnz), s.entries + 1⟩

/-- One iteration of the main loop (src/spasm_io.c:116-141). -/
def load_step_b (grant : Nat → Bool) (jk : Junk) (jw : Nat → W) (h : Header) (s : LoadStB) : C (Step LoadStB) := do
  let (l, f, ctx) ← read_line jw s.f s.ctx
  match l with
  | none => if s.fin then .ok (.brk { s with f := f, ctx := ctx }) else .error .exitErr
  | some buffer =>
    if s.fin then .ok (.cont { s with f := f, ctx := ctx })
    else do
      let s ← load_line_b grant jk h buffer f ctx s
      .ok (.cont s)

/-- The arrays are trimmed (src/spasm_io.c:143-144). -/
def load_trim_b (grant : Nat → Bool) (jk : Junk) (mm : Bool) (T : TripletB) : C TripletB :=
  if mm then .ok T else triplet_realloc_b grant jk T (-1)

/-- The end (src/spasm_io.c:143-157). -/
def load_end_b (grant : Nat → Bool) (jk : Junk) (jw : Nat → W) (h : Header) (s : LoadStB) (hash : Option (Array B)) :
    C (TripletB × Option (Array B)) := do
  let T ← load_trim_b grant jk h.mm s.T
  match s.ctx, hash with
  | some c, some md => do
    let r ← SHA256_final jw md c
    .ok (T, some r.1)
  | _, _ => .ok (T, hash)

/-- `spasm_triplet_load` (src/spasm_io.c:59-159). -/
def triplet_load_b (grant : Nat → Bool) (jk : Junk) (jw : Nat → W) (f : List Char) (prime : Int)
    (hash : Option (Array B)) : C (TripletB × Option (Array B)) := do
  let (h, f, ctx) ← load_header jw f prime (hash.map fun _ => SHA256_init)
  let T ← triplet_alloc_b grant jk h.n h.m h.nnz prime (decide (prime ≠ -1))
  let s ← whileFuel (f.length + 1) ⟨T, f, ctx, false, 0⟩ fun s => load_step_b grant jk jw h s
  load_end_b grant jk jw h s hash

/-- The matrix, for the rest of the model. -/
def TripletB.toT (T : TripletB) : Triplet := ⟨T.n.toNat, T.m.toNat, T.nz, T.i, T.j, T.x, T.F⟩

/-- `spasm_csr_alloc` (src/spasm_util.c:90-102); `n + 1` is an `int`. -/
def csr_alloc_b (grant : Nat → Bool) (jk : Junk) (n m nzmax prime : Int) (with_values : Bool) : C Csr := do
  let F ← field_init prime
  let n1 ← i32 (n + 1)
  let kp ← alloc_cells grant n1 8
  let kj ← alloc_cells grant nzmax 4
  let x ← if with_values then do
      let kx ← alloc_cells grant nzmax 4
      .ok (some (mkArr kx jk.int))
    else .ok none
  let p ← wr (mkArr kp jk.nat) 0 0
  .ok { n := n.toNat, m := m.toNat, p := p, j := mkArr kj jk.nat, x := x, F := F }

/-- The bucket sort of `spasm_compress` (src/spasm_triplet.c:116-148), once the matrix `A` is allocated. -/
def compress_fill (T : Triplet) (A : Csr) : C Csr := do
  let w ← forRange 0 T.nz (mkArr T.n fun _ => 0) fun it w => do
    let i ← rd T.i it
    cassert (decide (i < T.n))
    let c ← rd w i
    wr w i (c + 1)
  let (A, w, sum) ← forRange 0 T.n (A, w, 0) fun k (s : Csr × Array Nat × Nat) => do
    let A ← s.1.setP k s.2.2
    let c ← rd s.2.1 k
    let t ← rd A.p k
    let w ← wr s.2.1 k t
    .ok (A, w, s.2.2 + c)
  let A ← A.setP T.n sum
  let (A, _) ← forRange 0 T.nz (A, w) fun k (s : Csr × Array Nat) => do
    let i ← rd T.i k
    let px ← rd s.2 i
    let w ← wr s.2 i (px + 1)
    let j ← rd T.j k
    let A ← s.1.setJ px j
    let A ← if A.x.isSome then do
        let tx ← deref T.x
        let v ← rd tx k
        A.setX px v
      else .ok A
    .ok (A, w)
  .ok A

/-- `spasm_compress` (src/spasm_triplet.c:99-158).  With a negative number of rows, `Cp[n] = sum` (line 137) is outside
the array; with a negative number of columns, the array `v` (line 68) is allocated with a negative number of cells, and what
follows is not modelled (failure).  The reallocations at the end, which shrink the arrays, are those of the other model. -/
def compress_b (grant : Nat → Bool) (jk : Junk) (T : TripletB) : C Csr := do
  let A ← csr_alloc_b grant jk T.n T.m T.nz T.F.p T.x.isSome
  let _ ← alloc_cells grant T.n 8
  if T.n < 0 then .error .ub
  else do
    let A ← compress_fill T.toT A
    let _ ← alloc_cells grant T.m 8
    if T.m < 0 then .error .ub
    else do
      let A ← deduplicate jk A
      remove_explicit_zeroes jk A

/-- Reading a matrix, as all tools do (`load_input_matrix`, tools/common.c:113-124, followed by `spasm_compress`). -/
def input_b (grant : Nat → Bool) (jk : Junk) (jw : Nat → W) (f : List Char) (prime : Int) (hash : Option (Array B)) :
    C (Csr × Option (Array B)) := do
  let (T, hash) ← triplet_load_b grant jk jw f prime hash
  let A ← compress_b grant jk T
  .ok (A, hash)

/-! ### Dense blocks -/

/-- `spasm_datatype_size` (src/spasm_ffpack.cpp:120-128). -/
def datatype_size (dt : Datatype) : Nat :=
  match dt with
  | .double => 8
  | .float => 4
  | .i64 => 8

/-- The number of cells of the block `S` of the dense methods (src/spasm_echelonize.c:325-326, 394): the product of the
numbers of rows and columns is an `i64`, its product with the size of a cell is a `size_t`. -/
def dense_cells (grant : Nat → Bool) (rows cols : Int) (dt : Datatype) : C Nat := do
  let k ← i64 (rows * cols)
  alloc_cells grant k (datatype_size dt)

/-- `row_pointer` (src/spasm_schur.c:235-243): the cell where a row starts; `i * ldA` is an `i64`. -/
def row_pointer (ldA i : Int) : C Int := i64 (i * ldA)

/-- The room made for the coefficients of L by the dense method (src/spasm_schur.c:268-273): the number of cells of
each array. -/
def dense_L_cells (grant : Nat → Bool) (n un lnz : Int) : C Nat := do
  let a ← i64 (n * un)
  let extra ← i64 (1 + a)
  let k ← i64 (lnz + extra)
  alloc_cells grant k 4

end Spasm
