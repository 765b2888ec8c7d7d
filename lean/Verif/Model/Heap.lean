/-
Memory management of the library, over an abstract heap.

Here the contents of arrays are abstracted away: a block of the heap is either an array, or one of the structures of
spasm.h, of which only the pointers are kept.  Every decision that depends on the data (sizes, branches, numbers of
iterations, number of threads, what `realloc` does) is taken from an arbitrary sequence of numbers, so that a statement
about all these sequences is a statement about all executions.

Simplifications that hold throughout: sizes are not modelled (accesses out of bounds are the business of the other
models); addresses are never used twice, so that any use of a freed block is detected (an actual allocator may give the
block back, hiding the error); when `malloc` fails the process ends, which is not modelled; a `for (;;)` loop does
an arbitrary finite number of iterations.
-/

namespace Spasm
namespace Heap

/-- A pointer; `none` is `NULL`. -/
abbrev Ptr := Option Nat

/-- What a block of memory holds: the structures of src/spasm.h:38-118 (`spasm_csr`, `spasm_triplet`, `spasm_lu`,
`spasm_dm`, `spasm_rank_certificate`) with their pointers, or an array. -/
inductive Obj where
  | arr
  | csr (p j x : Ptr)
  | triplet (i j x : Ptr)
  | lu (U qinv p L Ltmp : Ptr)
  | dm (p q r c : Ptr)
  | cert (i j x y : Ptr)
deriving DecidableEq, Repr

/-- What can go wrong: a block is used or freed although it is not (or no longer) allocated, `NULL` is dereferenced, or a
block is taken for something else. -/
inductive Fault where
  | dangling
  | null
  | kind
deriving DecidableEq, Repr

/-- The live blocks, the next fresh address, and the decisions to come (an execution takes a finite number of decisions; when
there are no more, they are 0). -/
structure St where
  mem : List (Nat × Obj)
  next : Nat
  orc : List Nat

/-- A computation with a heap. -/
def M (α : Type) : Type := St → Except Fault (α × St)

instance : Monad M where
  pure a := fun s => .ok (a, s)
  bind x f := fun s => match x s with
    | .ok (a, s') => f a s'
    | .error e => .error e

/-- A decision that depends on the data. -/
def choose : M Nat := fun s => match s.orc with
  | [] => .ok (0, s)
  | n :: l => .ok (n, { s with orc := l })

/-- A condition that depends on the data. -/
def flip : M Bool := do
  let n ← choose
  pure (n % 2 == 1)

/-- `spasm_malloc`, `spasm_calloc` (src/spasm_util.c:65-79): a new block. -/
def malloc (o : Obj) : M Ptr := fun s => .ok (some s.next, { s with mem := (s.next, o) :: s.mem, next := s.next + 1 })

/-- `free` -/
def free (q : Ptr) : M Unit := fun s => match q with
  | none => .ok ((), s)
  | some a => if (s.mem.map Prod.fst).contains a then .ok ((), { s with mem := s.mem.filter fun c => c.1 != a })
    else .error .dangling

/-- The contents of a live block. -/
def look (q : Ptr) : M Obj := fun s => match q with
  | none => .error .null
  | some a => match s.mem.find? fun c => c.1 == a with
    | none => .error .dangling
    | some c => .ok (c.2, s)

/-- Writing a structure. -/
def store (q : Ptr) (o : Obj) : M Unit := fun s => match q with
  | none => .error .null
  | some a => if (s.mem.map Prod.fst).contains a then
      .ok ((), { s with mem := (a, o) :: s.mem.filter fun c => c.1 != a })
    else .error .dangling

/-- Failing. -/
def fail {α : Type} (e : Fault) : M α := fun _ => .error e

/-- Reading or writing an entry of an array. -/
def touch (q : Ptr) : M Unit := do
  match ← look q with
  | .arr => pure ()
  | _ => fail .kind

/-- Accesses to several arrays. -/
def touches : List Ptr → M Unit
  | [] => pure ()
  | q :: l => do touch q; touches l

/-- Accesses to arrays that may be `NULL`, in which case they are not used. -/
def touch? (q : Ptr) : M Unit := if q.isSome = true then touch q else pure ()

/-- `spasm_realloc` (src/spasm_util.c:81-87): the block is freed if the size is zero (and `NULL` is returned), may be moved,
or not. -/
def realloc (q : Ptr) : M Ptr := do
  match ← choose with
  | 0 => do free q; pure none
  | 1 => if q.isSome = true then do touch q; pure q else malloc .arr
  | _ => do free q; malloc .arr

/-- Reading the pointers of a `struct spasm_csr` -/
def getCsr (A : Ptr) : M (Ptr × Ptr × Ptr) := do
  match ← look A with
  | .csr p j x => pure (p, j, x)
  | _ => fail .kind

/-- Reading the pointers of a `struct spasm_triplet` -/
def getTriplet (A : Ptr) : M (Ptr × Ptr × Ptr) := do
  match ← look A with
  | .triplet i j x => pure (i, j, x)
  | _ => fail .kind

/-- Reading the pointers of a `struct spasm_lu`: `U`, `qinv`, `p`, `L`, `Ltmp` -/
def getLu (A : Ptr) : M (Ptr × Ptr × Ptr × Ptr × Ptr) := do
  match ← look A with
  | .lu U qinv p L Ltmp => pure (U, qinv, p, L, Ltmp)
  | _ => fail .kind

/-- Reading the pointers of a `struct spasm_dm` -/
def getDm (A : Ptr) : M (Ptr × Ptr × Ptr × Ptr) := do
  match ← look A with
  | .dm p q r c => pure (p, q, r, c)
  | _ => fail .kind

/-- Reading the pointers of a `struct spasm_rank_certificate` -/
def getCert (A : Ptr) : M (Ptr × Ptr × Ptr × Ptr) := do
  match ← look A with
  | .cert i j x y => pure (i, j, x, y)
  | _ => fail .kind

/-- `n` iterations, starting from `s`. -/
def repeatS {σ : Type} (body : σ → M σ) : Nat → σ → M σ
  | 0, s => pure s
  | n + 1, s => do repeatS body n (← body s)

/-- A loop with local variables `σ`. -/
def loopS {σ : Type} (body : σ → M σ) (s : σ) : M σ := do repeatS body (← choose) s

/-- A loop. -/
def loop (body : M Unit) : M Unit := loopS (fun _ => body) ()

/-- At most `n` iterations, until one of them ends with `break`. -/
def repeatB {σ : Type} (body : σ → M (σ × Bool)) : Nat → σ → M σ
  | 0, s => pure s
  | n + 1, s => do
    let (s', brk) ← body s
    if brk = true then pure s' else repeatB body n s'

/-- A loop with `break`. -/
def loopB {σ : Type} (body : σ → M (σ × Bool)) (s : σ) : M σ := do repeatB body (← choose) s

/-- A statement that may be executed or not, depending on the data. -/
def maybe (body : M Unit) : M Unit := do if (← flip) = true then body else pure ()

/-- A statement that is executed under a condition. -/
def on (b : Bool) (body : M Unit) : M Unit := if b = true then body else pure ()

/-- Scratch arrays. -/
def mallocs : Nat → M (List Ptr)
  | 0 => pure []
  | n + 1 => do
    let q ← malloc .arr
    let l ← mallocs n
    pure (q :: l)

/-- Freeing scratch arrays. -/
def frees : List Ptr → M Unit
  | [] => pure ()
  | q :: l => do free q; frees l

/-- A thread accesses its scratch arrays: some of those given. -/
def touchAny (ws : List Ptr) : M Unit := do
  match ws[(← choose)]? with
  | some q => touch q
  | none => pure ()

/-- A parallel region in which each thread allocates `k` scratch arrays, and frees them at the end.  Simplification: the
threads allocate all the scratch arrays, then the rows are processed one by one by any threads, then all the scratch
arrays are freed (what the threads do at the same time is modelled in `Model/Commit.lean`). -/
def parallel {α : Type} (k : Nat) (body : List Ptr → M α) : M α := do
  let ws ← mallocs (k * (← choose))
  let v ← body ws
  frees ws
  pure v

/-! ### src/spasm_util.c -/

/-- `spasm_csr_alloc` (src/spasm_util.c:90-102) -/
def csr_alloc (values : Bool) : M Ptr := do
  let A ← malloc (.csr none none none)
  let p ← malloc .arr
  store A (.csr p none none)
  let j ← malloc .arr
  store A (.csr p j none)
  let x ← (if values = true then malloc .arr else pure none)
  store A (.csr p j x)
  touch p
  pure A

/-- `spasm_triplet_alloc` (src/spasm_util.c:105-117) -/
def triplet_alloc (values : Bool) : M Ptr := do
  let A ← malloc (.triplet none none none)
  let i ← malloc .arr
  store A (.triplet i none none)
  let j ← malloc .arr
  store A (.triplet i j none)
  let x ← (if values = true then malloc .arr else pure none)
  store A (.triplet i j x)
  pure A

/-- `spasm_nnz` (src/spasm.h): `A->p[A->n]` -/
def nnz (A : Ptr) : M Unit := do
  let (p, _, _) ← getCsr A
  touch p

/-- `spasm_csr_realloc` (src/spasm_util.c:123-133) -/
def csr_realloc (A : Ptr) : M Unit := do
  maybe (nnz A)
  let (p, j, x) ← getCsr A
  let j ← realloc j
  store A (.csr p j x)
  on x.isSome do
    let x ← realloc x
    store A (.csr p j x)

/-- `spasm_triplet_realloc` (src/spasm_util.c:139-150) -/
def triplet_realloc (A : Ptr) : M Unit := do
  let (i, j, x) ← getTriplet A
  let i ← realloc i
  store A (.triplet i j x)
  let j ← realloc j
  store A (.triplet i j x)
  on x.isSome do
    let x ← realloc x
    store A (.triplet i j x)

/-- `spasm_csr_free` (src/spasm_util.c:153-161) -/
def csr_free (A : Ptr) : M Unit := on A.isSome do
  let (p, _, _) ← getCsr A
  free p
  let (_, j, _) ← getCsr A
  free j
  let (_, _, x) ← getCsr A
  free x
  free A

/-- `spasm_triplet_free` (src/spasm_util.c:163-169) -/
def triplet_free (A : Ptr) : M Unit := do
  let (i, _, _) ← getTriplet A
  free i
  let (_, j, _) ← getTriplet A
  free j
  let (_, _, x) ← getTriplet A
  free x
  free A

/-- `spasm_csr_resize` (src/spasm_util.c:171-182) -/
def csr_resize (A : Ptr) : M Unit := do
  let (p, j, x) ← getCsr A
  let p ← realloc p
  store A (.csr p j x)
  maybe (loop (touch p))

/-- `spasm_dm_alloc` (src/spasm_util.c:184-197) -/
def dm_alloc : M Ptr := do
  let P ← malloc (.dm none none none none)
  let p ← malloc .arr
  store P (.dm p none none none)
  let q ← malloc .arr
  store P (.dm p q none none)
  let r ← malloc .arr
  store P (.dm p q r none)
  let c ← malloc .arr
  store P (.dm p q r c)
  pure P

/-- `spasm_dm_free` (src/spasm_util.c:199-206) -/
def dm_free (P : Ptr) : M Unit := do
  let (p, _, _, _) ← getDm P
  free p
  let (_, q, _, _) ← getDm P
  free q
  let (_, _, r, _) ← getDm P
  free r
  let (_, _, _, c) ← getDm P
  free c
  free P

/-- `spasm_lu_free` (src/spasm_util.c:208-215) -/
def lu_free (N : Ptr) : M Unit := do
  let (_, qinv, _, _, _) ← getLu N
  free qinv
  let (_, _, p, _, _) ← getLu N
  free p
  let (U, _, _, _, _) ← getLu N
  csr_free U
  let (_, _, _, L, _) ← getLu N
  csr_free L
  free N

end Heap
end Spasm
