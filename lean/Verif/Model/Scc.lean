import Verif.Model.Csr

/-
Model of src/spasm_scc.c.
-/

namespace Spasm

/-- `struct spasm_dm` (src/spasm.h:74-82). -/
structure Dm where
  p : Array Nat
  q : Array Nat
  r : Array Int
  c : Array Int
  nb : Nat
  rr : Array Int
  cc : Array Int

/-- `spasm_dm_alloc` (src/spasm_util.c:184-197). -/
def dm_alloc (jk : Junk) (n m : Nat) : Dm :=
  { p := mkArr n jk.nat, q := mkArr m jk.nat, r := mkArr (n + 6) jk.int, c := mkArr (m + 6) jk.int,
    nb := 0, rr := mkArr 5 fun _ => 0, cc := mkArr 5 fun _ => 0 }

/-- Variables of the search (src/spasm_scc.c:22-50).  `top` is the C variable plus one. -/
structure Scc where
  j : Int
  top : Nat
  index : Nat
  ptop : Nat
  nscc : Nat
  p : Array Nat
  rr : Array Int
  pstack : Array Nat
  marks : Array Int
  prev : Array Int
  stack : Array Nat
  low : Array Int

/-- First visit of `j` (src/spasm_scc.c:53-57). -/
def scc_init (j : Nat) (s : Scc) : C Scc := do
  let mk ← rd s.marks j
  if mk < 0 then do
    let low ← wr s.low j (s.index : Int)
    let marks ← wr s.marks j (s.index : Int)
    .ok { s with low := low, marks := marks, index := s.index + 1 }
  else .ok s

/-- The loop over the entries of row `j` (src/spasm_scc.c:60-67, 73): updates `lowlink[j]`, stops on
an unvisited node.  Returns `px`, whether the loop was left by `break`, and `lowlink`. -/
def scc_scan (A : Csr) (j lo px2 : Nat) (s : Scc) : C (Nat × Bool × Array Int) := do
  let ps ← rd s.pstack j
  let (px, b, low) ← forBrk ps px2 (false, s.low) fun px (t : Bool × Array Int) => do
    let k ← rd A.j (lo + px)
    let mk ← rd s.marks k
    if 0 ≤ mk then do
      let lj ← rd t.2 j
      let lk ← rd t.2 k
      let low ← wr t.2 j (min lj lk)
      .ok (.cont (false, low))
    else .ok (.brk (true, t.2))
  .ok (px, b, low)

/-- A new node is pushed (src/spasm_scc.c:68-72). -/
def scc_push (A : Csr) (j lo px : Nat) (s : Scc) : C Scc := do
  let k ← rd A.j (lo + px)
  let pstack ← wr s.pstack j (px + 1)
  let stack ← wr s.stack s.top k
  let prev ← wr s.prev k (j : Int)
  .ok { s with pstack := pstack, stack := stack, top := s.top + 1, prev := prev, j := (k : Int) }

/-- `lowlink[k] = n` and `p[p_top++] = k` for a node popped from the stack
(src/spasm_scc.c:79-81, 83-85). -/
def scc_pop (n k : Nat) (s : Scc) : C Scc := do
  let p ← wr s.p s.ptop k
  let low ← wr s.low k (n : Int)
  .ok { s with p := p, ptop := s.ptop + 1, low := low, top := s.top - 1 }

/-- A component is complete (src/spasm_scc.c:78-86).  `stack[top]` is read with a signed index. -/
def scc_emit (n j : Nat) (s : Scc) : C Scc := do
  let s ← whileFuel (n + 1) s fun s => do
    let k ← rdI s.stack ((s.top : Int) - 1)
    if k = j then .ok (.brk s)
    else do
      let s ← scc_pop n k s
      .ok (.cont s)
  let s ← scc_pop n j s
  let rr ← wr s.rr (s.nscc + 1) (s.ptop : Int)
  .ok { s with rr := rr, nscc := s.nscc + 1 }

/-- Test for the root of a component (src/spasm_scc.c:76-87). -/
def scc_root (n j : Nat) (s : Scc) : C Scc := do
  let lj ← rd s.low j
  let mk ← rd s.marks j
  if lj = mk then scc_emit n j s else .ok s

/-- Back to the predecessor (src/spasm_scc.c:89-93). -/
def scc_back (j : Nat) (s : Scc) : C Scc := do
  let pj ← rd s.prev j
  if 0 ≤ pj then do
    let l ← rdI s.low pj
    let lk ← rd s.low j
    let low ← wrI s.low pj (min l lk)
    .ok { s with j := pj, low := low }
  else .ok { s with j := pj }

/-- One iteration (src/spasm_scc.c:52-94). -/
def scc_step (A : Csr) (j : Nat) (s : Scc) : C Scc := do
  let s ← scc_init j s
  let lo ← rd A.p j
  let hi ← rd A.p (j + 1)
  let (px, b, low) ← scc_scan A j lo (hi - lo) s
  if b then scc_push A j lo px { s with low := low }
  else if px = hi - lo then do
    let s ← scc_root A.n j { s with low := low }
    scc_back j s
  else .ok { s with low := low }

/-- Depth-first search from node `i` (src/spasm_scc.c:47-95). -/
def scc_dfs (A : Csr) (i : Nat) (s : Scc) : C Scc := do
  let stack ← wr s.stack 0 i
  whileFuel (2 * A.n + 1) { s with stack := stack, top := 1, j := (i : Int) } fun s => do
    if 0 ≤ s.j then do
      let s ← scc_step A s.j.toNat s
      .ok (.cont s)
    else .ok (.brk s)

/-- The nodes and the blocks are put in reverse order (src/spasm_scc.c:97-110). -/
def scc_finish (A : Csr) (P : Dm) (s : Scc) : C Dm := do
  cassert (decide (s.ptop = A.n))
  let q ← forRange 0 A.n P.q fun i q => do
    let v ← rd s.p (A.n - 1 - i)
    wr q i v
  let p ← forRange 0 A.n s.p fun i p => do
    let v ← rd q i
    wr p i v
  let cc ← forRange 0 (s.nscc + 1) P.c fun i cc => do
    let v ← rd s.rr (s.nscc - i)
    wr cc i ((A.n : Int) - v)
  let rr ← forRange 0 (s.nscc + 1) s.rr fun i rr => do
    let v ← rd cc i
    wr rr i v
  .ok { P with p := p, q := q, r := rr, c := cc, nb := s.nscc }

/-- `spasm_strongly_connected_components` (src/spasm_scc.c:14-117). -/
def strongly_connected_components (jk : Junk) (A : Csr) : C Dm := do
  cassert (decide (A.n = A.m))
  let P := dm_alloc jk A.n A.n
  let (marks, prev, pstack) ← forRange 0 A.n (mkArr A.n jk.int, mkArr A.n jk.int, mkArr A.n jk.nat)
    fun i (s : Array Int × Array Int × Array Nat) => do
      let marks ← wr s.1 i (-1)
      let prev ← wr s.2.1 i (-1)
      let pstack ← wr s.2.2 i 0
      .ok (marks, prev, pstack)
  let rr ← wr P.r 0 0
  let s ← forRange 0 A.n
    (⟨-1, 0, 0, 0, 0, P.p, rr, pstack, marks, prev, mkArr A.n jk.nat, mkArr A.n jk.int⟩ : Scc)
    fun i s => do
      let mk ← rd s.marks i
      if 0 ≤ mk then .ok s else scc_dfs A i s
  scc_finish A P s

end Spasm
