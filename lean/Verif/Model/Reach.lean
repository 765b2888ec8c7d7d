import Verif.Model.Csr

/-
Model of src/spasm_reach.c.

The workspace `xj` of size 3m is split in its three parts of size m (the code only uses the three
pointers `xj`, `pstack = xj + m`, `marks = xj + 2m`): an access past the end of a part is
undefined in the model although it would fall in the next part in C.  Model/Workspace.lean has the one array.
-/

namespace Spasm

/-- State of the loop of `spasm_dfs`: `h` is `head + 1` (`head` can be -1). -/
structure Dfs where
  top : Nat
  h : Nat
  xj : Array Nat
  pstack : Array Nat
  marks : Array Nat
  deriving DecidableEq, Inhabited

/-- `top -= 1; xj[top] = xj[head]; head -= 1` (src/spasm_reach.c:53-55, 76-78). -/
def dfs_pop (s : Dfs) : C Dfs := do
  let top ← idx ((s.top : Int) - 1)
  let v ← rd s.xj (s.h - 1)
  let xj ← wr s.xj top v
  .ok { s with top := top, xj := xj, h := s.h - 1 }

/-- One iteration of the loop of `spasm_dfs` (src/spasm_reach.c:40-80). -/
def dfs_step (A : Csr) (qinv : Array Int) (s : Dfs) : C (Step Dfs) :=
  if s.h = 0 then .ok (.brk s)
  else do
    let head := s.h - 1
    let j ← rd s.xj head
    let i ← rd qinv j
    let mj ← rd s.marks j
    let s ← if mj = 0 then do
        let marks ← wr s.marks j 1
        let pstack ← wr s.pstack head 0
        .ok { s with marks := marks, pstack := pstack }
      else .ok s
    if i < 0 then do
      let s ← dfs_pop s
      .ok (.cont s)
    else do
      let i ← idx i
      let p2 ← row_weight A i
      let k0 ← rd s.pstack head
      let (k, s) ← forBrk k0 p2 s fun k (s : Dfs) => do
        let pi ← rd A.p i
        let j ← rd A.j (pi + k)
        let mj ← rd s.marks j
        if mj ≠ 0 then .ok (.cont s)
        else do
          let pstack ← wr s.pstack head (k + 1)
          let xj ← wr s.xj (head + 1) j
          .ok (.brk { s with pstack := pstack, xj := xj, h := s.h + 1 })
      if k = p2 then do
        let s ← dfs_pop s
        .ok (.cont s)
      else .ok (.cont s)

/-- `spasm_dfs` (src/spasm_reach.c:21-82); the returned `top` and the modified arrays are in the
final state.  The bound `2 m + 1` on the number of iterations is shown to suffice. -/
def dfs (jstart : Nat) (A : Csr) (top : Nat) (xj pstack marks : Array Nat) (qinv : Array Int) :
    C Dfs := do
  let xj ← wr xj 0 jstart
  whileFuel (2 * A.m + 1) ⟨top, 1, xj, pstack, marks⟩ (dfs_step A qinv)

/-- `spasm_reach` (src/spasm_reach.c:98-135). -/
def reach (A B : Csr) (k l : Nat) (xj pstack marks : Array Nat) (qinv : Array Int) : C Dfs := do
  let lo ← rd B.p k
  let hi ← rd B.p (k + 1)
  let s ← forRange lo hi ⟨A.m, 0, xj, pstack, marks⟩ fun px (s : Dfs) => do
    let j ← rd B.j px
    let mj ← rd s.marks j
    if mj = 0 then dfs j A s.top s.xj s.pstack s.marks qinv
    else .ok s
  let marks ← forRange s.top l s.marks fun px marks => do
    let j ← rd s.xj px
    wr marks j 0
  .ok { s with marks := marks }

end Spasm
