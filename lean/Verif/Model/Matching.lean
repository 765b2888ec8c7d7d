import Verif.Model.Csr

/-
Model of src/spasm_matching.c.

Not modelled: progress messages.
-/

namespace Spasm

/-- `spasm_augment_matching` (src/spasm_matching.c:6-14); returns `p` and `qinv`. -/
def augment_matching (head : Nat) (istack jstack : Array Nat) (p qinv : Array Int) :
    C (Array Int × Array Int) :=
  -- the loop counter is `px = head - d`
  forRange 0 (head + 1) (p, qinv) fun d (s : Array Int × Array Int) => do
    let i ← rd istack (head - d)
    let j ← rd jstack (head - d)
    let qinv ← wr s.2 j (i : Int)
    let p ← wr s.1 i (j : Int)
    .ok (p, qinv)

/-- Variables of the search for an augmenting path (src/spasm_matching.c:48-56); `h` is
`head + 1`. -/
structure MPath where
  h : Nat
  istack : Array Nat
  jstack : Array Nat
  pstack : Array Nat
  marks : Array Int
  look : Array Nat
  p : Array Int
  qinv : Array Int
  found : Bool

/-- `spasm_lookahead` (src/spasm_matching.c:18-34), with `head = h - 1`; the returned value is in
`found`. -/
def lookahead (A : Csr) (i : Nat) (s : MPath) : C MPath := do
  let lo ← rd A.p i
  let pl ← rd s.look i
  let hi ← rd A.p (i + 1)
  let (px, b) ← forBrk (lo + pl) hi false fun px _ => do
    let j ← rd A.j px
    let q ← rd s.qinv j
    if q < 0 then .ok (.brk true) else .ok (.cont false)
  if b then do
    let look ← wr s.look i (px - lo)
    let j ← rd A.j px
    let jstack ← wr s.jstack (s.h - 1) j
    let (p, qinv) ← augment_matching (s.h - 1) s.istack jstack s.p s.qinv
    .ok { s with look := look, jstack := jstack, p := p, qinv := qinv, found := true }
  else do
    let look ← wr s.look i (hi - lo)
    .ok { s with look := look, found := false }

/-- First visit of row `i` (src/spasm_matching.c:62-68). -/
def path_visit (A : Csr) (istart i : Nat) (s : MPath) : C MPath := do
  let mk ← rd s.marks i
  if mk ≠ (istart : Int) then do
    let marks ← wr s.marks i (istart : Int)
    let s ← lookahead A i { s with marks := marks }
    if s.found then .ok s
    else do
      let pstack ← wr s.pstack (s.h - 1) 0
      .ok { s with pstack := pstack }
  else .ok s

/-- Search of the rest of row `i` (src/spasm_matching.c:70-87). -/
def path_dfs (A : Csr) (istart i : Nat) (s : MPath) : C MPath := do
  let lo ← rd A.p i
  let hi ← rd A.p (i + 1)
  let ps ← rd s.pstack (s.h - 1)
  let (px, b) ← forBrk (lo + ps) hi false fun px _ => do
    let j ← rd A.j px
    let inew ← rd s.qinv j
    cassert (decide (inew ≠ -1))
    let mk ← rdI s.marks inew
    if mk = (istart : Int) then .ok (.cont false) else .ok (.brk true)
  if b then do
    let j ← rd A.j px
    let inew ← rd s.qinv j
    let inew ← idx inew
    let pstack ← wr s.pstack (s.h - 1) (ps + 1)
    let jstack ← wr s.jstack (s.h - 1) j
    let istack ← wr s.istack s.h inew
    .ok { s with pstack := pstack, jstack := jstack, istack := istack, h := s.h + 1 }
  else if px = hi then .ok { s with h := s.h - 1 }
  else .ok s

/-- `spasm_augmenting_path` (src/spasm_matching.c:48-90); the returned value is in `found`.  The
bound on the number of iterations is part of the model: the theorems show that it is never
reached. -/
def augmenting_path (A : Csr) (istart : Nat) (s : MPath) : C MPath := do
  let istack ← wr s.istack 0 istart
  whileFuel (2 * A.n + 2) { s with h := 1, istack := istack, found := false } fun s => do
    if s.h = 0 then .ok (.brk s)
    else do
      let i ← rd s.istack (s.h - 1)
      let s ← path_visit A istart i s
      if s.found then .ok (.brk s)
      else do
        let s ← path_dfs A istart i s
        .ok (.cont s)

/-- One iteration of `spasm_maximum_matching` (src/spasm_matching.c:124-126). -/
def matching_row (A : Csr) (i k : Nat) (s : MPath) : C (Nat × MPath) := do
  let pi ← rd s.p i
  if pi < 0 then do
    let s ← augmenting_path A i s
    .ok (if s.found then k + 1 else k, s)
  else .ok (k, s)

/-- `spasm_maximum_matching` (src/spasm_matching.c:103-137); returns `k`, `p` and `qinv`. -/
def maximum_matching (jk : Junk) (A : Csr) (p qinv : Array Int) :
    C (Nat × Array Int × Array Int) := do
  let r := min A.n A.m
  let qinv ← forRange 0 A.m qinv fun j qinv => wr qinv j (-1)
  let (p, marks, look) ← forRange 0 A.n (p, mkArr A.n jk.int, mkArr A.n jk.nat)
    fun i (s : Array Int × Array Int × Array Nat) => do
      let p ← wr s.1 i (-1)
      let marks ← wr s.2.1 i (-1)
      let look ← wr s.2.2 i 0
      .ok (p, marks, look)
  let (_, k, s) ← forBrk 0 A.n
    (0, (⟨0, mkArr A.n jk.nat, mkArr A.n jk.nat, mkArr A.n jk.nat, marks, look, p, qinv, false⟩ : MPath))
    fun i (s : Nat × MPath) => do
      if s.1 < r then do
        let s ← matching_row A i s.1 s.2
        .ok (.cont s)
      else .ok (.brk s)
  .ok (k, s.p, s.qinv)

/-- `spasm_permute_row_matching` (src/spasm_matching.c:143-156). -/
def permute_row_matching (jk : Junk) (n : Nat) (jmatch : Array Int) (p : Array Nat)
    (qinv : Array Nat) : C (Array Int) :=
  forRange 0 n (mkArr n jk.int) fun i jjmatch => do
    let pi ← rd p i
    let v ← rd jmatch pi
    if v = -1 then wr jjmatch i (-1)
    else do
      let w ← rdI qinv v
      wr jjmatch i (w : Int)

/-- `spasm_permute_column_matching` (src/spasm_matching.c:158-171). -/
def permute_column_matching (jk : Junk) (m : Nat) (imatch : Array Int) (pinv : Array Nat)
    (q : Array Nat) : C (Array Int) :=
  forRange 0 m (mkArr m jk.int) fun j iimatch => do
    let qj ← rd q j
    let v ← rd imatch qj
    if v = -1 then wr iimatch j (-1)
    else do
      let w ← rdI pinv v
      wr iimatch j (w : Int)

/-- `spasm_submatching` (src/spasm_matching.c:178-193). -/
def submatching (jk : Junk) (mt : Array Int) (a b : Nat) (c d : Int) : C (Array Int) :=
  forRange a b (mkArr (b - a) jk.int) fun i pmatch => do
    let v ← rd mt i
    if v = -1 then wr pmatch (i - a) (-1)
    else do
      let pmatch ← wr pmatch (i - a) (v - c)
      cassert (decide (0 ≤ v - c))
      cassert (decide (v - c < d))
      .ok pmatch

end Spasm
