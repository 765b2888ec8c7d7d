import Verif.Model.Scc
import Verif.Model.Matching
import Verif.Model.Permutation

/-
Model of src/spasm_dm.c.
-/

namespace Spasm

/-- Variables of `bfs`: the marks of rows and columns, the queue and its ends. -/
structure Bfs where
  wi : Array Int
  wj : Array Int
  queue : Array Nat
  head : Nat
  tail : Nat

/-- Unmatched rows are put in the queue (src/spasm_dm.c:31-37). -/
def bfs_start (n : Nat) (jmatch : Array Int) (s : Bfs) : C Bfs :=
  forRange 0 n s fun i s => do
    let v ← rd jmatch i
    if 0 ≤ v then .ok s
    else do
      let wi ← wr s.wi i 0
      let queue ← wr s.queue s.tail i
      .ok { s with wi := wi, queue := queue, tail := s.tail + 1 }

/-- Row `I` is marked and put in the queue, unless it has been already (src/spasm_dm.c:52-56). -/
def bfs_enqueue (mark : Int) (I : Int) (s : Bfs) : C Bfs := do
  let w ← rdI s.wi I
  if 0 ≤ w then .ok s
  else do
    let i ← idx I
    let wi ← wr s.wi i mark
    let queue ← wr s.queue s.tail i
    .ok { s with wi := wi, queue := queue, tail := s.tail + 1 }

/-- The entry at position `px` (src/spasm_dm.c:47-56). -/
def bfs_entry (A : Csr) (imatch : Array Int) (mark : Int) (px : Nat) (s : Bfs) : C Bfs := do
  let j ← rd A.j px
  let w ← rd s.wj j
  if 0 ≤ w then .ok s
  else do
    let wj ← wr s.wj j mark
    let I ← rd imatch j
    bfs_enqueue mark I { s with wj := wj }

/-- `bfs` (src/spasm_dm.c:22-59).  The number of iterations of the `while` loop is bounded in the
model; the theorems show that the bound is not reached. -/
def dm_bfs (A : Csr) (wi wj : Array Int) (queue : Array Nat) (imatch jmatch : Array Int)
    (mark : Int) : C Bfs := do
  let s ← bfs_start A.n jmatch ⟨wi, wj, queue, 0, 0⟩
  whileFuel (A.n + 1) s fun s => do
    if s.head < s.tail then do
      let i ← rd s.queue s.head
      let lo ← rd A.p i
      let hi ← rd A.p (i + 1)
      let s ← forRange lo hi { s with head := s.head + 1 } fun px s => bfs_entry A imatch mark px s
      .ok (.cont s)
    else .ok (.brk s)

/-- `collect_unmatched` (src/spasm_dm.c:63-70); returns `p` and `rr`. -/
def collect_unmatched (n : Nat) (wi : Array Int) (p : Array Nat) (rr : Array Int) (set : Nat) :
    C (Array Nat × Array Int) := do
  let kr ← rd rr set
  let (p, kr) ← forRange 0 n (p, kr) fun i (s : Array Nat × Int) => do
    let w ← rd wi i
    if w = 0 then do
      let p ← wrI s.1 s.2 i
      .ok (p, s.2 + 1)
    else .ok s
  let rr ← wr rr (set + 1) kr
  .ok (p, rr)

/-- `collect_matched` (src/spasm_dm.c:75-87); returns `p`, `q`, `cc` and `rr`.  Storing a negative
`imatch[j]` in `p` is an error in the model. -/
def collect_matched (n : Nat) (wj imatch : Array Int) (p q : Array Nat) (cc rr : Array Int)
    (set : Nat) (mark : Int) : C (Array Nat × Array Nat × Array Int × Array Int) := do
  let kc ← rd cc set
  let kr ← rd rr (set - 1)
  let (p, q, kr, kc) ← forRange 0 n (p, q, kr, kc) fun j (s : Array Nat × Array Nat × Int × Int) => do
    let w ← rd wj j
    if w ≠ mark then .ok s
    else do
      let i ← rd imatch j
      let i ← idx i
      let p ← wrI s.1 s.2.2.1 i
      let q ← wrI s.2.1 s.2.2.2 j
      .ok (p, q, s.2.2.1 + 1, s.2.2.2 + 1)
  let cc ← wr cc (set + 1) kc
  let rr ← wr rr set kr
  .ok (p, q, cc, rr)

/-- The matching (src/spasm_dm.c:96-104); returns `jmatch` and `imatch`. -/
def dm_matching (jk : Junk) (A At : Csr) : C (Array Int × Array Int) :=
  if A.n < A.m then do
    let (_, jmatch, imatch) ← maximum_matching jk A (mkArr A.n jk.int) (mkArr A.m jk.int)
    .ok (jmatch, imatch)
  else do
    let (_, imatch, jmatch) ← maximum_matching jk At (mkArr A.m jk.int) (mkArr A.n jk.int)
    .ok (jmatch, imatch)

/-- The rows and columns are collected, class by class (src/spasm_dm.c:131-137); returns `p`, `q`,
`cc` and `rr`. -/
def dm_collect (A : Csr) (imatch wi wj : Array Int) (p q : Array Nat) (rr cc : Array Int) :
    C (Array Nat × Array Nat × Array Int × Array Int) := do
  let (q, cc) ← collect_unmatched A.m wj q cc 0
  let (p, q, cc, rr) ← collect_matched A.m wj imatch p q cc rr 1 1
  let (p, q, cc, rr) ← collect_matched A.m wj imatch p q cc rr 2 (-1)
  let (p, q, cc, rr) ← collect_matched A.m wj imatch p q cc rr 3 3
  let (p, rr) ← collect_unmatched A.n wi p rr 3
  .ok (p, q, cc, rr)

/-- The coarse decomposition (src/spasm_dm.c:106-139). -/
def dm_coarse (jk : Junk) (A At : Csr) (jmatch imatch : Array Int) : C Dm := do
  let DM := dm_alloc jk A.n A.m
  let wj ← forRange 0 A.m DM.c fun j wj => wr wj j (-1)
  let wi ← forRange 0 A.n DM.r fun i wi => wr wi i (-1)
  let s ← dm_bfs A wi wj DM.p imatch jmatch 3
  let p := s.queue
  let t ← dm_bfs At s.wj s.wi DM.q jmatch imatch 1
  let wj := t.wi
  let wi := t.wj
  let (p, q, cc, rr) ← dm_collect A imatch wi wj p t.queue DM.rr DM.cc
  .ok { DM with p := p, q := q, r := wi, c := wj, rr := rr, cc := cc }

/-- The fine decomposition (src/spasm_dm.c:143-174). -/
def dm_fine (jk : Junk) (A : Csr) (DM : Dm) : C Dm := do
  let rr1 ← rd DM.rr 1
  let rr2 ← rd DM.rr 2
  let cc2 ← rd DM.cc 2
  let cc3 ← rd DM.cc 3
  let qinv ← pinv jk (some DM.q) A.m
  let B ← permute jk A (some DM.p) qinv false
  let Cm ← submatrix jk B rr1 rr2 cc2 cc3 false
  let S ← strongly_connected_components jk Cm
  let a ← idx rr1
  let b ← idx rr2
  let (p, _) ← range_pvec DM.p a b S.p
  let a ← idx cc2
  let b ← idx cc3
  let (q, _) ← range_pvec DM.q a b S.q
  let r ← wr DM.r 0 0
  let r ← forRange 0 (S.nb + 1) r fun i r => do
    let v ← rd S.r i
    wr r (i + 1) (rr1 + v)
  let r ← wr r (S.nb + 2) (A.n : Int)
  let c ← wr DM.c 0 0
  let c ← forRange 0 (S.nb + 1) c fun i c => do
    let v ← rd S.c i
    wr c (i + 1) (cc2 + v)
  let c ← wr c (S.nb + 2) (A.m : Int)
  .ok { DM with p := p, q := q, r := r, c := c, nb := S.nb + 2 }

/-- `spasm_dulmage_mendelsohn` (src/spasm_dm.c:90-177). -/
def dulmage_mendelsohn (jk : Junk) (A : Csr) : C Dm := do
  let At ← transpose jk A false
  let (jmatch, imatch) ← dm_matching jk A At
  let DM ← dm_coarse jk A At jmatch imatch
  let rr2 ← rd DM.rr 2
  let rr1 ← rd DM.rr 1
  if rr2 - rr1 = 0 then .ok DM else dm_fine jk A DM

end Spasm
