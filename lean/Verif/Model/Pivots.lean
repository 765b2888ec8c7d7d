import Verif.Model.Reach
import Verif.Model.Lu
import Verif.Model.Permutation

/-
Model of the sequential part of src/spasm_pivots.c: the two Faugère-Lachartre searches, the
reordering of the pivots and their extraction.  (The parallel search is in Model/Greedy.)
-/

namespace Spasm

/-- `register_pivot` (src/spasm_pivots.c:11-32): returns `r`, `pinv`, `qinv`. -/
def register_pivot (i j : Nat) (pinv qinv : Array Int) : C (Nat × Array Int × Array Int) := do
  let pinvi ← rd pinv i
  let qinvj ← rd qinv j
  cassert (decide (pinvi < 0) || decide (qinvj < 0))
  let (r, qinv) ← if pinvi ≠ -1 then do
      let q ← rdI qinv pinvi
      cassert (decide (q = (i : Int)))
      cassert (decide (pinvi ≠ (j : Int)))
      let qinv ← wrI qinv pinvi (-1)
      .ok (0, qinv)
    else .ok (1, qinv)
  let (r, pinv) ← if qinvj ≠ -1 then do
      let p ← rdI pinv qinvj
      cassert (decide (p = (j : Int)))
      cassert (decide (qinvj ≠ (i : Int)))
      let pinv ← wrI pinv qinvj (-1)
      .ok (0, pinv)
    else .ok (r, pinv)
  let pinv ← wr pinv i (j : Int)
  let qinv ← wr qinv j (i : Int)
  .ok (r, pinv, qinv)

/-- The leftmost column of row `i` (`m + 1` if the row is empty), src/spasm_pivots.c:52-57. -/
def leftmost (A : Csr) (i : Nat) : C Nat := do
  let lo ← rd A.p i
  let hi ← rd A.p (i + 1)
  forRange lo hi (A.m + 1) fun px j => do
    let x ← rdX A px
    cassert (decide (x ≠ 0))
    let c ← rd A.j px
    .ok (if c < j then c else j)

/-- `spasm_find_FL_pivots` (src/spasm_pivots.c:41-66): returns `npiv`, `pinv`, `qinv`. -/
def find_FL_pivots (A : Csr) (pinv qinv : Array Int) : C (Nat × Array Int × Array Int) :=
  forRange 0 A.n (0, pinv, qinv) fun i (s : Nat × Array Int × Array Int) => do
    let j ← leftmost A i
    if j = A.m + 1 then .ok s
    else do
      let qj ← rd s.2.2 j
      let b ← if qj = -1 then .ok true else do
          let wi ← row_weight A i
          let k ← idx qj
          let wk ← row_weight A k
          .ok (decide (wi < wk))
      if b then do
        let r ← register_pivot i j s.2.1 s.2.2
        .ok (s.1 + r.1, r.2.1, r.2.2)
      else .ok s

/-- `for (px = Ap[i]; px < Ap[i + 1]; px++) w[Aj[px]] = 0` (src/spasm_pivots.c:92-95, 113-114). -/
def obstruct (A : Csr) (i : Nat) (w : Array Int) : C (Array Int) := do
  let lo ← rd A.p i
  let hi ← rd A.p (i + 1)
  forRange lo hi w fun px w => do
    let j ← rd A.j px
    wr w j 0

/-- State of the search on columns: npiv, pinv, qinv, w. -/
structure FLc where
  npiv : Nat
  pinv : Array Int
  qinv : Array Int
  w : Array Int

/-- `spasm_find_FL_column_pivots` (src/spasm_pivots.c:76-122): returns `npiv`, `pinv`, `qinv`. -/
def find_FL_column_pivots (A : Csr) (pinv qinv : Array Int) :
    C (Nat × Array Int × Array Int) := do
  let w : Array Int := mkArr A.m fun _ => 1
  let w ← forRange 0 A.n w fun i w => do
    let pi ← rd pinv i
    if pi < 0 then .ok w else obstruct A i w
  let s ← forRange 0 A.n (⟨0, pinv, qinv, w⟩ : FLc) fun i s => do
    let pi ← rd s.pinv i
    if pi ≥ 0 then .ok s
    else do
      let lo ← rd A.p i
      let hi ← rd A.p (i + 1)
      let (_, s) ← forBrk lo hi s fun px (s : FLc) => do
        let j ← rd A.j px
        let wj ← rd s.w j
        if wj = 0 then .ok (.cont s)
        else do
          let qj ← rd s.qinv j
          if qj ≥ 0 then .ok (.cont s)
          else do
            let r ← register_pivot i j s.pinv s.qinv
            let w ← obstruct A i s.w
            .ok (.brk ⟨s.npiv + r.1, r.2.1, r.2.2, w⟩)
      .ok s
  .ok (s.npiv, s.pinv, s.qinv)

/-- `spasm_pivots_find` (src/spasm_pivots.c:305-319).  The outcome of the parallel search
`spasm_find_cycle_free_pivots` depends on the schedule: it is the parameter `greedy`
(`none`: the search is disabled). -/
def pivots_find (A : Csr)
    (greedy : Option (Array Int → Array Int → C (Nat × Array Int × Array Int))) :
    C (Nat × Array Int × Array Int) := do
  let qinv : Array Int := mkArr A.m fun _ => -1
  let pinv : Array Int := mkArr A.n fun _ => -1
  let (npiv1, pinv, qinv) ← find_FL_pivots A pinv qinv
  let (npiv2, pinv, qinv) ← find_FL_column_pivots A pinv qinv
  match greedy with
  | none => .ok (npiv1 + npiv2, pinv, qinv)
  | some f => do
    let (npiv3, pinv, qinv) ← f pinv qinv
    .ok (npiv1 + npiv2 + npiv3, pinv, qinv)

/-- `spasm_pivots_reorder` (src/spasm_pivots.c:325-362): returns `p`.  The workspaces `xj` and
`pstack` and the initial `p` have arbitrary contents. -/
def pivots_reorder (jk : Junk) (A : Csr) (pinv qinv : Array Int) (npiv : Nat) (p : Array Nat) :
    C (Array Nat) := do
  let s ← forRange 0 A.m ⟨A.m, 0, mkArr A.m jk.nat, mkArr A.m jk.nat, mkArr A.m fun _ => 0⟩
    fun j (s : Dfs) => do
      let qj ← rd qinv j
      if qj = -1 then .ok s
      else do
        let mj ← rd s.marks j
        if mj = 0 then dfs j A s.top s.xj s.pstack s.marks qinv
        else .ok s
  let (k, p) ← forRange s.top A.m ((0, p) : Nat × Array Nat) fun px (t : Nat × Array Nat) => do
    let j ← rd s.xj px
    let i ← rd qinv j
    if i ≠ -1 then do
      let i ← idx i
      let pi ← rd pinv i
      cassert (decide (pi = (j : Int)))
      let p ← wr t.2 t.1 i
      .ok (t.1 + 1, p)
    else .ok t
  cassert (decide (k = npiv))
  let (k, p) ← forRange 0 A.n (k, p) fun i (t : Nat × Array Nat) => do
    let pi ← rd pinv i
    if pi = -1 then do
      let p ← wr t.2 t.1 i
      .ok (t.1 + 1, p)
    else .ok t
  cassert (decide (k = A.n))
  .ok p

/-- What `spasm_pivots_extract_structural` modifies: `U`, `unz`, `Uqinv`, `Ltmp`, `Lp`. -/
structure Ext where
  U : Csr
  unz : Nat
  qinv : Array Int
  L : Option Triplet
  Lp : Option (Array Nat)

/-- The pivot of row `i`: its first nonzero entry on column `j` (0 if there is none),
src/spasm_pivots.c:413-419. -/
def find_pivot (A : Csr) (i j : Nat) : C Int := do
  let lo ← rd A.p i
  let hi ← rd A.p (i + 1)
  let (_, v) ← forBrk lo hi (0 : Int) fun px v => do
    let c ← rd A.j px
    if c = j then do
      let x ← rdX A px
      if x ≠ 0 then .ok (.brk x) else .ok (.cont v)
    else .ok (.cont v)
  .ok v

/-- Appending the entries of row `i` except those on column `j`, multiplied by `alpha`
(src/spasm_pivots.c:434-440). -/
def copy_rest (A : Csr) (i j : Nat) (alpha : Int) (U : Csr) (unz : Nat) : C (Csr × Nat) := do
  let lo ← rd A.p i
  let hi ← rd A.p (i + 1)
  forRange lo hi (U, unz) fun px (s : Csr × Nat) => do
    let c ← rd A.j px
    if j = c then .ok s
    else do
      let U ← s.1.setJ s.2 c
      let x ← rdX A px
      let y ← ZZp_mul A.F alpha x
      let U ← U.setX s.2 y
      .ok (U, s.2 + 1)

/-- The pivot is recorded in `L` and in the row permutation, if there is an `L`
(src/spasm_pivots.c:421-426). -/
def extract_L (jk : Junk) (p_in : Option (Array Nat)) (i : Nat) (pivot : Int) (s : Ext) :
    C (Option Triplet × Option (Array Nat)) :=
  match s.L with
  | some L => do
    let i_out ← permAt p_in i
    let L ← add_entry jk L i_out s.U.n pivot
    let Lp ← deref s.Lp
    let Lp ← wr Lp s.U.n i_out
    .ok (some L, some Lp)
  | none => .ok (none, s.Lp)

/-- One iteration of the copy of the pivotal rows (src/spasm_pivots.c:406-442). -/
def extract_row (jk : Junk) (A : Csr) (p_in : Option (Array Nat)) (pinv qinv : Array Int)
    (i : Nat) (s : Ext) : C Ext := do
  let j ← rd pinv i
  cassert (decide (j ≥ 0))
  let j ← idx j
  let qj ← rd qinv j
  cassert (decide (qj = (i : Int)))
  let Uqinv ← wr s.qinv j (s.U.n : Int)
  let pivot ← find_pivot A i j
  cassert (decide (pivot ≠ 0))
  let (L, Lp) ← extract_L jk p_in i pivot s
  let alpha ← ZZp_inverse A.F pivot
  let U ← s.U.setJ s.unz j
  let U ← U.setX s.unz 1
  let (U, unz) ← copy_rest A i j alpha U (s.unz + 1)
  let U ← { U with n := U.n + 1 }.setP (U.n + 1) unz
  .ok ⟨U, unz, Uqinv, L, Lp⟩

/-- The reallocation of `U` before the copy (src/spasm_pivots.c:393-394). -/
def extract_room (jk : Junk) (U : Csr) (size : Nat) : C Csr :=
  if size > U.nzmax then csr_realloc jk U (size : Int) else .ok U

/-- The second part of `spasm_pivots_extract_structural` (src/spasm_pivots.c:383-447), once the
pivots are found and ordered. -/
def extract_rows (jk : Junk) (A : Csr) (p_in : Option (Array Nat)) (fact : Lu)
    (pinv qinv : Array Int) (npiv : Nat) (p : Array Nat) : C Lu := do
  let pivot_nnz ← forRange 0 npiv 0 fun k acc => do
    let i ← rd p k
    let w ← row_weight A i
    .ok (acc + w)
  let unz ← nnz fact.U
  let U ← extract_room jk fact.U (unz + pivot_nnz)
  let s ← forRange 0 npiv (⟨U, unz, fact.qinv, fact.Ltmp, fact.p⟩ : Ext) fun k s => do
    let i ← rd p k
    extract_row jk A p_in pinv qinv i s
  cassert (decide (s.unz ≤ s.U.nzmax))
  .ok { fact with U := s.U, qinv := s.qinv, Ltmp := s.L, p := s.Lp }

/-- `spasm_pivots_extract_structural` (src/spasm_pivots.c:369-448): returns `npiv`, `fact`, `p`. -/
def pivots_extract_structural (jk : Junk) (A : Csr) (p_in : Option (Array Nat)) (fact : Lu)
    (p : Array Nat)
    (greedy : Option (Array Int → Array Int → C (Nat × Array Int × Array Int))) :
    C (Nat × Lu × Array Nat) := do
  let (npiv, pinv, qinv) ← pivots_find A greedy
  let p ← pivots_reorder jk A pinv qinv npiv p
  let fact ← extract_rows jk A p_in fact pinv qinv npiv p
  .ok (npiv, fact, p)

end Spasm
