import Verif.Model.Reach
import Verif.Model.Permutation

/-
Model of src/spasm_triangular.c.
-/

namespace Spasm

/-- `spasm_dense_back_solve` (src/spasm_triangular.c:21-53); returns `(b, x)`.  The loop
`for (j = r - 1; j >= 0; j--)` runs over `d = 0, ..., r - 1` with `j = r - 1 - d`. -/
def dense_back_solve (L : Csr) (b x : Array Int) (p : Option (Array Nat)) :
    C (Array Int × Array Int) := do
  let x ← forRange 0 L.n x fun i x => wr x i 0
  forRange 0 L.m (b, x) fun d (s : Array Int × Array Int) => do
    let j := L.m - 1 - d
    let i ← permAt p j
    cassert (decide (i < L.n))
    let lo ← rd L.p i
    let hi ← rd L.p (i + 1)
    let (_, diag) ← forBrk lo hi (0 : Int) fun px (_ : Int) => do
      let c ← rd L.j px
      if c = j then do
        let v ← rdX L px
        .ok (.brk v)
      else .ok (.cont 0)
    cassert (decide (diag ≠ 0))
    let alpha ← ZZp_inverse L.F diag
    let bj ← rd s.1 j
    let xi ← ZZp_mul L.F alpha bj
    let x ← wr s.2 i xi
    let mxi ← ZZp_neg xi
    let b ← scatter L i mxi s.1
    let x ← wr x i xi
    .ok (b, x)

/-- `spasm_dense_forward_solve` (src/spasm_triangular.c:65-89); returns `(b, x, success)`. -/
def dense_forward_solve (U : Csr) (b x : Array Int) (q : Option (Array Nat)) :
    C (Array Int × Array Int × Bool) := do
  cassert (decide (U.n ≤ U.m))
  let x ← forRange 0 U.n x fun i x => wr x i 0
  let (b, x) ← forRange 0 U.n (b, x) fun i (s : Array Int × Array Int) => do
    let j ← permAt q i
    let bj ← rd s.1 j
    if bj = 0 then .ok s
    else do
      let x ← wr s.2 i bj
      let mb ← ZZp_neg bj
      let b ← scatter U i mb s.1
      let bj ← rd b j
      cassert (decide (bj = 0))
      .ok (b, x)
  let (_, ok) ← forBrk 0 U.m true fun j (_ : Bool) => do
    let bj ← rd b j
    if bj ≠ 0 then .ok (.brk false) else .ok (.cont true)
  .ok (b, x, ok)

/-- `spasm_sparse_triangular_solve` (src/spasm_triangular.c:109-147).  The workspace `xj` is
given (and returned, with `top`) as in `reach`. -/
def sparse_triangular_solve (U B : Csr) (k : Nat) (w : Dfs) (x : Array Int) (qinv : Array Int) :
    C (Dfs × Array Int) := do
  let s ← reach U B k U.m w.xj w.pstack w.marks qinv
  let x ← forRange s.top U.m x fun px x => do
    let j ← rd s.xj px
    wr x j 0
  let x ← scatter B k 1 x
  let x ← forRange s.top U.m x fun px x => do
    let j ← rd s.xj px
    let i ← rd qinv j
    if i < 0 then .ok x
    else do
      let i ← idx i
      let backup ← rd x j
      let mxj ← ZZp_neg backup
      let x ← scatter U i mxj x
      let xj ← rd x j
      cassert (decide (xj = 0))
      wr x j backup
  .ok (s, x)

end Spasm
