import Verif.Model.Csr

/-
Model of src/spasm_permutation.c, src/spasm_transpose.c and src/spasm_submatrix.c.

Entries of permutations are natural numbers (in C: `int`).
-/

namespace Spasm

/-- `(p != NULL) ? p[i] : i`. -/
def permAt (p : Option (Array Nat)) (i : Nat) : C Nat :=
  match p with
  | none => .ok i
  | some a => rd a i

/-- `spasm_pvec` (src/spasm_permutation.c:19-27). `x` and `b` do not overlap; returns `x`. -/
def pvec (p : Option (Array Nat)) (b x : Array Int) (n : Nat) : C (Array Int) :=
  forRange 0 n x fun i x => do
    let j ← permAt p i
    let v ← rd b j
    wr x i v

/-- `spasm_ipvec` (src/spasm_permutation.c:37-46). -/
def ipvec (p : Option (Array Nat)) (b x : Array Int) (n : Nat) : C (Array Int) :=
  forRange 0 n x fun i x => do
    let j ← permAt p i
    let v ← rd b i
    wr x j v

/-- `spasm_pinv` (src/spasm_permutation.c:49-61). -/
def pinv (jk : Junk) (p : Option (Array Nat)) (n : Nat) : C (Option (Array Nat)) :=
  match p with
  | none => .ok none
  | some p => do
    let r ← forRange 0 n (mkArr n jk.nat) fun k pinv => do
      let i ← rd p k
      wr pinv i k
    .ok (some r)

/-- `spasm_permute` (src/spasm_permutation.c:68-103). -/
def permute (jk : Junk) (A : Csr) (p qinv : Option (Array Nat)) (values : Bool) : C Csr := do
  let B ← csr_alloc jk A.n A.m A.nzmax A.F.p (values && A.x.isSome)
  let (B, nnz) ← forRange 0 A.n (B, 0) fun i (s : Csr × Nat) => do
    let B ← s.1.setP i s.2
    let j ← permAt p i
    let lo ← rd A.p j
    let hi ← rd A.p (j + 1)
    forRange lo hi (B, s.2) fun t (s : Csr × Nat) => do
      let j ← rd A.j t
      let jj ← permAt qinv j
      let B ← s.1.setJ s.2 jj
      let B ← copyX A t B s.2
      .ok (B, s.2 + 1)
  B.setP A.n nnz

/-- `spasm_random_permutation` (src/spasm_permutation.c:105-117); `rand i` is the
value returned by the call of `rand()` made for index `i`. -/
def random_permutation (jk : Junk) (rand : Nat → Nat) (n : Nat) : C (Array Nat) := do
  let p ← forRange 0 n (mkArr n jk.nat) fun i p => wr p i i
  forRange 0 (n - 1) p fun k p => do
    let i := n - 1 - k
    let j := rand i % i
    let tmp ← rd p i
    let pj ← rd p j
    let p ← wr p i pj
    wr p j tmp

/-- `spasm_range_pvec` (src/spasm_permutation.c:120-129); returns `x` and `p`. -/
def range_pvec (x : Array Nat) (a b : Nat) (p : Array Nat) : C (Array Nat × Array Nat) := do
  let p ← forRange 0 (b - a) p fun i p => do
    let k ← rd p i
    let v ← rd x (a + k)
    wr p i v
  let x ← forRange 0 (b - a) x fun i x => do
    let v ← rd p i
    wr x (a + i) v
  .ok (x, p)

/-- `spasm_transpose` (src/spasm_transpose.c:5-52). -/
def transpose (jk : Junk) (A : Csr) (keep_values : Bool) : C Csr := do
  let nz ← nnz A
  let T ← csr_alloc jk A.m A.n nz A.F.p (keep_values && A.x.isSome)
  -- column counts
  let w ← forRange 0 A.n (mkArr A.m fun _ => 0) fun i w => do
    let lo ← rd A.p i
    let hi ← rd A.p (i + 1)
    forRange lo hi w fun px w => do
      let j ← rd A.j px
      let c ← rd w j
      wr w j (c + 1)
  -- column pointers
  let (T, w, sum) ← forRange 0 A.m (T, w, 0) fun j (s : Csr × Array Nat × Nat) => do
    let T ← s.1.setP j s.2.2
    let c ← rd s.2.1 j
    let t ← rd T.p j
    let w ← wr s.2.1 j t
    .ok (T, w, s.2.2 + c)
  let T ← T.setP A.m sum
  -- dispatch
  let (T, _) ← forRange 0 A.n (T, w) fun i (s : Csr × Array Nat) => do
    let lo ← rd A.p i
    let hi ← rd A.p (i + 1)
    forRange lo hi s fun px (s : Csr × Array Nat) => do
      let j ← rd A.j px
      let py ← rd s.2 j
      let T ← s.1.setJ py i
      let T ← copyX A px T py
      let w ← wr s.2 j (py + 1)
      .ok (T, w)
  .ok T

/-- `spasm_submatrix` (src/spasm_submatrix.c:7-43). -/
def submatrix (jk : Junk) (A : Csr) (r0 r1 c0 c1 : Int) (with_values : Bool) : C Csr := do
  let Bn := max 0 (r1 - r0)
  let Bm := max 0 (c1 - c0)
  let p1 ← rdI A.p r1
  let p0 ← rdI A.p r0
  let B ← csr_alloc jk Bn.toNat Bm.toNat (p1 - p0) A.F.p (A.x.isSome && with_values)
  -- the loop counter is `i = r0 + d`
  let (B, k) ← forRange 0 (r1 - r0).toNat (B, 0) fun d (s : Csr × Nat) => do
    let B ← s.1.setP d s.2
    let i ← idx (r0 + d)
    let lo ← rd A.p i
    let hi ← rd A.p (i + 1)
    forRange lo hi (B, s.2) fun px (s : Csr × Nat) => do
      let j ← rd A.j px
      if c0 ≤ (j : Int) ∧ (j : Int) < c1 then do
        let B ← s.1.setJ s.2 (j - c0).toNat
        let B ← copyX A px B s.2
        .ok (B, s.2 + 1)
      else .ok s
  let e ← idx (r1 - r0)
  let B ← B.setP e k
  csr_realloc jk B (-1)

end Spasm
