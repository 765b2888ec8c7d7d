import Verif.Model.ZZp

/-
Model of the CSR data structure (src/spasm.h:37-50, src/spasm_util.c) and of
src/spasm_scatter.c, src/spasm_spmv.c.

Dimensions, row pointers and column indices are natural numbers (in C: `int` and `i64`;
the model has no limit on sizes, so that size computations never overflow).
-/

namespace Spasm

/-- `struct spasm_csr` (src/spasm.h:37-50).  `nzmax` is the size of the array `j` (kept equal
by `spasm_csr_alloc` and `spasm_csr_realloc`); `x = none` is a NULL pointer. -/
structure Csr where
  n : Nat
  m : Nat
  p : Array Nat
  j : Array Nat
  x : Option (Array Int)
  F : Field
  deriving DecidableEq, Inhabited

/-- `A->nzmax`. -/
def Csr.nzmax (A : Csr) : Nat := A.j.size

/-- `spasm_nnz` (src/spasm_util.c:35-38): `A->p[A->n]`. -/
def nnz (A : Csr) : C Nat := rd A.p A.n

/-- `Ax[px]`, undefined if `A->x` is NULL. -/
def rdX (A : Csr) (px : Nat) : C Int := do
  let ax ← deref A.x
  rd ax px

/-- `Ap[i] = v`. -/
def Csr.setP (A : Csr) (i v : Nat) : C Csr := do
  let p ← wr A.p i v
  .ok { A with p := p }

/-- `Aj[k] = v`. -/
def Csr.setJ (A : Csr) (k v : Nat) : C Csr := do
  let j ← wr A.j k v
  .ok { A with j := j }

/-- `Ax[k] = v`, undefined if `A->x` is NULL. -/
def Csr.setX (A : Csr) (k : Nat) (v : Int) : C Csr := do
  let a ← deref A.x
  let a ← wr a k v
  .ok { A with x := some a }

/-- `if (Bx != NULL) Bx[k] = Ax[t]`. -/
def copyX (A : Csr) (t : Nat) (B : Csr) (k : Nat) : C Csr :=
  if B.x.isSome then do
    let v ← rdX A t
    B.setX k v
  else .ok B

/-- Arbitrary contents of freshly allocated memory. -/
structure Junk where
  nat : Nat → Nat
  int : Nat → Int
  /-- whether `realloc(ptr, 0)` returns NULL (implementation-defined; glibc does) -/
  null0 : Bool

instance : Inhabited Junk := ⟨⟨fun _ => 0, fun _ => 0, true⟩⟩

/-- `spasm_csr_alloc` (src/spasm_util.c:90-102); `malloc` returns memory with contents `jk`
(allocation failure, which exits, is not modelled). -/
def csr_alloc (jk : Junk) (n m nzmax : Nat) (prime : Int) (with_values : Bool) : C Csr := do
  let F ← field_init prime
  let p ← wr (mkArr (n + 1) jk.nat) 0 0
  .ok { n := n, m := m, p := p, j := mkArr nzmax jk.nat,
        x := if with_values then some (mkArr nzmax jk.int) else none, F := F }

/-- `spasm_csr_realloc` (src/spasm_util.c:123-133), `nzmax < 0`: trim to the current number of
entries.  Reallocation to size 0 may turn `A->x` into NULL. -/
def csr_realloc (jk : Junk) (A : Csr) (nzmax : Int) : C Csr := do
  let k ← if nzmax < 0 then nnz A else .ok nzmax.toNat
  .ok { A with j := reallocArr A.j k jk.nat,
               x := if k = 0 ∧ jk.null0 then none
                    else A.x.map (fun a => reallocArr a k jk.int) }

/-- `spasm_csr_resize` (src/spasm_util.c:171-182). -/
def csr_resize (jk : Junk) (A : Csr) (n m : Nat) : C Csr := do
  let p := reallocArr A.p (n + 1) jk.nat
  let p ← if A.n < n then
      forRange A.n (n + 1) p fun i p => do
        let v ← rd p A.n
        wr p i v
    else .ok p
  .ok { A with m := m, p := p, n := n }

/-- `spasm_row_weight` (src/spasm.h:293-297). -/
def row_weight (A : Csr) (i : Nat) : C Nat := do
  let a ← rd A.p i
  let b ← rd A.p (i + 1)
  .ok (b - a)

/-- `spasm_scatter` (src/spasm_scatter.c:7-16): x = x + beta * A[i]. -/
def scatter (A : Csr) (i : Nat) (beta : Int) (x : Array Int) : C (Array Int) := do
  let lo ← rd A.p i
  let hi ← rd A.p (i + 1)
  forRange lo hi x fun px x => do
    let j ← rd A.j px
    let v ← rdX A px
    let xj ← rd x j
    let r ← ZZp_axpy A.F beta v xj
    wr x j r

/-- `spasm_xApy` (src/spasm_spmv.c:10-21): y = x*A + y. -/
def xApy (x : Array Int) (A : Csr) (y : Array Int) : C (Array Int) :=
  forRange 0 A.n y fun i y => do
    let lo ← rd A.p i
    let hi ← rd A.p (i + 1)
    forRange lo hi y fun px y => do
      let j ← rd A.j px
      let xi ← rd x i
      let v ← rdX A px
      let yj ← rd y j
      let r ← ZZp_axpy A.F xi v yj
      wr y j r

/-- `spasm_Axpy` (src/spasm_spmv.c:27-38): y = A*x + y. -/
def Axpy (A : Csr) (x : Array Int) (y : Array Int) : C (Array Int) :=
  forRange 0 A.n y fun i y => do
    let lo ← rd A.p i
    let hi ← rd A.p (i + 1)
    forRange lo hi y fun px y => do
      let j ← rd A.j px
      let xj ← rd x j
      let v ← rdX A px
      let yi ← rd y i
      let r ← ZZp_axpy A.F xj v yi
      wr y i r

end Spasm
