import Verif.Model.Csr

/-
Model of src/spasm_triplet.c and of the triplet part of src/spasm_util.c.
-/

namespace Spasm

/-- `struct spasm_triplet` (src/spasm.h:52-62); `nzmax` is the size of the arrays. -/
structure Triplet where
  n : Nat
  m : Nat
  nz : Nat
  i : Array Nat
  j : Array Nat
  x : Option (Array Int)
  F : Field
  deriving DecidableEq, Inhabited

/-- `spasm_triplet_alloc` (src/spasm_util.c:105-117). -/
def triplet_alloc (jk : Junk) (n m nzmax : Nat) (prime : Int) (with_values : Bool) : C Triplet := do
  let F ← field_init prime
  .ok { n := n, m := m, nz := 0, i := mkArr nzmax jk.nat, j := mkArr nzmax jk.nat,
        x := if with_values then some (mkArr nzmax jk.int) else none, F := F }

/-- `spasm_triplet_realloc` (src/spasm_util.c:139-150); see `csr_realloc`. -/
def triplet_realloc (jk : Junk) (T : Triplet) (nzmax : Int) : C Triplet :=
  let k := if nzmax < 0 then T.nz else nzmax.toNat
  .ok { T with i := reallocArr T.i k jk.nat, j := reallocArr T.j k jk.nat,
               x := if k = 0 ∧ jk.null0 then none
                    else T.x.map (fun a => reallocArr a k jk.int) }

/-- `spasm_add_entry` (src/spasm_triplet.c:7-24). -/
def add_entry (jk : Junk) (T : Triplet) (i j : Int) (x : Int) : C Triplet := do
  cassert (decide (i ≥ 0) && decide (j ≥ 0))
  let px := T.nz
  let T ← if px = T.i.size then triplet_realloc jk T (1 + 2 * (T.i.size : Int)) else .ok T
  let finish (T : Triplet) : C Triplet := do
    let ti ← wr T.i px i.toNat
    let tj ← wr T.j px j.toNat
    .ok { T with i := ti, j := tj, nz := T.nz + 1, n := max T.n (i.toNat + 1),
                 m := max T.m (j.toNat + 1) }
  match T.x with
  | some a => do
    let xp ← ZZp_init T.F x
    if xp = 0 then .ok T
    else do
      let a ← wr a px xp
      finish { T with x := some a }
  | none => finish T

/-- `spasm_triplet_transpose` (src/spasm_triplet.c:26-34). -/
def triplet_transpose (T : Triplet) : Triplet :=
  { T with i := T.j, j := T.i, m := T.n, n := T.m }

/-- `remove_explicit_zeroes` (src/spasm_triplet.c:36-58), in place. -/
def remove_explicit_zeroes (jk : Junk) (A : Csr) : C Csr :=
  if A.x.isNone then .ok A
  else do
    let (A, _) ← forRange 0 A.n (A, 0) fun i (s : Csr × Nat) => do
      let lo ← rd s.1.p i
      let hi ← rd s.1.p (i + 1)
      let (A, nz) ← forRange lo hi s fun it (s : Csr × Nat) => do
        let j ← rd s.1.j it
        let x ← rdX s.1 it
        if x = 0 then .ok s
        else do
          let A ← s.1.setJ s.2 j
          let A ← A.setX s.2 x
          .ok (A, s.2 + 1)
      let A ← A.setP (i + 1) nz
      .ok (A, nz)
    csr_realloc jk A (-1)

/-- `deduplicate` (src/spasm_triplet.c:61-96), in place. -/
def deduplicate (jk : Junk) (A : Csr) : C Csr := do
  let n := A.n
  let v : Array Int := mkArr A.m fun _ => -1
  let (A, _, nz) ← forRange 0 n (A, v, 0) fun i (s : Csr × Array Int × Nat) => do
    let p := s.2.2
    let lo ← rd s.1.p i
    let hi ← rd s.1.p (i + 1)
    let (A, v, nz) ← forRange lo hi s fun it (s : Csr × Array Int × Nat) => do
      let A := s.1
      let v := s.2.1
      let nz := s.2.2
      let j ← rd A.j it
      cassert (decide (j < A.m))
      let vj ← rd v j
      if vj < (p : Int) then do
        let v ← wr v j (nz : Int)
        let A ← A.setJ nz j
        let A ← if A.x.isSome then do
            let x ← rdX A it
            A.setX nz x
          else .ok A
        .ok (A, v, nz + 1)
      else if A.x.isSome then do
        let px ← idx vj
        let a ← rdX A px
        let b ← rdX A it
        let c ← ZZp_add A.F a b
        let A ← A.setX px c
        .ok (A, v, nz)
      else .ok (A, v, nz)
    let A ← A.setP i p
    .ok (A, v, nz)
  let A ← A.setP n nz
  csr_realloc jk A (-1)

/-- The first part of `spasm_compress` (src/spasm_triplet.c:99-148): bucket sort by rows.
`T->field->p` is the prime. -/
def compress_sort (jk : Junk) (T : Triplet) : C Csr := do
  let A ← csr_alloc jk T.n T.m T.nz T.F.p T.x.isSome
  let w ← forRange 0 T.nz (mkArr T.n fun _ => 0) fun it w => do
    let i ← rd T.i it
    cassert (decide (i < T.n))
    let c ← rd w i
    wr w i (c + 1)
  let (A, w, sum) ← forRange 0 T.n (A, w, 0) fun k (s : Csr × Array Nat × Nat) => do
    let A ← s.1.setP k s.2.2
    let c ← rd s.2.1 k
    let t ← rd A.p k
    let w ← wr s.2.1 k t
    .ok (A, w, s.2.2 + c)
  let A ← A.setP T.n sum
  let (A, _) ← forRange 0 T.nz (A, w) fun k (s : Csr × Array Nat) => do
    let i ← rd T.i k
    let px ← rd s.2 i
    let w ← wr s.2 i (px + 1)
    let j ← rd T.j k
    let A ← s.1.setJ px j
    let A ← if A.x.isSome then do
        let tx ← deref T.x
        let v ← rd tx k
        A.setX px v
      else .ok A
    .ok (A, w)
  .ok A

/-- `spasm_compress` (src/spasm_triplet.c:99-158); the progress messages are not modelled. -/
def compress (jk : Junk) (T : Triplet) : C Csr := do
  let A ← compress_sort jk T
  let A ← deduplicate jk A
  remove_explicit_zeroes jk A

end Spasm
