import Verif.Model.Schur
import Verif.Model.Triplet

/-
Model of `echelonize_GPLU` (src/spasm_echelonize.c:54-191).

Not modelled: messages.
-/

namespace Spasm

/-- Local variables of the main loop (src/spasm_echelonize.c:62-80): `U`, `unz`, `Uqinv`, `L`, `lnz`,
`Lp`, `rows_since_last_pivot`, `early_abort_done`, workspaces `xj` and `x`. -/
structure Gplu where
  U : Csr
  unz : Nat
  qinv : Array Int
  L : Option Triplet
  lnz : Nat
  Lp : Option (Array Nat)
  since : Nat
  done : Bool
  w : Dfs
  x : Array Int

/-- `Li[k] = i; Lj[k] = j; Lx[k] = x` (src/spasm_echelonize.c:125-127, 140-142). -/
def Triplet.store (T : Triplet) (k i j : Nat) (x : Int) : C Triplet := do
  let ti ← wr T.i k i
  let tj ← wr T.j k j
  let a ← deref T.x
  let a ← wr a k x
  .ok { T with i := ti, j := tj, x := some a }

/-- Room for one more row of `U` (src/spasm_echelonize.c:97-98). -/
def gplu_room (jk : Junk) (U : Csr) (unz m : Nat) : C Csr :=
  if unz + m > U.nzmax then csr_realloc jk U ((2 * U.nzmax + m : Nat) : Int) else .ok U

/-- Room for one more row of `L` (src/spasm_echelonize.c:101-102). -/
def gplu_roomL (jk : Junk) (L : Option Triplet) (lnz m : Nat) : C (Option Triplet) :=
  match L with
  | none => .ok none
  | some L =>
    if lnz + m > L.i.size then do
      let L ← triplet_realloc jk L ((2 * L.i.size + m : Nat) : Int)
      .ok (some L)
    else .ok (some L)

/-- The search for a pivot; the entries under pivotal columns go to `L`
(src/spasm_echelonize.c:112-130).  State: `jpiv`, `L`, `lnz`. -/
def gplu_scan (m : Nat) (w : Dfs) (x qinv : Array Int) (i_orig : Nat) (L : Option Triplet)
    (lnz : Nat) : C (Nat × Option Triplet × Nat) :=
  forRange w.top m (m, L, lnz) fun px (s : Nat × Option Triplet × Nat) => do
    let j ← rd w.xj px
    let v ← rd x j
    if v = 0 then .ok s
    else do
      let qj ← rd qinv j
      if qj < 0 then .ok (if j < s.1 then j else s.1, s.2)
      else match s.2.1 with
        | none => .ok s
        | some L => do
          let k ← idx qj
          let L ← L.store s.2.2 i_orig k v
          .ok (s.1, some L, s.2.2 + 1)

/-- The entry of `L` for the pivot (src/spasm_echelonize.c:136-144). -/
def gplu_pivotL (x : Array Int) (i_orig jpiv un : Nat) (L : Option Triplet) (lnz : Nat)
    (Lp : Option (Array Nat)) : C (Option Triplet × Nat × Option (Array Nat)) :=
  match L with
  | none => .ok (none, lnz, Lp)
  | some L => do
    let v ← rd x jpiv
    cassert (decide (v ≠ 0))
    let a ← deref Lp
    let a ← wr a un i_orig
    let L ← L.store lnz i_orig un v
    .ok (some L, lnz + 1, some a)

/-- The new row of `U` except the pivot (src/spasm_echelonize.c:157-165). -/
def gplu_copy (F : Field) (m : Nat) (w : Dfs) (x qinv : Array Int) (beta : Int) (U : Csr)
    (unz : Nat) : C (Csr × Nat) :=
  forRange w.top m (U, unz) fun px (s : Csr × Nat) => do
    let j ← rd w.xj px
    let v ← rd x j
    if v = 0 then .ok s
    else do
      let qj ← rd qinv j
      if qj < 0 then do
        let U ← s.1.setJ s.2 j
        let y ← ZZp_mul F beta v
        let U ← U.setX s.2 y
        .ok (U, s.2 + 1)
      else .ok s

/-- One iteration, without the tests for early abort (src/spasm_echelonize.c:94-171). -/
def gplu_row (jk : Junk) (A : Csr) (p_in : Option (Array Nat)) (inew : Nat) (s : Gplu) : C Gplu := do
  let since := s.since + 1
  let U ← gplu_room jk s.U s.unz A.m
  let L ← gplu_roomL jk s.L s.lnz A.m
  let i_orig ← permAt p_in inew
  let (w, x) ← sparse_triangular_solve U A inew s.w s.x s.qinv
  let (jpiv, L, lnz) ← gplu_scan A.m w x s.qinv i_orig L s.lnz
  if jpiv = A.m then
    .ok { s with U := U, L := L, lnz := lnz, since := since, w := w, x := x }
  else do
    let (L, lnz, Lp) ← gplu_pivotL x i_orig jpiv U.n L lnz s.Lp
    let qinv ← wr s.qinv jpiv (U.n : Int)
    let U ← U.setJ s.unz jpiv
    let U ← U.setX s.unz 1
    let v ← rd x jpiv
    cassert (decide (v ≠ 0))
    let beta ← ZZp_inverse A.F v
    let (U, unz) ← gplu_copy A.F A.m w x qinv beta U (s.unz + 1)
    let U ← { U with n := U.n + 1 }.setP (U.n + 1) unz
    .ok ⟨U, unz, qinv, L, lnz, Lp, 0, false, w, x⟩

/-- The test for early abort (src/spasm_echelonize.c:89-94): is it time, and then its outcome. -/
def gplu_test (test : Bool) (tc : Csr → Array Int → C Bool) (s : Gplu) : C Bool :=
  if test then tc s.U s.qinv else .ok false

/-- `echelonize_GPLU` (src/spasm_echelonize.c:54-191).  `tc U Uqinv` is the probabilistic test
`spasm_echelonize_test_completion(A, p, n, U, Uqinv)`. -/
def gplu (jk : Junk) (A : Csr) (p : Array Nat) (n : Nat) (p_in : Option (Array Nat)) (fact : Lu)
    (tc : Csr → Array Int → C Bool) : C Lu := do
  let r := min A.n A.m
  let unz ← nnz fact.U
  let lnz := match fact.Ltmp with | some L => L.nz | none => 0
  let z := mkArr A.m fun _ => 0
  let (_, s) ← forBrk 0 n
    (⟨fact.U, unz, fact.qinv, fact.Ltmp, lnz, fact.p, 0, false, ⟨0, 0, z, z, z⟩, mkArr A.m jk.int⟩ : Gplu)
    fun i s => do
      if s.L.isNone ∧ s.U.n = r then .ok (.brk s)
      else do
        let test := decide (s.L.isNone ∧ s.done = false ∧ s.since > 10 ∧ s.since > n / 100)
        let stop ← gplu_test test tc s
        if stop then .ok (.brk s)
        else do
          let inew ← rd p i
          let s ← gplu_row jk A p_in inew (if test then { s with done := true } else s)
          .ok (.cont s)
  .ok { fact with U := s.U, qinv := s.qinv, p := s.Lp,
                  Ltmp := s.L.map fun L => { L with nz := s.lnz, m := s.U.n } }

end Spasm
