import Verif.Model.Schur
import Verif.Model.Gplu
import Verif.Model.Datatype

/-
Model of the dense part of the echelonization: `spasm_schur_dense`, `spasm_schur_dense_randomized`
(src/spasm_schur.c:195-413), and the transfer of dense echelon forms into the factorization
(src/spasm_echelonize.c:189-313).

Not modelled: messages.
-/

namespace Spasm

open Finset

/-- `prepare_q` (src/spasm_schur.c:195-203): lists the columns without a pivot. -/
def prepare_q (m : Nat) (qinv : Array Int) (q : Array Nat) : C (Array Nat) := do
  let (q, _) ← forRange 0 m (q, 0) fun j (s : Array Nat × Nat) => do
    let qj ← rd qinv j
    if qj < 0 then do
      let q ← wr s.1 s.2 j
      .ok (q, s.2 + 1)
    else .ok s
  .ok q

/-! ### spasm_schur_dense

The threads share `S`, `p_out`, and `L` (whose entries are seen as triples).  Everything else they
write is private, and what they read is not modified meanwhile; hence each thread is a list of actions
on the shared data, computed beforehand. -/

/-- An action on the shared data. -/
inductive DAct
  /-- `p_out[k] = i` (src/spasm_schur.c:294) -/
  | out (k i : Nat)
  /-- a cell of `S` (`gather`, src/spasm_schur.c:205-233, with the conversion to the datatype) -/
  | cell (k : Nat) (v : ℚ)
  /-- an atomic capture of `L->nz`, then the writes in `Li`, `Lj`, `Lx` (src/spasm_schur.c:312-317) -/
  | app (e : Nat × Nat × Int)
  deriving DecidableEq

/-- A thread: captured slot, actions to do. -/
structure DThread where
  slot : Option Nat
  todo : List DAct

/-- The shared data and the threads. -/
structure DSt (T : Nat) where
  S : Array ℚ
  po : Array Nat
  nz : Nat
  buf : Array (Nat × Nat × Int)
  th : Fin T → DThread

/-- One step of thread `t`; `none` if it has nothing left to do. -/
def dstep {T : Nat} (t : Fin T) (s : DSt T) : Option (C (DSt T)) :=
  match s.th t with
  | ⟨_, []⟩ => none
  | ⟨_, .out k i :: as⟩ => some (do
      let po ← wr s.po k i
      .ok { s with po := po, th := Function.update s.th t ⟨none, as⟩ })
  | ⟨_, .cell k v :: as⟩ => some (do
      let S ← wr s.S k v
      .ok { s with S := S, th := Function.update s.th t ⟨none, as⟩ })
  | ⟨none, .app e :: as⟩ =>
      some (.ok { s with nz := s.nz + 1, th := Function.update s.th t ⟨some s.nz, .app e :: as⟩ })
  | ⟨some k, .app e :: as⟩ => some (do
      let b ← wr s.buf k e
      .ok { s with buf := b, th := Function.update s.th t ⟨none, as⟩ })

/-- States reachable by interleaving the steps of the threads in any order. -/
inductive DReach {T : Nat} (s0 : DSt T) : DSt T → Prop
  | init : DReach s0 s0
  | step {s s' : DSt T} {t : Fin T} : DReach s0 s → dstep t s = some (.ok s') → DReach s0 s'

/-- All threads are done. -/
def DSt.Finished {T : Nat} (s : DSt T) : Prop := ∀ t, (s.th t).todo = []

/-- `gather` (src/spasm_schur.c:205-233) into the row that starts at cell `off`. -/
def gather (n : Nat) (xj : Array Nat) (x : Array Int) (dt : Datatype) (off : Nat) : C (List DAct) :=
  forRange 0 n [] fun k (l : List DAct) => do
    let j ← rd xj k
    let v ← rd x j
    .ok (l ++ [.cell (off + k) (dt.conv v)])

/-- The elimination coefficients that go to `L` (src/spasm_schur.c:306-318). -/
def dense_coeffs (hasL : Bool) (m iorig : Nat) (w : Dfs) (x qinv : Array Int) : C (List DAct) :=
  if hasL then
    forRange w.top m [] fun px (l : List DAct) => do
      let j ← rd w.xj px
      let i ← rd qinv j
      let v ← rd x j
      if i < 0 ∨ v = 0 then .ok l
      else .ok (l ++ [.app (iorig, i.toNat, v)])
  else .ok []

/-- The body of the parallel loop for row `k` of `S` (src/spasm_schur.c:292-318), with the workspace of
the thread. -/
def schur_dense_row (A U : Csr) (qinv : Array Int) (hasL : Bool) (p_in : Option (Array Nat))
    (dt : Datatype) (q p : Array Nat) (k : Nat) (w : Dfs) (x : Array Int) :
    C (Dfs × Array Int × List DAct) := do
  let i ← rd p k
  let iorig ← permAt p_in i
  let x ← forRange 0 A.m x fun j x => wr x j 0
  let (w, x) ← sparse_triangular_solve U A i w x qinv
  let cells ← gather (A.m - U.n) q x dt (k * (A.m - U.n))
  let apps ← dense_coeffs hasL A.m iorig w x qinv
  .ok (w, x, .out k iorig :: (cells ++ apps))

/-- The iterations `ks` of the parallel loop, in order. -/
def schur_dense_rows (A U : Csr) (qinv : Array Int) (hasL : Bool) (p_in : Option (Array Nat))
    (dt : Datatype) (q p : Array Nat) : List Nat → Dfs → Array Int → C (List DAct)
  | [], _, _ => .ok []
  | k :: ks, w, x => do
    let (w, x, l) ← schur_dense_row A U qinv hasL p_in dt q p k w x
    let ls ← schur_dense_rows A U qinv hasL p_in dt q p ks w x
    .ok (l ++ ls)

/-- One thread: allocates `x` and `xj`, clears `xj` (src/spasm_schur.c:284-287). -/
def schur_dense_thread (jk : Junk) (A U : Csr) (qinv : Array Int) (hasL : Bool)
    (p_in : Option (Array Nat)) (dt : Datatype) (q p : Array Nat) (ks : List Nat) : C (List DAct) :=
  let z := mkArr A.m fun _ => 0
  schur_dense_rows A U qinv hasL p_in dt q p ks ⟨0, 0, z, z, z⟩ (mkArr A.m jk.int)

/-- The reallocation of `L` (src/spasm_schur.c:271-276). -/
def schur_dense_room (jk : Junk) (n : Nat) (U : Csr) (L : Option Triplet) : C (Option Triplet) :=
  match L with
  | none => .ok none
  | some L => do
    let L ← triplet_realloc jk L ((L.nz + (1 + n * U.n) : Nat) : Int)
    .ok (some L)

/-- `L->i`, `L->j`, `L->x` as an array of triples. -/
def Triplet.buf (L : Triplet) : Array (Nat × Nat × Int) :=
  mkArr L.i.size fun k => (L.i.g k, L.j.g k, (L.x.getD #[]).g k)

/-- Initial state of the shared data. -/
def dense_init {T : Nat} (S : Array ℚ) (p_out : Array Nat) (L : Option Triplet)
    (jobs : Fin T → List DAct) : DSt T :=
  { S := S, po := p_out, nz := match L with | some L => L.nz | none => 0,
    buf := match L with | some L => L.buf | none => #[], th := fun t => ⟨none, jobs t⟩ }

/-- `L` in the final state. -/
def DSt.toTriplet {T : Nat} (s : DSt T) (L : Triplet) : Triplet :=
  { L with nz := s.nz, i := s.buf.map (·.1), j := s.buf.map (·.2.1), x := some (s.buf.map (·.2.2)) }

/-- The arguments of `spasm_schur_dense`: `A`, `p`, `n`, `p_in`, `U`, `qinv`, `L`, `S`, `datatype`, `q`,
`p_out`. -/
structure DenseIn where
  A : Csr
  p : Array Nat
  n : Nat
  p_in : Option (Array Nat)
  U : Csr
  qinv : Array Int
  L : Option Triplet
  S : Array ℚ
  dt : Datatype
  q : Array Nat
  p_out : Array Nat

/-- What it modifies: `S`, `q`, `p_out`, `L`. -/
structure DenseOut where
  S : Array ℚ
  q : Array Nat
  p_out : Array Nat
  L : Option Triplet

/-- `o` is a possible outcome of `spasm_schur_dense` (src/spasm_schur.c:257-333): there is a number of
threads, an assignment of the iterations to the threads, and an interleaving leading to it. -/
def SchurDenseRun (jk : Junk) (a : DenseIn) (o : DenseOut) : Prop :=
  ∃ (T : Nat) (ks : Fin T → List Nat) (jobs : Fin T → List DAct) (L1 : Option Triplet) (s : DSt T),
    ∑ t, (ks t : Multiset Nat) = Multiset.range a.n ∧
    prepare_q a.A.m a.qinv a.q = .ok o.q ∧
    schur_dense_room jk a.n a.U a.L = .ok L1 ∧
    (∀ t, schur_dense_thread jk a.A a.U a.qinv a.L.isSome a.p_in a.dt o.q a.p (ks t) = .ok (jobs t)) ∧
    DReach (dense_init a.S a.p_out L1 jobs) s ∧ s.Finished ∧
    o.S = s.S ∧ o.p_out = s.po ∧ o.L = L1.map s.toTriplet

/-! ### spasm_schur_dense_randomized -/

/-- One random combination (src/spasm_schur.c:373-386).  `draw k i` is the value of call `i` to
`spasm_prng_ZZp` after `spasm_prng_seed_simple(prime, k, 0)`, a balanced residue by C36; `rnd k i` is
the value of `rand()` in iteration `i`. -/
def random_comb (A : Csr) (p : Array Nat) (n : Nat) (w : Int) (draw : Nat → Int) (rnd : Nat → Nat)
    (y : Array Int) : C (Array Int) :=
  if w ≤ 0 then
    forRange 0 n y fun i y => do
      let inew ← rd p i
      scatter A inew (draw i) y
  else
    forRange 0 w.toNat y fun i y => do
      let inew ← rd p (rnd i % n)
      scatter A inew (if i = 0 then 1 else draw (i - 1)) y

/-- The elimination of the known pivots (src/spasm_schur.c:389-394). -/
def random_elim (U : Csr) (y : Array Int) : C (Array Int) :=
  forRange 0 U.n y fun i y => do
    let pi ← rd U.p i
    let j ← rd U.j pi
    let yj ← rd y j
    if yj = 0 then .ok y
    else do
      let m ← ZZp_neg yj
      scatter U i m y

/-- Row `k` of `S` (src/spasm_schur.c:364-398). -/
def random_row (jk : Junk) (A : Csr) (p : Array Nat) (n : Nat) (U : Csr) (S : Array ℚ) (dt : Datatype)
    (q : Array Nat) (w : Int) (draw : Nat → Int) (rnd : Nat → Nat) (k : Nat) : C (Array ℚ) := do
  let y ← forRange 0 A.m (mkArr A.m jk.int) fun j y => wr y j 0
  let y ← random_comb A p n w draw rnd y
  let y ← random_elim U y
  forRange 0 (A.m - U.n) S fun t S => do
    let j ← rd q t
    let v ← rd y j
    wr S (k * (A.m - U.n) + t) (dt.conv v)

/-- `spasm_schur_dense_randomized` (src/spasm_schur.c:346-413); returns `S` and `q`.  The iterations of
the parallel loop write distinct rows of `S` and share nothing else (except `rand()`, whose values are
arbitrary), so that they are run in order. -/
def schur_dense_randomized (jk : Junk) (A : Csr) (p : Array Nat) (n : Nat) (U : Csr) (qinv : Array Int)
    (S : Array ℚ) (dt : Datatype) (q : Array Nat) (N : Nat) (w : Int) (draw : Nat → Nat → Int)
    (rnd : Nat → Nat → Nat) : C (Array ℚ × Array Nat) := do
  cassert (decide (n > 0))
  let q ← prepare_q A.m qinv q
  let S ← forRange 0 N S fun k S => random_row jk A p n U S dt q w (draw k) (rnd k) k
  .ok (S, q)

/-! ### Transfer of dense echelon forms -/

/-- FFLAS-FFPACK, through src/spasm_ffpack.cpp:22-95.  `rref prime n m S = (rank, S, qinv)` and
`lu prime n m S = (rank, S, p, qinv)`: `S` is modified, the permutations `qinv` (of size `m`) and `p` (of
size `n`) are outputs.  (In C they are written at the beginning of arrays that may be larger.) -/
structure Ffpack where
  rref : Int → Nat → Nat → Array ℚ → Nat × Array ℚ × Array Nat
  lu : Int → Nat → Nat → Array ℚ → Nat × Array ℚ × Array Nat × Array Nat

/-- The entries of row `i` other than its pivot (src/spasm_echelonize.c:210-218). -/
def dense_rref_rest (rr Sm : Nat) (S : Array ℚ) (dt : Datatype) (Sqinv q : Array Nat) (i : Nat) (U : Csr)
    (unz : Nat) : C (Csr × Nat) :=
  forRange rr Sm (U, unz) fun k (s : Csr × Nat) => do
    let j ← rd Sqinv k
    let x ← datatype_read S (i * Sm + k) dt
    if x = 0 then .ok s
    else do
      let c ← rd q j
      let U ← s.1.setJ s.2 c
      let U ← U.setX s.2 x
      .ok (U, s.2 + 1)

/-- One row (src/spasm_echelonize.c:205-220).  State: `U`, `unz`, `Uqinv`. -/
def dense_rref_row (rr Sm : Nat) (S : Array ℚ) (dt : Datatype) (Sqinv q : Array Nat) (i : Nat)
    (s : Csr × Nat × Array Int) : C (Csr × Nat × Array Int) := do
  let j ← rd Sqinv i
  let c ← rd q j
  let U ← s.1.setJ s.2.1 c
  let U ← U.setX s.2.1 1
  let qinv ← wr s.2.2 c (U.n : Int)
  let (U, unz) ← dense_rref_rest rr Sm S dt Sqinv q i U (s.2.1 + 1)
  let U ← { U with n := U.n + 1 }.setP (U.n + 1) unz
  .ok (U, unz, qinv)

/-- `update_U_after_rref` (src/spasm_echelonize.c:192-223). -/
def update_U_after_rref (jk : Junk) (rr Sm : Nat) (S : Array ℚ) (dt : Datatype) (Sqinv q : Array Nat)
    (fact : Lu) : C Lu := do
  let unz ← nnz fact.U
  let U ← csr_realloc jk fact.U ((unz + (1 + Sm - rr) * rr : Nat) : Int)
  let (U, unz, qinv) ← forRange 0 rr (U, unz, fact.qinv) fun i s => dense_rref_row rr Sm S dt Sqinv q i s
  let k ← nnz U
  cassert (decide (unz = k))
  .ok { fact with U := U, qinv := qinv }

/-- Pivotal rows are marked (src/spasm_echelonize.c:251-255). -/
def lu_mark (r : Nat) (Sp : Array Nat) (p_in : Option (Array Nat)) (pivotal : Array Bool) :
    C (Array Bool) :=
  forRange 0 r pivotal fun i pivotal => do
    let pi ← rd Sp i
    let iorig ← permAt p_in pi
    wr pivotal iorig true

/-- The new entries of `L` on rows that are not pivotal are removed (src/spasm_echelonize.c:258-269). -/
def lu_stack (pivotal : Array Bool) (lnz_before : Nat) (L : Triplet) : C (Triplet × Nat) :=
  forRange lnz_before L.nz (L, lnz_before) fun px (s : Triplet × Nat) => do
    let i ← rd s.1.i px
    let b ← rd pivotal i
    if b = false then .ok s
    else do
      let j ← rd s.1.j px
      let a ← deref s.1.x
      let x ← rd a px
      let L ← s.1.store s.2 i j x
      .ok (L, s.2 + 1)

/-- The part for incomplete factorizations (src/spasm_echelonize.c:250-271). -/
def lu_incomplete (complete : Bool) (r : Nat) (Sp : Array Nat) (p_in : Option (Array Nat))
    (lnz_before : Nat) (pivotal : Array Bool) (L : Triplet) : C (Array Bool × Triplet × Nat) :=
  if complete then .ok (pivotal, L, L.nz)
  else do
    let pivotal ← lu_mark r Sp p_in pivotal
    let (L, lnz) ← lu_stack pivotal lnz_before L
    .ok (pivotal, L, lnz)

/-- The new entries of row `i` of `L` (src/spasm_echelonize.c:277-285). -/
def lu_rowL (Sm r : Nat) (S : Array ℚ) (dt : Datatype) (un i iorig : Nat) (L : Triplet) (lnz : Nat) :
    C (Triplet × Nat) :=
  forRange 0 (min (i + 1) r) (L, lnz) fun j (s : Triplet × Nat) => do
    let v ← datatype_read S (i * Sm + j) dt
    if v = 0 then .ok s
    else do
      let L ← s.1.store s.2 iorig (un + j) v
      .ok (L, s.2 + 1)

/-- `if (i < r) Lp[U->n + i] = iorig` (src/spasm_echelonize.c:286-287). -/
def lu_register (i r un iorig : Nat) (Lp : Array Nat) : C (Array Nat) :=
  if i < r then wr Lp (un + i) iorig else .ok Lp

/-- The new entries of `L` (src/spasm_echelonize.c:274-288).  State: `L`, `lnz`, `Lp`. -/
def lu_addL (n Sm r : Nat) (S : Array ℚ) (dt : Datatype) (Sp : Array Nat) (p_in : Option (Array Nat))
    (complete : Bool) (un : Nat) (s : Triplet × Nat × Array Nat) : C (Triplet × Nat × Array Nat) :=
  forRange 0 (if complete then n else r) s fun i (s : Triplet × Nat × Array Nat) => do
    let pi ← rd Sp i
    let iorig ← permAt p_in pi
    let (L, lnz) ← lu_rowL Sm r S dt un i iorig s.1 s.2.1
    let Lp ← lu_register i r un iorig s.2.2
    .ok (L, lnz, Lp)

/-- A new row of `U` (src/spasm_echelonize.c:294-311).  State: `U`, `unz`, `Uqinv`. -/
def lu_rowU (Sm : Nat) (S : Array ℚ) (dt : Datatype) (Sqinv q : Array Nat) (i : Nat)
    (s : Csr × Nat × Array Int) : C (Csr × Nat × Array Int) := do
  let j ← rd Sqinv i
  let c ← rd q j
  let U ← s.1.setJ s.2.1 c
  let U ← U.setX s.2.1 1
  let qinv ← wr s.2.2 c (U.n : Int)
  let (U, unz) ← forRange (i + 1) Sm (U, s.2.1 + 1) fun j (s : Csr × Nat) => do
    let jnew ← rd Sqinv j
    let c ← rd q jnew
    let x ← datatype_read S (i * Sm + j) dt
    let U ← s.1.setJ s.2 c
    let U ← U.setX s.2 x
    .ok (U, s.2 + 1)
  let U ← { U with n := U.n + 1 }.setP (U.n + 1) unz
  .ok (U, unz, qinv)

/-- `update_fact_after_LU` (src/spasm_echelonize.c:228-313); returns `fact` and `pivotal`. -/
def update_fact_after_LU (jk : Junk) (n Sm r : Nat) (S : Array ℚ) (dt : Datatype)
    (Sp Sqinv q : Array Nat) (p_in : Option (Array Nat)) (lnz_before : Nat) (complete : Bool)
    (pivotal : Array Bool) (fact : Lu) : C (Lu × Array Bool) := do
  let L ← deref fact.Ltmp
  let Lp ← deref fact.p
  let unz ← nnz fact.U
  let U ← csr_realloc jk fact.U ((unz + (1 + 2 * Sm - r) * r : Nat) : Int)
  let L ← triplet_realloc jk L ((L.nz + (2 * n - r + 1) * r / 2 : Nat) : Int)
  let (pivotal, L, lnz) ← lu_incomplete complete r Sp p_in lnz_before pivotal L
  let (L, lnz, Lp) ← lu_addL n Sm r S dt Sp p_in complete U.n (L, lnz, Lp)
  let (U, _, qinv) ← forRange 0 r (U, unz, fact.qinv) fun i s => lu_rowU Sm S dt Sqinv q i s
  .ok ({ fact with U := U, qinv := qinv, p := some Lp, Ltmp := some { L with nz := lnz } }, pivotal)

end Spasm
