import Verif.Model.Heap

/-
Memory management of the functions of the library other than those of src/spasm_util.c.  Accesses to the arrays are put
together: what matters is which pointers are used, between which allocations.
-/

namespace Spasm
namespace Heap

/-- Accesses to some entries of a sparse matrix (`A->p`, `A->j`, and `A->x` unless it is `NULL`). -/
def use_csr (A : Ptr) : M Unit := do
  let (p, j, x) ← getCsr A
  loop (do touch p; touch j; touch? x)

/-- Accesses to some entries of arrays. -/
def use (l : List Ptr) : M Unit := loop (touches l)

/-- The pointers of a triplet matrix, or `NULL` if there is no matrix (`(L != NULL) ? L->i : NULL`). -/
def getTriplet? (L : Ptr) : M (Ptr × Ptr × Ptr) := if L.isSome = true then getTriplet L else pure (none, none, none)

/-- A statement `if (L != NULL && ...) spasm_triplet_realloc(L, ...)`. -/
def triplet_grow (L : Ptr) : M Unit := on L.isSome (maybe (triplet_realloc L))

/-! ### src/spasm_triplet.c, src/spasm_io.c -/

/-- `spasm_add_entry` (src/spasm_triplet.c:7-24) -/
def add_entry (T : Ptr) : M Unit := do
  maybe (triplet_realloc T)
  let (i, j, x) ← getTriplet T
  touch? x
  maybe (do touch i; touch j)

/-- `spasm_triplet_transpose` (src/spasm_triplet.c:26-34) -/
def triplet_transpose (T : Ptr) : M Unit := do
  let (i, j, x) ← getTriplet T
  store T (.triplet j i x)

/-- `remove_explicit_zeroes` (src/spasm_triplet.c:36-58) -/
def remove_explicit_zeroes (A : Ptr) : M Unit := do
  let (p, j, x) ← getCsr A
  on x.isSome do
    use [p, j, x]
    csr_realloc A

/-- `deduplicate` (src/spasm_triplet.c:61-96) -/
def deduplicate (A : Ptr) : M Unit := do
  let (p, j, x) ← getCsr A
  let v ← malloc .arr
  loop (do touches [p, j, v]; touch? x)
  free v
  csr_realloc A

/-- `spasm_compress` (src/spasm_triplet.c:99-157) -/
def compress (T : Ptr) : M Ptr := do
  let (Ti, Tj, Tx) ← getTriplet T
  let C ← csr_alloc Tx.isSome
  let w ← malloc .arr
  let (Cp, Cj, Cx) ← getCsr C
  use [Ti, w]
  use [Cp, w]
  loop (do touches [Ti, w, Tj, Cj]; on Cx.isSome (touches [Cx, Tx]))
  free w
  deduplicate C
  remove_explicit_zeroes C
  nnz C
  pure C

/-- `spasm_triplet_load` (src/spasm_io.c:59-159), when the file is accepted. -/
def triplet_load (values : Bool) : M Ptr := do
  let T ← triplet_alloc values
  loop (add_entry T)
  maybe (triplet_realloc T)
  pure T

/-- `spasm_csr_save` (src/spasm_io.c:164-182) -/
def csr_save (A : Ptr) : M Unit := use_csr A

/-- `spasm_triplet_save` (src/spasm_io.c:185-197) -/
def triplet_save (A : Ptr) : M Unit := do
  let (i, j, x) ← getTriplet A
  loop (do touches [i, j]; touch? x)

/-- `spasm_save_pnm` (src/spasm_io.c:203-312).  `DM` may be `NULL`. -/
def save_pnm (A DM : Ptr) : M Unit := do
  let w ← malloc .arr
  use [w]
  use_csr A
  on DM.isSome do
    let (_, _, r, c) ← getDm DM
    use [r, c]
  use [w]
  free w

/-! ### src/spasm_transpose.c, src/spasm_submatrix.c, src/spasm_permutation.c, src/spasm_triangular.c -/

/-- `spasm_transpose` (src/spasm_transpose.c:5-52) -/
def transpose (C : Ptr) (keep_values : Bool) : M Ptr := do
  let (Cp, Cj, Cx) ← getCsr C
  nnz C
  let T ← csr_alloc (keep_values && Cx.isSome)
  let (Tp, Tj, Tx) ← getCsr T
  let w ← malloc .arr
  use [Cp, Cj, w]
  use [Tp, w]
  loop (do touches [Cp, Cj, w, Tj]; on Tx.isSome (touches [Tx, Cx]))
  free w
  pure T

/-- `spasm_submatrix` (src/spasm_submatrix.c:7-43) -/
def submatrix (A : Ptr) (with_values : Bool) : M Ptr := do
  let (Ap, Aj, Ax) ← getCsr A
  touch Ap
  let B ← csr_alloc (Ax.isSome && with_values)
  let (Bp, Bj, Bx) ← getCsr B
  loop (do touches [Bp, Ap, Aj]; maybe (do touch Bj; on Bx.isSome (touches [Bx, Ax])))
  touch Bp
  csr_realloc B
  pure B

/-- `spasm_pinv` (src/spasm_permutation.c:49-62) -/
def pinv (p : Ptr) : M Ptr :=
  if p.isSome = true then do
    let pi ← malloc .arr
    use [pi, p]
    pure pi
  else pure none

/-- `spasm_permute` (src/spasm_permutation.c:68-103) -/
def permute (A p qinv : Ptr) (values : Bool) : M Ptr := do
  let (Ap, Aj, Ax) ← getCsr A
  let C ← csr_alloc (values && Ax.isSome)
  let (Cp, Cj, Cx) ← getCsr C
  loop (do
    touch Cp
    touch? p
    touches [Ap, Aj, Cj]
    touch? qinv
    on Cx.isSome (touches [Cx, Ax]))
  touch Cp
  pure C

/-- `spasm_range_pvec` (src/spasm_permutation.c:120-129) -/
def range_pvec (x p : Ptr) : M Unit := use [p, x]

/-- `spasm_sparse_triangular_solve` (src/spasm_triangular.c:109-156), `spasm_reach` and `spasm_dfs` (src/spasm_reach.c),
`spasm_scatter`; the arrays `x` and `xj` are among `ws`. -/
def sparse_triangular_solve (U B : Ptr) (ws : List Ptr) (qinv : Ptr) : M Unit := do
  use_csr U
  use_csr B
  loop (touchAny ws)
  use [qinv]

/-- `spasm_scatter` (src/spasm_scatter.c:7-16), `spasm_xApy` (src/spasm_spmv.c:10-24): `A` and vectors. -/
def scatter (A : Ptr) (l : List Ptr) : M Unit := do
  use_csr A
  use l

/-! ### src/spasm_pivots.c -/

/-- `spasm_find_FL_pivots` (src/spasm_pivots.c:41-66) -/
def find_FL_pivots (A pinv qinv : Ptr) : M Unit := do
  use_csr A
  use [pinv, qinv]

/-- `spasm_find_FL_column_pivots` (src/spasm_pivots.c:76-122) -/
def find_FL_column_pivots (A pinv qinv : Ptr) : M Unit := do
  let w ← malloc .arr
  use [w]
  use_csr A
  use [pinv, qinv, w]
  free w

/-- `spasm_find_cycle_free_pivots` (src/spasm_pivots.c:146-294) -/
def find_cycle_free_pivots (A pinv qinv : Ptr) : M Unit := do
  let journal ← malloc .arr
  parallel 2 fun ws => loop (do
    touchAny ws
    use_csr A
    touches [pinv, qinv]
    maybe (touch journal))
  free journal

/-- `spasm_pivots_find` (src/spasm_pivots.c:305-319) -/
def pivots_find (A pinv qinv : Ptr) : M Unit := do
  use [qinv]
  use [pinv]
  find_FL_pivots A pinv qinv
  find_FL_column_pivots A pinv qinv
  maybe (find_cycle_free_pivots A pinv qinv)

/-- `spasm_pivots_reorder` (src/spasm_pivots.c:325-362) -/
def pivots_reorder (A pinv qinv p : Ptr) : M Unit := do
  let xj ← malloc .arr
  let marks ← malloc .arr
  let pstack ← malloc .arr
  use [marks]
  use_csr A
  use [marks, qinv, xj, pstack]
  use [xj, qinv, pinv, p]
  free xj
  free marks
  free pstack

/-- `spasm_pivots_extract_structural` (src/spasm_pivots.c:369-448) -/
def pivots_extract_structural (A p_in fact p : Ptr) : M Unit := do
  let qinv ← malloc .arr
  let pinv ← malloc .arr
  pivots_find A pinv qinv
  pivots_reorder A pinv qinv p
  let (U, Uqinv, Lp, _, L) ← getLu fact
  use [p]
  use_csr A
  nnz U
  maybe (csr_realloc U)
  let (Ap, Aj, Ax) ← getCsr A
  let (Up, Uj, Ux) ← getCsr U
  nnz U
  loop (do
    touches [p, pinv, qinv, Uqinv, Ap, Aj, Ax]
    on L.isSome do
      touch? p_in
      add_entry L
      touch Lp
    touches [Uj, Ux]
    touches [Aj, Ax]
    touch Up)
  free pinv
  free qinv

/-! ### src/spasm_schur.c -/

/-- `spasm_schur_estimate_density` (src/spasm_schur.c:11-44) -/
def schur_estimate_density (A p U qinv : Ptr) : M Unit :=
  maybe (parallel 2 fun ws => loop (do
    touch p
    sparse_triangular_solve U A ws qinv
    use [qinv]))

/-- The critical section and the end of an iteration of `spasm_schur` (src/spasm_schur.c:95-175).  The shared variables `Sj`,
`Sx`, `Li`, `Lj`, `Lx` are updated when the matrices move. -/
def schur_row (A p U qinv S Sp L p_in p_out : Ptr) (ws : List Ptr) (v : (Ptr × Ptr) × Ptr × Ptr × Ptr) :
    M ((Ptr × Ptr) × Ptr × Ptr × Ptr) := do
  touch p
  sparse_triangular_solve U A ws qinv
  let (Sj, Sx) ← (do
    if (← flip) = true then do
      csr_realloc S
      let (_, j, x) ← getCsr S
      pure (j, x)
    else pure v.1)
  let (Li, Lj, Lx) ← (do
    if L.isSome = true then do
      if (← flip) = true then do
        triplet_realloc L
        getTriplet L
      else pure v.2
    else pure v.2)
  touch? p_in
  touch? p_out
  loop (do
    touch qinv
    (do if (← flip) = true then touches [Sj, Sx] else on L.isSome (touches [Li, Lj, Lx])))
  touch Sp
  pure ((Sj, Sx), Li, Lj, Lx)

/-- `spasm_schur` (src/spasm_schur.c:61-193) -/
def schur (A p fact L p_in p_out : Ptr) : M Ptr := do
  let (U, qinv, _, _, _) ← getLu fact
  maybe (schur_estimate_density A p U qinv)
  let S ← csr_alloc true
  let (Sp, Sj, Sx) ← getCsr S
  let v ← getTriplet? L
  let _ ← parallel 2 fun ws => loopS (schur_row A p U qinv S Sp L p_in p_out ws) ((Sj, Sx), v)
  csr_realloc S
  pure S

/-- `spasm_schur_dense` (src/spasm_schur.c:257-334) -/
def schur_dense (A p p_in fact S q p_out : Ptr) : M Unit := do
  let (U, qinv, _, _, L) ← getLu fact
  use [qinv, q]
  on L.isSome (triplet_realloc L)
  let (Li, Lj, Lx) ← getTriplet? L
  parallel 2 fun ws => loop (do
    touch p
    touch? p_in
    touch p_out
    touchAny ws
    sparse_triangular_solve U A ws qinv
    use [q, S]
    on L.isSome (use [qinv, Li, Lj, Lx]))

/-- `spasm_schur_dense_randomized` (src/spasm_schur.c:346-414) -/
def schur_dense_randomized (A p U qinv S q : Ptr) : M Unit := do
  let (Up, Uj, _) ← getCsr U
  use [qinv, q]
  parallel 1 fun ws => loop (do
    loop (touchAny ws)
    loop (do touch p; use_csr A; touchAny ws)
    loop (do touches [Uj, Up]; touchAny ws; use_csr U)
    use [q, S])

/-! ### src/spasm_echelonize.c -/

/-- `spasm_echelonize_test_completion` (src/spasm_echelonize.c:30-51) -/
def test_completion (A p U Uqinv : Ptr) : M Bool := do
  if (← flip) = true then pure true
  else do
    let S ← malloc .arr
    let q ← malloc .arr
    let Sp ← malloc .arr
    schur_dense_randomized A p U Uqinv S q
    use [S, Sp]
    free S
    free Sp
    free q
    flip

/-- An iteration of the loop of `echelonize_GPLU` (src/spasm_echelonize.c:83-177); whether the loop ends. -/
def gplu_row (A p p_in U Uqinv L Lp Up x xj : Ptr) : M Bool := do
  if L.isNone = true ∧ (← flip) = true then pure true
  else do
    let done ← (do if L.isNone = true ∧ (← flip) = true then test_completion A p U Uqinv else pure false)
    if done = true then pure true
    else do
      maybe (csr_realloc U)
      let (_, Uj, Ux) ← getCsr U
      triplet_grow L
      let (Li, Lj, Lx) ← getTriplet? L
      touch p
      touch? p_in
      sparse_triangular_solve U A [x, xj] Uqinv
      loop (do
        touches [xj, x, Uqinv]
        on L.isSome (maybe (touches [Li, Lj, Lx])))
      if (← flip) = true then pure false
      else do
        on L.isSome (touches [x, Lp, Li, Lj, Lx])
        touches [Uqinv, Uj, Ux, x]
        use [xj, x, Uqinv, Uj, Ux]
        touch Up
        pure false

/-- `echelonize_GPLU` (src/spasm_echelonize.c:54-187) -/
def echelonize_GPLU (A p p_in fact : Ptr) : M Unit := do
  let (U, Uqinv, Lp, _, L) ← getLu fact
  let (Up, _, _) ← getCsr U
  nnz U
  let x ← malloc .arr
  let xj ← malloc .arr
  use [xj]
  let _ ← loopB (fun _ : Unit => do
    let b ← gplu_row A p p_in U Uqinv L Lp Up x xj
    pure ((), b)) ()
  free x
  free xj

/-- `update_U_after_rref` (src/spasm_echelonize.c:192-223) -/
def update_U_after_rref (S Sqinv q fact : Ptr) : M Unit := do
  let (U, Uqinv, _, _, _) ← getLu fact
  nnz U
  csr_realloc U
  let (Up, Uj, Ux) ← getCsr U
  loop (do
    touches [Sqinv, q, Uj, Ux, Uqinv]
    use [Sqinv, q, S, Uj, Ux]
    touch Up)
  nnz U

/-- `update_fact_after_LU` (src/spasm_echelonize.c:228-313) -/
def update_fact_after_LU (S Sp Sqinv q p_in pivotal fact : Ptr) : M Unit := do
  let (U, Uqinv, Lp, _, L) ← getLu fact
  nnz U
  let _ ← getTriplet L
  csr_realloc U
  triplet_realloc L
  let (Up, Uj, Ux) ← getCsr U
  let (Li, Lj, Lx) ← getTriplet L
  maybe (do
    loop (do touches [Sp, pivotal]; touch? p_in)
    use [Li, Lj, Lx, pivotal])
  loop (do
    touch Sp
    touch? p_in
    use [S, Li, Lj, Lx]
    maybe (touch Lp))
  loop (do
    touches [Sqinv, q, Uj, Ux, Uqinv]
    use [Sqinv, q, S, Uj, Ux]
    touch Up)

/-- `echelonize_dense_lowrank` (src/spasm_echelonize.c:315-379) -/
def echelonize_dense_lowrank (A p fact : Ptr) : M Unit := do
  let (U, Uqinv, _, _, _) ← getLu fact
  let S ← malloc .arr
  let q ← malloc .arr
  let Sp ← malloc .arr
  let _ ← loopB (fun _ : Unit => do
    nnz U
    schur_dense_randomized A p U Uqinv S q
    use [S, Sp]
    let done ← (do if (← flip) = true then test_completion A p U Uqinv else pure false)
    if done = true then pure ((), true)
    else do
      update_U_after_rref S Sp q fact
      pure ((), false)) ()
  free S
  free q
  free Sp

/-- `echelonize_dense` (src/spasm_echelonize.c:385-463); `hasL` is `opts->L`. -/
def echelonize_dense (hasL : Bool) (A p p_in fact : Ptr) : M Unit := do
  let S ← malloc .arr
  let p_out ← malloc .arr
  let q ← malloc .arr
  let Sqinv ← malloc .arr
  let Sp ← malloc .arr
  let pivotal ← malloc .arr
  use [pivotal]
  let _ ← loopB (fun _ : Unit => do
    on hasL do
      let (_, _, _, _, L) ← getLu fact
      let _ ← getTriplet L
    schur_dense A p p_in fact S q p_out
    (if hasL = true then do
      use [S, Sp, Sqinv]
      update_fact_after_LU S Sp Sqinv q p_out pivotal fact
    else do
      use [S, Sqinv]
      update_U_after_rref S Sqinv q fact)
    let b ← flip
    pure ((), b)) ()
  free S
  free q
  free Sqinv
  free Sp
  free p_out
  free pivotal
  maybe (echelonize_dense_lowrank A p fact)

/-- An iteration of the main loop of `spasm_echelonize` (src/spasm_echelonize.c:523-565): the current matrix `A`, `p_in`,
whether `round > 0`, and `status` (`none` to go on). -/
def echelonize_round (U Uqinv L fact p : Ptr) (v : (Ptr × Ptr) × Bool) : M (((Ptr × Ptr) × Bool) × Option Nat) := do
  let ((A, p_in), later) := v
  nnz A
  if (← flip) = true then pure (v, some 1)
  else do
    pivots_extract_structural A p_in fact p
    if (← flip) = true then pure (v, some 2)
    else do
      schur_estimate_density A p U Uqinv
      if (← flip) = true then pure (v, some 2)
      else do
        let p_out ← malloc .arr
        let S ← schur A p fact L p_in p_out
        on later (csr_free A)
        free p_in
        pure (((S, p_out), true), none)

/-- The main loop of `spasm_echelonize` with `n` rounds left (src/spasm_echelonize.c:522-565): the current matrix, `p_in`,
whether `round > 0`, and `status`. -/
def echelonize_rounds (U Uqinv L fact p : Ptr) :
    Nat → (Ptr × Ptr) × Bool → M (((Ptr × Ptr) × Bool) × Nat)
  | 0, v => pure (v, 0)
  | n + 1, v => do
    let (v, status) ← echelonize_round U Uqinv L fact p v
    match status with
    | some st => pure (v, st)
    | none => echelonize_rounds U Uqinv L fact p n v

/-- The methods that finish (src/spasm_echelonize.c:590-597) -/
def echelonize_finish (hasL : Bool) (A p p_in fact : Ptr) : M Unit := do
  if (← flip) = true ∧ hasL = false then echelonize_dense_lowrank A p fact
  else if (← flip) = true then echelonize_dense hasL A p p_in fact
  else maybe (echelonize_GPLU A p p_in fact)

/-- The label `cleanup` of `spasm_echelonize` (src/spasm_echelonize.c:599-617) -/
def echelonize_cleanup (hasL later : Bool) (A p p_in U L Lp fact : Ptr) : M Ptr := do
  free p
  free p_in
  nnz U
  csr_resize U
  csr_realloc U
  on later (csr_free A)
  on hasL do
    let Lp' ← realloc Lp
    let (U₀, q₀, _, L₀, Lt₀) ← getLu fact
    store fact (.lu U₀ q₀ Lp' L₀ Lt₀)
    let LL ← compress L
    let (U₀, q₀, p₀, _, Lt₀) ← getLu fact
    store fact (.lu U₀ q₀ p₀ LL Lt₀)
    triplet_free L
    let (U₀, q₀, p₀, L₀, _) ← getLu fact
    store fact (.lu U₀ q₀ p₀ L₀ none)
  pure fact

/-- `spasm_echelonize` (src/spasm_echelonize.c:473-617); `hasL` is `opts->L` once the options have been checked. -/
def echelonize (A : Ptr) (hasL : Bool) : M Ptr := do
  nnz A
  let U ← csr_alloc true
  let Uqinv ← malloc .arr
  use [Uqinv]
  let L ← (if hasL = true then triplet_alloc true else pure none)
  let Lp ← (if hasL = true then malloc .arr else pure none)
  on hasL (use [Lp])
  let fact ← malloc (.lu U Uqinv Lp none L)
  let p ← malloc .arr
  let n ← choose
  let (((A', p_in), later), status) ← echelonize_rounds U Uqinv L fact p n ((A, none), false)
  on (status == 0) (use [p])
  on (status != 1) (echelonize_finish hasL A' p p_in fact)
  echelonize_cleanup hasL later A' p p_in U L Lp fact

/-! ### Functions of a factorization -/

/-- An iteration of the loop of `spasm_kernel` and of `spasm_rref` (src/spasm_kernel.c:52-116, src/spasm_rref.c:56-126): `qinv`
is `Utqinv`, or an array of the thread. -/
def rows_row (U qinv K Kp : Ptr) (ws : List Ptr) (v : Ptr × Ptr) : M (Ptr × Ptr) := do
  touch? qinv
  use_csr U
  loop (touchAny ws)
  let (Kj, Kx) ← (do
    if (← flip) = true then do
      csr_realloc K
      let (_, j, x) ← getCsr K
      pure (j, x)
    else pure v)
  loop (touches [Kj, Kx])
  touch Kp
  pure (Kj, Kx)

/-- `spasm_kernel` (src/spasm_kernel.c:9-127) -/
def kernel (fact : Ptr) : M Ptr := do
  let (U, qinv, _, _, _) ← getLu fact
  nnz U
  let Ut ← transpose U true
  let K ← csr_alloc true
  let (Kp, Kj, Kx) ← getCsr K
  let Utqinv ← malloc .arr
  use [qinv, Utqinv]
  let _ ← parallel 2 fun ws => loopS (fun v => do touch qinv; rows_row Ut Utqinv K Kp ws v) (Kj, Kx)
  free Utqinv
  csr_free Ut
  nnz K
  pure K

/-- `spasm_kernel_from_rref` (src/spasm_kernel.c:133-179) -/
def kernel_from_rref (R qinv : Ptr) : M Ptr := do
  let Rt ← transpose R true
  let (Rtp, Rtj, Rtx) ← getCsr Rt
  let p ← malloc .arr
  let (Rp, Rj, _) ← getCsr R
  use [Rp, Rj, p]
  nnz R
  let K ← csr_alloc true
  let (Kp, Kj, Kx) ← getCsr K
  loop (do
    touches [qinv, Kj, Kx]
    use [Rtp, Rtj, Rtx, p, Kj, Kx]
    touch Kp)
  nnz R
  free p
  csr_free Rt
  pure K

/-- `spasm_rref` (src/spasm_rref.c:22-147) -/
def rref (fact Rqinv : Ptr) : M Ptr := do
  let (U, Uqinv, _, _, _) ← getLu fact
  nnz U
  let R ← csr_alloc true
  let (Rp, Rj, Rx) ← getCsr R
  let (Up, Uj, _) ← getCsr U
  let v ← parallel 3 fun ws => do
    touch Uqinv
    loopS (fun v => do touches [Uj, Up]; rows_row U none R Rp ws v) (Rj, Rx)
  use [Rqinv, Rp, v.1]
  nnz R
  pure R

/-- `spasm_dense_forward_solve`, `spasm_dense_back_solve` (src/spasm_triangular.c) in `spasm_solve`
(src/spasm_solve.c:13-47) -/
def solve (fact b x : Ptr) : M Unit := do
  let (U, qinv, p, L, _) ← getLu fact
  let y ← malloc .arr
  let z ← malloc .arr
  let Uq ← malloc .arr
  use [qinv, Uq]
  use [y, b]
  scatter U [y, z, Uq]
  scatter L [z, x]
  touch? p
  free y
  free z
  free Uq

/-- `spasm_gesv` (src/spasm_solve.c:52-93).  Simplification: the threads run one after the other.
`ok` may be `NULL`. -/
def gesv (fact B ok : Ptr) : M Ptr := do
  let (_, _, _, L, _) ← getLu fact
  let _ ← getCsr B
  let _ ← getCsr L
  let X ← triplet_alloc true
  let (Xi, Xj, Xx) ← getTriplet X
  loop (do
    let b ← malloc .arr
    let x ← malloc .arr
    loop (do
      use [b]
      scatter B [b]
      solve fact b x
      touch? ok
      use [x, Xi, Xj, Xx])
    free b
    free x)
  let XX ← compress X
  triplet_free X
  pure XX

/-! ### src/spasm_certificate.c -/

/-- `spasm_certificate_rank_create` (src/spasm_certificate.c:21-95) -/
def certificate_rank_create (A fact : Ptr) : M Ptr := do
  let (U, qinv, p, L, _) ← getLu fact
  let _ ← getCsr U
  let _ ← getCsr L
  let proof ← malloc (.cert none none none none)
  let xx ← malloc .arr
  let yy ← malloc .arr
  let ii ← malloc .arr
  let jj ← malloc .arr
  store proof (.cert ii jj xx yy)
  use [ii, p]
  use [qinv, jj]
  let x ← malloc .arr
  let y ← malloc .arr
  use [y, jj]
  solve fact y x
  use [ii, xx, x, y]
  scatter A [x, y]
  solve fact y x
  use [ii, yy, x]
  free x
  free y
  pure proof

/-- `spasm_certificate_rank_verify` (src/spasm_certificate.c:97-161) -/
def certificate_rank_verify (A proof : Ptr) : M Unit := do
  let (i, j, px, py) ← getCert proof
  use [i, j]
  maybe (do
    let x ← malloc .arr
    let y ← malloc .arr
    use [x, y, i, j, px, py]
    scatter A [x, y]
    use [x, y, i, j, px, py]
    free x
    free y)

/-- `spasm_factorization_verify` (src/spasm_certificate.c:164-219) -/
def factorization_verify (A fact : Ptr) : M Unit := do
  let (U, _, Lp, L, _) ← getLu fact
  let x ← malloc .arr
  let y ← malloc .arr
  let z ← malloc .arr
  let t ← malloc .arr
  let pivotal_row ← malloc .arr
  use [pivotal_row, Lp]
  use [x, y, z, t, pivotal_row]
  scatter A [x, t]
  scatter L [x, y]
  scatter U [y, z]
  use [z, t]
  free pivotal_row
  free x
  free y
  free z
  free t

/-- `spasm_rank_certificate_save` (src/spasm_certificate.c:221-241) -/
def certificate_save (proof : Ptr) : M Unit := do
  let (i, j, x, y) ← getCert proof
  use [i, j, x, y]

/-! ### src/spasm_matching.c, src/spasm_scc.c, src/spasm_dm.c -/

/-- `spasm_maximum_matching` (src/spasm_matching.c:103-137) -/
def maximum_matching (A p qinv : Ptr) : M Unit := do
  let istack ← malloc .arr
  let jstack ← malloc .arr
  let pstack ← malloc .arr
  let marks ← malloc .arr
  let plookahead ← malloc .arr
  use [qinv]
  use [p, marks, plookahead]
  use_csr A
  use [istack, jstack, pstack, marks, plookahead, p, qinv]
  free istack
  free jstack
  free pstack
  free marks
  free plookahead

/-- `spasm_strongly_connected_components` (src/spasm_scc.c:14-117).  The array `prev` is not freed. -/
def strongly_connected_components (A : Ptr) : M Ptr := do
  let (Ap, Aj, _) ← getCsr A
  let P ← dm_alloc
  let (p, q, rr, cc) ← getDm P
  let pstack ← malloc .arr
  let marks ← malloc .arr
  let prev ← malloc .arr
  let stack ← malloc .arr
  let lowlink ← malloc .arr
  use [marks, prev, pstack]
  touch rr
  use [marks, stack, lowlink, pstack, Ap, Aj, prev, p, rr]
  use [p, q, rr, cc]
  free stack
  free pstack
  free marks
  free lowlink
  pure P

/-- `spasm_dulmage_mendelsohn` (src/spasm_dm.c:90-176).  The arrays `jmatch`, `imatch` and `qinv` are not freed. -/
def dulmage_mendelsohn (A : Ptr) : M Ptr := do
  let _ ← getCsr A
  let jmatch ← malloc .arr
  let imatch ← malloc .arr
  let A_t ← transpose A false
  (do if (← flip) = true then maximum_matching A jmatch imatch else maximum_matching A_t imatch jmatch)
  let DM ← dm_alloc
  let (p, q, r, c) ← getDm DM
  use [c]
  use [r]
  use_csr A
  use [r, c, p, imatch, jmatch]
  use_csr A_t
  use [c, r, q, jmatch, imatch]
  csr_free A_t
  use [c, q, p, r, imatch]
  if (← flip) = true then pure DM
  else do
    let qinv ← pinv q
    let B ← permute A p qinv false
    let C ← submatrix B false
    csr_free B
    let SCC ← strongly_connected_components C
    let (_, _, scc_r, scc_c) ← getDm SCC
    let (Sp, _, _, _) ← getDm SCC
    range_pvec p Sp
    let (_, Sq, _, _) ← getDm SCC
    range_pvec q Sq
    use [r, scc_r]
    use [c, scc_c]
    dm_free SCC
    csr_free C
    pure DM

end Heap
end Spasm
