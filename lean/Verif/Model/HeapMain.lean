import Verif.Model.HeapLib

/-
Memory management of the programs of /repo/tools.  The command lines, the files, and what `argp` and `stdio` allocate are
not modelled.
-/

namespace Spasm
namespace Heap

/-- The beginning of the programs: a matrix is read, possibly transposed, and compressed (tools/rank.c:83-90,
tools/kernel.c:75-81, tools/solve.c:77-79, tools/echelonize.c:61-63, tools/transpose.c:8-12). -/
def load_matrix (values : Bool) : M Ptr := do
  let T ← triplet_load values
  maybe (triplet_transpose T)
  let A ← compress T
  triplet_free T
  pure A

/-- `main` of tools/rank.c:75-128; `cert` is `args.certificate`, `hasL` is `opts->L`. -/
def main_rank (cert hasL : Bool) : M Unit := do
  let A ← load_matrix true
  nnz A
  let fact ← echelonize A (hasL || cert)
  let (U, _, _, _, _) ← getLu fact
  let _ ← getCsr U
  on cert do
    factorization_verify A fact
    factorization_verify A fact
    factorization_verify A fact
    let proof ← certificate_rank_create A fact
    certificate_rank_verify A proof
    maybe (certificate_save proof)
  lu_free fact
  csr_free A

/-- `main` of tools/kernel.c:69-93 -/
def main_kernel (hasL : Bool) : M Unit := do
  let A ← load_matrix true
  let fact ← echelonize A hasL
  csr_free A
  let N ← kernel fact
  nnz N
  csr_save N

/-- `main` of tools/solve.c:69-114 -/
def main_solve : M Unit := do
  let A ← load_matrix true
  let B ← load_matrix true
  nnz A
  let fact ← echelonize A true
  let ok ← malloc .arr
  let X ← gesv fact B ok
  use [ok]
  csr_save X

/-- `main` of tools/echelonize.c:56-82 -/
def main_echelonize (hasL wantRref : Bool) : M Unit := do
  let A ← load_matrix true
  let fact ← echelonize A hasL
  csr_free A
  (if wantRref = true then do
    let Rqinv ← malloc .arr
    let R ← rref fact Rqinv
    csr_save R
    csr_free R
    free Rqinv
  else do
    let (U, _, _, _, _) ← getLu fact
    csr_save U)
  lu_free fact

/-- `main` of tools/transpose.c:5-18 -/
def main_transpose : M Unit := do
  let A ← load_matrix true
  let A_t ← transpose A true
  csr_free A
  csr_save A_t
  csr_free A_t

/-- `main` of tools/bitmap.c:11-75.  The values of the matrix are not read (`prime` is -1). -/
def main_bitmap : M Unit := do
  let A ← load_matrix false
  save_pnm A none
  csr_free A

/-- `main` of tools/stack.c:9-67 -/
def main_stack : M Unit := do
  let A ← triplet_load true
  let (Ai, Aj, _) ← getTriplet A
  let p ← malloc .arr
  let q ← malloc .arr
  use [p]
  use [q]
  use [p, q, Ai, Aj]
  triplet_save A
  triplet_free A
  free p
  free q

/-- `main` of tools/vertical_swap.c:8-21 -/
def main_vertical_swap : M Unit := do
  let A ← triplet_load true
  let (_, Aj, _) ← getTriplet A
  use [Aj]
  triplet_save A

/-- `main` of tools/dm.c:12-109.  What is printed or drawn depends on the options. -/
def main_dm : M Unit := do
  let A ← load_matrix true
  let DM ← dulmage_mendelsohn A
  let (p, q, r, c) ← getDm DM
  let qinv ← pinv q
  let B ← permute A p qinv true
  free qinv
  csr_free A
  maybe (use [r, c])
  maybe (csr_save B)
  maybe (save_pnm B DM)

end Heap
end Spasm
