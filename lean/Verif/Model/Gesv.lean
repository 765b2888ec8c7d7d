import Verif.Model.Solve
import Verif.Model.Append

/-
Model of `spasm_gesv` (src/spasm_solve.c:52-93): each thread runs `gesv_thread` on the rows
OpenMP gives it, its appends to the shared triplet matrix (allocated with `Xm * n` entries,
src/spasm_solve.c:60) are interleaved with those of the other threads (`AReach`), and the final
array is compressed (src/spasm_solve.c:90).  The assertions on the primes are not modelled.
-/

namespace Spasm

/-- The body of the parallel loop for row `i` (src/spasm_solve.c:71-85), except that the entries
to be appended to `X` are collected in a list, in program order; `b` and `x` are the buffers of the
thread.  Returns `(b, x, ok[i], entries)`. -/
def gesv_row (jk : Junk) (fact : Lu) (B : Csr) (Xm : Nat) (b x : Array Int) (i : Nat) :
    C (Array Int × Array Int × Bool × List (Nat × Nat × Int)) := do
  let b ← forRange 0 B.m b fun j b => wr b j 0
  let b ← scatter B i 1 b
  let (x, res) ← solve jk fact b x
  let l ← forRange 0 Xm [] fun j (l : List (Nat × Nat × Int)) => do
    let v ← rd x j
    if v ≠ 0 then .ok (l ++ [(i, j, v)]) else .ok l
  .ok (b, x, res, l)

/-- The iterations done by one thread, in order: collects `(i, ok[i])` and the entries it appends
to `X`. -/
def gesv_rows (jk : Junk) (fact : Lu) (B : Csr) (Xm : Nat) :
    List Nat → Array Int → Array Int → C (List (Nat × Bool) × List (Nat × Nat × Int))
  | [], _, _ => .ok ([], [])
  | i :: rows, b, x => do
    let (b, x, res, l) ← gesv_row jk fact B Xm b x i
    let (oks, ls) ← gesv_rows jk fact B Xm rows b x
    .ok ((i, res) :: oks, l ++ ls)

/-- One thread: allocates its buffers (src/spasm_solve.c:67-68) and processes its rows. -/
def gesv_thread (jk : Junk) (fact : Lu) (B : Csr) (Xm : Nat) (rows : List Nat) :
    C (List (Nat × Bool) × List (Nat × Nat × Int)) :=
  gesv_rows jk fact B Xm rows (mkArr B.m jk.int) (mkArr Xm jk.int)

/-- The triplet matrix held by the shared arrays in a state of the append system. -/
def ASt.toTriplet {T : Nat} (s : ASt (Nat × Nat × Int) T) (n m : Nat) (F : Field) : Triplet :=
  { n := n, m := m, nz := s.nz, i := s.buf.map (·.1), j := s.buf.map (·.2.1),
    x := some (s.buf.map (·.2.2)), F := F }

end Spasm
