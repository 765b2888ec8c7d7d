import Verif.Proofs.DenseSolve
import Verif.Proofs.SparseSolve
import Verif.Spec.Check2
import Mathlib.Data.Matrix.Mul
import Mathlib.Algebra.BigOperators.Fin

/-
Properties C12 to C15: graph search and triangular solves.
-/

namespace Spasm

open Finset Matrix

/-- Concrete echelonized matrix modulo 7: [[0, 1, 2, -3], [1, 0, 3, 0]] with pivots on column 1
(row 0) and column 0 (row 1). -/
def exU : Csr :=
  { n := 2, m := 4, p := #[0, 3, 5], j := #[1, 2, 3, 0, 2], x := some #[1, 2, -3, 1, 3],
    F := Field.ofPrime 7 }

def exUqinv : Array Int := #[1, 0, -1, -1]

/-- Concrete right-hand sides modulo 7: [[2, 3, 0, 1], [0, 1, 2, -3]]. -/
def exB : Csr :=
  { n := 2, m := 4, p := #[0, 3, 6], j := #[0, 1, 3, 1, 2, 3], x := some #[2, 3, 1, 1, 2, -3],
    F := Field.ofPrime 7 }

theorem exU_wfv : exU.WFV 7 := Csr.wfv_of_check (by decide +kernel)
theorem exB_wfv : exB.WFV 7 := Csr.wfv_of_check (by decide +kernel)

theorem exU_qinv : QinvOk exU exUqinv := by
  constructor
  · decide
  · decide

theorem exU_acyclic : PAcyclic exU exUqinv :=
  PAcyclic.of_check exU_wfv.toWF exU_qinv (fun j => if j < 2 then 0 else 1) (by decide +kernel)

/-! ### C12 -/

/-- C12. `spasm_reach` terminates without any out-of-bounds access; `xj[top .. m)` lists, without
repetition, exactly the columns reachable from row `k` of `B`; the marks are zero again. -/
theorem C12_reach (A B : Csr) (qinv : Array Int) (hA : A.WF) (hB : B.WF) (hBm : B.m ≤ A.m)
    (hq : QinvOk A qinv) (k : Nat) (hk : k < B.n) (xj pstack marks : Array Nat)
    (hxs : A.m ≤ xj.size) (hps : A.m ≤ pstack.size) (hms : A.m ≤ marks.size)
    (hz : ∀ j, j < A.m → marks.g j = 0) :
    Ok (reach A B k A.m xj pstack marks qinv) (fun s =>
      s.top ≤ A.m ∧
      (∀ t u, s.top ≤ t → t < A.m → s.top ≤ u → u < A.m → s.xj.g t = s.xj.g u → t = u) ∧
      (∀ t, s.top ≤ t → t < A.m → s.xj.g t < A.m) ∧
      (∀ j, (∃ t, s.top ≤ t ∧ t < A.m ∧ s.xj.g t = j) ↔ ReachFrom A B qinv k j) ∧
      (∀ j, j < A.m → s.marks.g j = 0) ∧
      s.xj.size = xj.size ∧ s.pstack.size = pstack.size ∧ s.marks.size = marks.size) := by
  refine (reach_spec hA hB hBm hq hk hxs hps hms hz).mono ?_
  rintro s ⟨h1, h2, h3, h4, h5, h6, h7, h8, -⟩
  exact ⟨h4, h6, h5, h7, h8, h1, h2, h3⟩

/-! ### C13 -/

/-- C13. When the pivot graph has no cycle (besides loops), the list is a topological order: a
pivotal column appears before all the other columns of its pivot row. -/
theorem C13_reach_topological (A B : Csr) (qinv : Array Int) (hA : A.WF) (hB : B.WF)
    (hBm : B.m ≤ A.m) (hq : QinvOk A qinv) (hac : PAcyclic A qinv) (k : Nat) (hk : k < B.n)
    (xj pstack marks : Array Nat)
    (hxs : A.m ≤ xj.size) (hps : A.m ≤ pstack.size) (hms : A.m ≤ marks.size)
    (hz : ∀ j, j < A.m → marks.g j = 0) :
    Ok (reach A B k A.m xj pstack marks qinv) (fun s =>
      ∀ t, s.top ≤ t → t < A.m → 0 ≤ qinv.g (s.xj.g t) →
        ∀ j', A.InRow (qinv.g (s.xj.g t)).toNat j' → j' ≠ s.xj.g t →
          ∃ u, t < u ∧ u < A.m ∧ s.xj.g u = j') := by
  refine (reach_spec hA hB hBm hq hk hxs hps hms hz).mono ?_
  rintro s ⟨-, -, -, -, -, -, -, -, h⟩ t h1 h2 h3 j' h4 h5
  exact h hac t h1 h2 j' ⟨h3, h4⟩ h5

example : exU.WF ∧ exB.WF ∧ exB.m ≤ exU.m ∧ QinvOk exU exUqinv ∧ PAcyclic exU exUqinv ∧
    1 < exB.n ∧ exU.m ≤ (#[5, 5, 5, 5] : Array Nat).size :=
  ⟨exU_wfv.toWF, exB_wfv.toWF, by decide, exU_qinv, exU_acyclic, by decide, by decide⟩

/-! ### C14 -/

/-- C14. `spasm_sparse_triangular_solve`, with unit pivots and a pivot graph without cycles:
`x`, read on the pattern `xj[top .. m)` and zero elsewhere, satisfies
`B[k] = sum over pivotal j of x[j] * U[qinv[j]] + sum over the other j of x[j] * e_j`;
the pattern is the set of columns reachable from row `k`; the workspace is ready for another call;
the initial content of `x` and of the workspace does not matter (no hypothesis on them). -/
theorem C14_sparse_triangular_solve (q : ℕ) (U B : Csr) (qinv : Array Int) (hU : U.WFV q)
    (hB : B.WFV q) (hBm : B.m ≤ U.m) (hq : QinvOk U qinv) (hac : PAcyclic U qinv)
    (hunit : ∀ j, j < U.m → 0 ≤ qinv.g j → U.entry q (qinv.g j).toNat j = 1)
    (k : Nat) (hk : k < B.n) (w : Dfs) (hw : w.Ready U.m) (x : Array Int) (hx : U.m ≤ x.size) :
    Ok (sparse_triangular_solve U B k w x qinv) (fun r =>
      (∀ t u, r.1.top ≤ t → t < U.m → r.1.top ≤ u → u < U.m → r.1.xj.g t = r.1.xj.g u → t = u) ∧
      (∀ j, (∃ t, r.1.top ≤ t ∧ t < U.m ∧ r.1.xj.g t = j) ↔ ReachFrom U B qinv k j) ∧
      (∃ v : Nat → ZMod q,
        (∀ t, r.1.top ≤ t → t < U.m →
          v (r.1.xj.g t) = (r.2.g (r.1.xj.g t) : ZMod q) ∧ Bal q (r.2.g (r.1.xj.g t))) ∧
        (∀ j, (¬ ∃ t, r.1.top ≤ t ∧ t < U.m ∧ r.1.xj.g t = j) → v j = 0) ∧
        ∀ c, c < U.m → B.entry q k c = (if qinv.g c < 0 then v c else 0) +
          ∑ j ∈ range U.m, if 0 ≤ qinv.g j then v j * U.entry q (qinv.g j).toNat c else 0) ∧
      r.1.Ready U.m ∧ r.2.size = x.size) := by
  refine (sparse_triangular_solve_spec hU hB hBm hq hac hunit hk hw hx).mono ?_
  rintro r ⟨h1, h2, h3, h4, h5, h6, h7, h8, v, v1, v2, v3⟩
  refine ⟨h5, h6, ⟨v, ?_, fun j hj => v2 j hj, v3⟩, h1, h3⟩
  intro t t1 t2
  exact ⟨v1 _ ⟨t, t1, t2, rfl⟩, h7 _ ⟨t, t1, t2, rfl⟩⟩

example : exU.WFV 7 ∧ exB.WFV 7 ∧ exB.m ≤ exU.m ∧ QinvOk exU exUqinv ∧ PAcyclic exU exUqinv ∧
    (∀ j, j < exU.m → 0 ≤ exUqinv.g j → exU.entry 7 (exUqinv.g j).toNat j = 1) ∧ 0 < exB.n ∧
    (Dfs.mk 9 9 #[8, 8, 8, 8] #[7, 7, 7, 7] #[0, 0, 0, 0]).Ready exU.m ∧
    exU.m ≤ (#[100, 101, 102, 103] : Array Int).size :=
  ⟨exU_wfv, exB_wfv, by decide, exU_qinv, exU_acyclic, by decide +kernel, by decide,
    ⟨by decide, by decide, by decide, by decide⟩, by decide⟩

/-! ### C15 -/

/-- C15 (back solve). For `L` lower triangular up to the row permutation `p`, with nonzero
diagonal, `spasm_dense_back_solve` returns `x` with `x L = b`. -/
theorem C15_dense_back_solve (q : ℕ) [Fact q.Prime] (L : Csr) (hL : L.WFV q) (hnd : L.NoDup)
    (p : Option (Array Nat)) (hps : PermSize p L.m) (ht : LowerTri q L (permFun p))
    (b x : Array Int) (hb : L.m ≤ b.size) (hx : L.n ≤ x.size)
    (hbs : ∀ j, j < L.m → Small q (b.g j)) :
    Ok (dense_back_solve L b x p) (fun r => r.2.size = x.size ∧
      vec q r.2 L.n ᵥ* L.toMat q = vec q b L.m ∧
      (∀ i, i < L.n → Bal q (r.2.g i)) ∧
      (∀ i, i < L.n → (∀ j, j < L.m → permFun p j ≠ i) → r.2.g i = 0)) := by
  refine (dense_back_solve_spec hL hnd hps ht hb hx hbs).mono ?_
  rintro r ⟨h1, h2, h3, h4, h5, h6⟩
  refine ⟨h2, ?_, h4, h5⟩
  funext c
  simp only [vec, Matrix.vecMul, dotProduct, Csr.toMat]
  rw [← h3 c c.2, Finset.sum_range]

/-- C15 (forward solve). For `U` upper triangular with unit diagonal up to a choice of columns,
`spasm_dense_forward_solve` returns true iff `x U = b` has a solution, and then returns one.  In all
cases `x U` and `b` agree on the pivotal columns. -/
theorem C15_dense_forward_solve (q : ℕ) (U : Csr) (hU : U.WFV q)
    (col : Option (Array Nat)) (hps : PermSize col U.n) (ht : UpperUnit q U (permFun col))
    (b x : Array Int) (hb : U.m ≤ b.size) (hx : U.n ≤ x.size)
    (hbs : ∀ j, j < U.m → Bal q (b.g j)) :
    Ok (dense_forward_solve U b x col) (fun r => r.2.1.size = x.size ∧
      (∀ i, i < U.n → Bal q (r.2.1.g i)) ∧
      (r.2.2 = true ↔ ∃ y : Fin U.n → ZMod q, y ᵥ* U.toMat q = vec q b U.m) ∧
      (r.2.2 = true → vec q r.2.1 U.n ᵥ* U.toMat q = vec q b U.m) ∧
      (∀ d (hd : d < U.n), (vec q r.2.1 U.n ᵥ* U.toMat q) ⟨permFun col d, ht.lt d hd⟩ =
        (b.g (permFun col d) : ZMod q))) := by
  refine (dense_forward_solve_spec hU hps ht hb hx hbs).mono ?_
  rintro r ⟨h1, h2, h3, h4, h7, h5, h6⟩
  refine ⟨h2, h3, h5.trans ⟨?_, ?_⟩, ?_, ?_⟩
  · rintro ⟨y, hy⟩
    refine ⟨fun i => y i, ?_⟩
    funext c
    simp only [vec, Matrix.vecMul, dotProduct, Csr.toMat]
    rw [← hy c c.2, Finset.sum_range]
  · rintro ⟨y, hy⟩
    refine ⟨fun i => if h : i < U.n then y ⟨i, h⟩ else 0, fun c hc => ?_⟩
    have := congrFun hy ⟨c, hc⟩
    simp only [vec, Matrix.vecMul, dotProduct, Csr.toMat] at this
    rw [← this, Finset.sum_range]
    simp
  · intro h
    funext c
    simp only [vec, Matrix.vecMul, dotProduct, Csr.toMat]
    rw [← h6 h c c.2, Finset.sum_range]
  · intro d hd
    simp only [vec, Matrix.vecMul, dotProduct, Csr.toMat]
    rw [← h7 d hd, Finset.sum_range]

/-- Concrete 3 x 2 lower triangular matrix modulo 7, up to the rows `#[2, 0]`:
[[3, 2], [1, 1], [-2, 0]]. -/
def exL : Csr :=
  { n := 3, m := 2, p := #[0, 2, 4, 5], j := #[1, 0, 0, 1, 0], x := some #[2, 3, 1, 1, -2],
    F := Field.ofPrime 7 }

theorem exL_wfv : exL.WFV 7 := Csr.wfv_of_check (by decide +kernel)

theorem exL_nodup : exL.NoDup := Csr.nodup_of_check exL_wfv.toWF (by decide +kernel)

theorem exL_tri : LowerTri 7 exL (permFun (some #[2, 0])) :=
  LowerTri.of_check (by decide +kernel) (by decide +kernel) (by decide +kernel)

theorem exU_tri : UpperUnit 7 exU (permFun (some #[1, 0])) :=
  UpperUnit.of_check (by decide +kernel) (by decide +kernel) (by decide +kernel)

example : exL.WFV 7 ∧ exL.NoDup ∧ PermSize (some #[2, 0]) exL.m ∧
    LowerTri 7 exL (permFun (some #[2, 0])) :=
  ⟨exL_wfv, exL_nodup, by rintro a ⟨⟩; decide, exL_tri⟩

example : exU.WFV 7 ∧ PermSize (some #[1, 0]) exU.n ∧ UpperUnit 7 exU (permFun (some #[1, 0])) :=
  ⟨exU_wfv, by rintro a ⟨⟩; decide, exU_tri⟩

end Spasm
