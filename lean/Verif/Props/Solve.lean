import Verif.Proofs.Gesv
import Verif.Props.Triangular
import Verif.Proofs.WpE

/-
Properties C16 and C17: solving linear systems with a factorization.
-/

namespace Spasm

open Finset Matrix

/-- Concrete 3 x 4 matrix of rank 2 modulo 7, equal to `exL * exU`:
[[2, 3, -2, -2], [1, 1, -2, -3], [0, -2, 3, -1]]. -/
def exFA : Csr :=
  { n := 3, m := 4, p := #[0, 4, 8, 11], j := #[0, 1, 2, 3, 0, 1, 2, 3, 1, 2, 3],
    x := some #[2, 3, -2, -2, 1, 1, -2, -3, -2, 3, -1], F := Field.ofPrime 7 }

theorem exU_echelon : Echelon 7 exU exUqinv where
  wfv := exU_wfv
  size := by decide
  ge := by decide
  lt := by decide
  ne := by decide
  piv := by decide
  loc := by decide
  one := by decide
  once := by
    intro i hi k h1 h2
    have h3 : k < exU.p.g exU.n := exU_wfv.toWF.row_lt hi h2
    have : ∀ i, i < exU.n → ∀ k, k < exU.p.g exU.n → (exU.p.g i < k ∧ k < exU.p.g (i + 1)) →
      exU.j.g k ≠ exU.pivot i := by decide
    exact this i hi k h3 ⟨h1, h2⟩
  tri := by
    rintro i k h1 h2 ⟨l, h3, h4, h5⟩
    have h6 : l < exU.p.g exU.n := exU_wfv.toWF.row_lt h2 h4
    have : ∀ k, k < exU.n → ∀ i, i < k → ∀ l, l < exU.p.g exU.n →
      (exU.p.g k ≤ l ∧ l < exU.p.g (k + 1)) → exU.j.g l ≠ exU.pivot i := by decide
    exact this k h2 i h1 l h6 ⟨h3, h4⟩ h5

theorem exFA_wfv : exFA.WFV 7 := Csr.wfv_of_check (by decide +kernel)

theorem exFA_prod : ∀ i, i < exFA.n → ∀ c, c < exFA.m →
    exFA.entry 7 i c = ∑ k ∈ range exU.n, exL.entry 7 i k * exU.entry 7 k c := by
  decide +kernel

theorem exFact : IsFact 7 exFA exL exU exUqinv (some #[2, 0]) false where
  ech := exU_echelon
  m_eq := rfl
  span := fun i hi => ⟨exL.entry 7 i, fun c hc => (exFA_prod i hi c hc).symm⟩
  L_wfv := exL_wfv
  L_nodup := exL_nodup
  L_n := rfl
  L_m := rfl
  p_size := by rintro a ⟨⟩; decide
  tri := exL_tri
  prod := fun i hi _ c hc => exFA_prod i hi c hc

/-- The factorization `exFact` as returned by the library. -/
def exLu : Lu :=
  { r := 2, complete := false, L := some exL, U := exU, qinv := exUqinv, p := some #[2, 0],
    Ltmp := none }

instance : Fact (Nat.Prime 7) := ⟨by decide⟩

/-! ### C16 -/

theorem inSpan_iff_vecMul {q : ℕ} {A : Csr} {v : Nat → ZMod q} :
    InSpan q A v ↔ ∃ y : Fin A.n → ZMod q, y ᵥ* A.toMat q = fun c : Fin A.m => v c := by
  constructor
  · rintro ⟨y, hy⟩
    refine ⟨fun i => y i, ?_⟩
    funext c
    simp only [Matrix.vecMul, dotProduct, Csr.toMat]
    rw [← hy c c.2, Finset.sum_range]
  · rintro ⟨y, hy⟩
    refine ⟨fun i => if h : i < A.n then y ⟨i, h⟩ else 0, fun c hc => ?_⟩
    have := congrFun hy ⟨c, hc⟩
    simp only [Matrix.vecMul, dotProduct, Csr.toMat] at this
    rw [← this, Finset.sum_range]
    simp

/-- C16. Given a factorization of `A` with `L`, `spasm_solve` returns true iff `x A = b` has a
solution, and then the `x` it returns is one.  In all cases `x A` and `b` agree on the pivotal
columns. -/
theorem C16_solve (jk : Junk) (q : ℕ) [Fact q.Prime] (A L : Csr) (fact : Lu)
    (hL : fact.L = some L) (hf : IsFact q A L fact.U fact.qinv fact.p fact.complete)
    (b x : Array Int) (hb : A.m ≤ b.size) (hx : A.n ≤ x.size)
    (hbs : ∀ j, j < A.m → Bal q (b.g j)) :
    Ok (solve jk fact b x) (fun r => r.1.size = x.size ∧
      (∀ i, i < A.n → Bal q (r.1.g i)) ∧
      (r.2 = true ↔ ∃ y : Fin A.n → ZMod q, y ᵥ* A.toMat q = vec q b A.m) ∧
      (r.2 = true → vec q r.1 A.n ᵥ* A.toMat q = vec q b A.m) ∧
      (∀ c : Fin A.m, 0 ≤ fact.qinv.g c → (vec q r.1 A.n ᵥ* A.toMat q) c = vec q b A.m c)) := by
  refine (solve_full jk hL hf hb hx hbs).mono ?_
  rintro r ⟨h1, h2, h3, h4, -, h5⟩
  refine ⟨h1, h2, h3.trans inSpan_iff_vecMul, fun h => ?_, fun c hc => ?_⟩
  · funext c
    simp only [vec, Matrix.vecMul, dotProduct, Csr.toMat]
    rw [← h4 h c c.2, Finset.sum_range]
  · have hm := hf.m_eq
    have e := hf.ech.loc c (by omega) hc
    have := h5 (fact.qinv.g c).toNat (by have := hf.ech.lt c (by omega); omega)
    rw [e] at this
    simp only [vec, Matrix.vecMul, dotProduct, Csr.toMat]
    rw [← this, Finset.sum_range]

example : exLu.L = some exL ∧ IsFact 7 exFA exL exLu.U exLu.qinv exLu.p exLu.complete ∧
    (∀ j, j < exFA.m → Bal 7 ((#[1, 1, -2, -3] : Array Int).g j)) :=
  ⟨rfl, exFact, by unfold Bal; decide⟩

/-! ### C17 -/

/-- C17. `spasm_gesv` with any number of threads, any assignment of the rows to the threads
(`rows t`, in any order) and any interleaving of the appends.
(1) The sequential code of each thread runs without error.
(2) In every reachable state of the shared array, no thread is about to write out of bounds, and
the only states where no thread can move are those where all are done.
(3) When all threads are done, the compression succeeds, and its result `X` is such that `ok[i]`
is true iff `x A = B[i]` has a solution, in which case row `i` of `X` is a solution.
If `B` has more columns than `A`, then `B[i]` stands for its first `A.m` coefficients: the others are ignored (see
`C17_ignored`). -/
theorem C17_gesv (jk : Junk) (q : ℕ) [Fact q.Prime] (A B L : Csr) (fact : Lu)
    (hL : fact.L = some L) (hf : IsFact q A L fact.U fact.qinv fact.p fact.complete)
    (hB : B.WFV q) (hBm : A.m ≤ B.m) (T : Nat) (rows : Fin T → List Nat)
    (hrows : ∑ t, (rows t : Multiset Nat) = Multiset.range B.n) :
    (∀ t, Ok (gesv_thread jk fact B L.n (rows t)) (fun r => r.1.map (·.1) = rows t)) ∧
    ∀ (oks : Fin T → List (Nat × Bool)) (items : Fin T → List (Nat × Nat × Int)),
    (∀ t, gesv_thread jk fact B L.n (rows t) = .ok (oks t, items t)) →
    ∀ s : ASt (Nat × Nat × Int) T,
    AReach (ASt.init 0 (mkArr (L.n * B.n) fun k => (jk.nat k, jk.nat k, jk.int k)) items) s →
    (∀ t r, astep t s = some r → ∃ s', r = .ok s') ∧
    (s.Finished ∨ ∃ t r, astep t s = some r) ∧
    (s.Finished → Ok (compress jk (s.toTriplet B.n L.n B.F)) (fun X =>
      X.WFV q ∧ X.n = B.n ∧ X.m = A.n ∧ X.NoDup ∧ X.NoZero ∧
      ∀ t i res, (i, res) ∈ oks t →
        (res = true ↔ ∃ y : Fin A.n → ZMod q, y ᵥ* A.toMat q = fun c : Fin A.m => B.entry q i c) ∧
        (res = true → (fun j : Fin A.n => X.entry q i j) ᵥ* A.toMat q =
          fun c : Fin A.m => B.entry q i c))) := by
  have hlt : ∀ t, ∀ i ∈ rows t, i < B.n := by
    intro t i hi
    have : i ∈ ∑ t, (rows t : Multiset Nat) := (mem_sum_coe rows i).mpr ⟨t, hi⟩
    rw [hrows] at this; exact Multiset.mem_range.mp this
  refine ⟨?_, ?_⟩
  · intro t
    refine (gesv_thread_spec jk hL hf hB hBm (rows t) (hlt t)).mono ?_
    rintro r ⟨rs, h1, h2, -⟩
    rw [h2, ← h1, List.map_map]; rfl
  · intro oks items hrun s hs
    obtain ⟨h1, h2, h3⟩ := gesv_spec jk hL hf hB hBm rows hrows hrun hs
    refine ⟨h1, h2, fun hfin => (h3 hfin).mono ?_⟩
    rintro X ⟨x1, x2, x3, x4, x5, x6⟩
    refine ⟨x1, x2, x3, x4, x5, ?_⟩
    intro t i res hi
    obtain ⟨y1, y2⟩ := x6 t i res hi
    refine ⟨y1.trans inSpan_iff_vecMul, fun h => ?_⟩
    funext c
    simp only [Matrix.vecMul, dotProduct, Csr.toMat]
    rw [← y2 h c c.2, Finset.sum_range]

/-- Two threads, one of the two rows each. -/
example : exLu.L = some exL ∧ IsFact 7 exFA exL exLu.U exLu.qinv exLu.p exLu.complete ∧
    exB.WFV 7 ∧ exFA.m ≤ exB.m ∧
    ∑ t : Fin 2, ((![[1], [0]] t : List Nat) : Multiset Nat) = Multiset.range exB.n :=
  ⟨rfl, exFact, exB_wfv, le_refl _, by decide⟩

/-- C17 (defect). The number of columns of `B` is not compared to that of `A`.  If `B` has fewer columns, every thread
with a row to process reads after the end of its buffer. -/
theorem C17_narrow (jk : Junk) (q : ℕ) [Fact q.Prime] (A B L : Csr) (fact : Lu)
    (hL : fact.L = some L) (hf : IsFact q A L fact.U fact.qinv fact.p fact.complete)
    (hB : B.WFV q) (hBm : B.m < A.m) (rows : List Nat) (hne : rows ≠ []) (hlt : ∀ i ∈ rows, i < B.n) :
    gesv_thread jk fact B L.n rows = .error .ub := by
  have h2 := hB.good.two_le
  have hm := hf.m_eq
  suffices h : WpE (fun e => e = .ub) (gesv_thread jk fact B L.n rows) (fun _ => False) by
    cases hx : gesv_thread jk fact B L.n rows with
    | ok a => rw [hx] at h; exact h.elim
    | error e => rw [hx] at h; rw [show e = .ub from h]
  unfold gesv_thread
  cases rows with
  | nil => exact absurd rfl hne
  | cons i rows =>
    rw [gesv_rows, WpE_bind]
    suffices h : WpE (fun e => e = .ub) (gesv_row jk fact B L.n (mkArr B.m jk.int) (mkArr L.n jk.int) i)
        (fun _ => False) from h.mono (fun _ h => h.elim)
    have hi : i < B.n := hlt i (by simp)
    unfold gesv_row
    rw [WpE_bind]
    refine (zero_fill (n := B.m) (by simp)).wpe.mono ?_
    rintro b0 ⟨z1, z2, z3⟩
    simp only [size_mkArr] at z1
    rw [WpE_bind]
    refine (scatter_spec hB hi (small_one h2) b0 (by omega) (fun j hj => by
      rw [z2 j (hB.toWF.inRow_lt hi hj)]; exact small_zero q)).wpe.mono ?_
    rintro b1 ⟨s1, -⟩
    rw [WpE_bind]
    suffices h : WpE (fun e => e = .ub) (solve jk fact b1 (mkArr L.n jk.int)) (fun _ => False) from
      h.mono (fun _ h => h.elim)
    unfold solve
    rw [hL, WpE_bind, WpE_ok, WpE_bind]
    refine (invq_spec jk hf.ech).wpe.mono ?_
    rintro Uq -
    rw [WpE_bind]
    refine (WpE_forRange (I := fun i (y : Array Int) => y.size = fact.U.m ∧ i ≤ B.m) (Nat.zero_le _)
      ⟨by simp, by omega⟩ ?_).mono ?_
    · rintro k y - hk ⟨y1, y2⟩
      by_cases hkm : k < B.m
      · rw [WpE_bind]
        refine ((Ok_rd ..).mpr (?_ : _ ∧ _)).wpe
        refine ⟨by omega, ?_⟩
        refine ((Ok_wr ..).mpr (?_ : _ ∧ _)).wpe
        exact ⟨by omega, by simpa using y1, by omega⟩
      · rw [rd, Array.getElem?_eq_none (by omega)]
        rfl
    · rintro y ⟨-, y2⟩
      omega

/-- A right-hand side with one column. -/
example : gesv_thread default exLu { exB with m := 1, p := #[0, 0, 0], j := #[], x := some #[] } 3 [0, 1] =
    .error .ub := by decide +kernel

/-- A right-hand side with one row: a coefficient one after the last column of `exFA`. -/
def exWide : Csr := { n := 1, m := 5, p := #[0, 1], j := #[4], x := some #[1], F := Field.ofPrime 7 }

/-- C17 (defect). If `B` has more columns than `A`, then `ok[i]` may be true although there is no solution. -/
theorem C17_ignored : exFA.m < exWide.m ∧ exWide.entry 7 0 4 = 1 ∧
    gesv_thread default exLu exWide 3 [0] = .ok ([(0, true)], []) := by decide +kernel

end Spasm
