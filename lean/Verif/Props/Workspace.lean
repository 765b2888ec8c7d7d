import Verif.Proofs.Workspace
import Verif.Proofs.Width
import Verif.Props.Dense
import Verif.Props.Density
import Verif.Props.Gplu
import Verif.Props.Kernel
import Verif.Props.Schur
import Verif.Props.Triangular

/-
C69: the workspace of the sparse triangular solver, and the sizes computed with `int`.
-/

namespace Spasm

open Finset Commit

/-! ### The solver -/

/-- What `spasm_sparse_triangular_solve` requires of the workspace, as its comment says it (src/spasm_triangular.c:97)
or less: `3 m` cells, the last `m` of which are zero. -/
def WsReady (ws : Array Nat) (m : Nat) : Prop := ws.size = 3 * m ∧ ∀ j, j < m → ws.g (2 * m + j) = 0

/-- The three parts of a workspace. -/
theorem WsReady.parts {ws : Array Nat} {m : Nat} (h : WsReady ws m) : ∃ w : Dfs, DParts m w ws ∧ w.Ready m := by
  obtain ⟨h1, h2⟩ := h
  have e1 : (ws.extract 0 m).size = m := by rw [Array.size_extract]; omega
  have e2 : (ws.extract m (2 * m)).size = m := by rw [Array.size_extract]; omega
  have e3 : (ws.extract (2 * m) (3 * m)).size = m := by rw [Array.size_extract]; omega
  refine ⟨⟨0, 0, ws.extract 0 m, ws.extract m (2 * m), ws.extract (2 * m) (3 * m)⟩, ⟨e1, e2, e3, ?_⟩,
    ⟨by simp only; omega, by simp only; omega, by simp only; omega, fun j hj => ?_⟩⟩
  · simp only
    refine Array.ext (by rw [Array.size_append, Array.size_append, e1, e2, e3]; omega) fun i hi1 hi2 => ?_
    simp only [Array.getElem_append, Array.size_append, e1, e2, Array.getElem_extract]
    split
    · split
      · congr 1; omega
      · congr 1; omega
    · congr 1; omega
  · simp only
    rw [g_eq _ _ (by omega), Array.getElem_extract, ← h2 j hj, g_eq _ _ (by omega)]

theorem WsReady.of_parts {ws : Array Nat} {m : Nat} {w : Dfs} (h : DParts m w ws) (hw : w.Ready m) : WsReady ws m := by
  refine ⟨h.size, fun j hj => ?_⟩
  have h1 : rd w.marks j = .ok (w.marks.g j) := by
    rw [rd_ok_iff, Array.getElem?_eq_getElem (by rw [h.ms]; exact hj), g_eq _ _ (by rw [h.ms]; exact hj)]
  obtain ⟨v, e, rfl⟩ := h.rdM j _ h1
  rw [rd_ok_iff] at e
  have hs : 2 * m + j < ws.size := by rw [h.size]; omega
  rw [← two_mul, Array.getElem?_eq_getElem hs, Option.some.injEq] at e
  rw [g_eq _ _ hs, e, hw.zero j hj]

theorem DParts.g_eq {ws : Array Nat} {m : Nat} {w : Dfs} (h : DParts m w ws) {t : Nat} (ht : t < m) :
    ws.g t = w.xj.g t := by
  have h1 : rd w.xj t = .ok (w.xj.g t) := by
    rw [rd_ok_iff, Array.getElem?_eq_getElem (by rw [h.xs]; exact ht), Spasm.g_eq _ _ (by rw [h.xs]; exact ht)]
  obtain ⟨v, e, rfl⟩ := h.rdX t _ h1
  rw [rd_ok_iff] at e
  have hs : t < ws.size := by rw [h.size]; omega
  rw [Array.getElem?_eq_getElem hs, Option.some.injEq] at e
  rw [Spasm.g_eq _ _ hs, e]

/-- C69 (solver). With one array of `3 m` cells whose last third is zero, `spasm_sparse_triangular_solve` stays inside
the array and solves the system, as in C14; afterwards the workspace has its last third zero again, so it can be used
for another call. -/
theorem C69_solve (q : ℕ) (U B : Csr) (qinv : Array Int) (hU : U.WFV q)
    (hB : B.WFV q) (hBm : B.m ≤ U.m) (hq : QinvOk U qinv) (hac : PAcyclic U qinv)
    (hunit : ∀ j, j < U.m → 0 ≤ qinv.g j → U.entry q (qinv.g j).toNat j = 1)
    (k : Nat) (hk : k < B.n) (ws : Array Nat) (hw : WsReady ws U.m) (x : Array Int) (hx : U.m ≤ x.size) :
    Ok (ws_solve U B k ws x qinv) (fun r =>
      (∀ t u, r.1.top ≤ t → t < U.m → r.1.top ≤ u → u < U.m → r.1.ws.g t = r.1.ws.g u → t = u) ∧
      (∀ j, (∃ t, r.1.top ≤ t ∧ t < U.m ∧ r.1.ws.g t = j) ↔ ReachFrom U B qinv k j) ∧
      (∃ v : Nat → ZMod q,
        (∀ t, r.1.top ≤ t → t < U.m →
          v (r.1.ws.g t) = (r.2.g (r.1.ws.g t) : ZMod q) ∧ Bal q (r.2.g (r.1.ws.g t))) ∧
        (∀ j, (¬ ∃ t, r.1.top ≤ t ∧ t < U.m ∧ r.1.ws.g t = j) → v j = 0) ∧
        ∀ c, c < U.m → B.entry q k c = (if qinv.g c < 0 then v c else 0) +
          ∑ j ∈ range U.m, if 0 ≤ qinv.g j then v j * U.entry q (qinv.g j).toNat c else 0) ∧
      WsReady r.1.ws U.m ∧ r.2.size = x.size) := by
  obtain ⟨w, hp, hr⟩ := hw.parts
  obtain ⟨⟨s, y⟩, e, h1, h2, ⟨v, h3, h4, h5⟩, h6, h7⟩ :=
    Ok_iff.mp (C14_sparse_triangular_solve q U B qinv hU hB hBm hq hac hunit k hk w hr x hx)
  obtain ⟨⟨t, y'⟩, e', hs, hy⟩ := ws_solve_sim hp _ e
  simp only at hs hy h1 h2 h3 h4 h5 h6 h7
  subst hy
  rw [e', Ok_ok]
  have hg : ∀ i, i < U.m → t.ws.g i = s.xj.g i := fun i hi => DParts.g_eq hs.parts hi
  have hpat : ∀ j, (∃ i, t.top ≤ i ∧ i < U.m ∧ t.ws.g i = j) ↔ ∃ i, s.top ≤ i ∧ i < U.m ∧ s.xj.g i = j := by
    intro j
    rw [hs.top]
    constructor
    · rintro ⟨i, a, b, c⟩; exact ⟨i, a, b, by rw [← hg i b]; exact c⟩
    · rintro ⟨i, a, b, c⟩; exact ⟨i, a, b, by rw [hg i b]; exact c⟩
  simp only [hpat]
  rw [hs.top]
  refine ⟨?_, h2, ⟨v, ?_, h4, h5⟩, WsReady.of_parts hs.parts h6, h7⟩
  · intro i j a b c d hij
    rw [hg i b, hg j d] at hij
    exact h1 i j a b c d hij
  · intro i a b
    rw [hg i b]
    exact h3 i a b

example : exU.WFV 7 ∧ exB.WFV 7 ∧ exB.m ≤ exU.m ∧ QinvOk exU exUqinv ∧ PAcyclic exU exUqinv ∧
    (∀ j, j < exU.m → 0 ≤ exUqinv.g j → exU.entry 7 (exUqinv.g j).toNat j = 1) ∧ 0 < exB.n ∧
    WsReady #[8, 8, 8, 8, 7, 7, 7, 7, 0, 0, 0, 0] exU.m ∧ exU.m ≤ (#[100, 101, 102, 103] : Array Int).size :=
  ⟨exU_wfv, exB_wfv, by decide, exU_qinv, exU_acyclic, by decide +kernel, by decide,
    ⟨by decide, by decide⟩, by decide⟩

/-! ### The allocation -/

/-- C69 (allocation). The callers allocate a workspace that is ready, if the matrix has at most 715827882 columns;
otherwise the size overflows. -/
theorem C69_alloc (jk : Junk) (m : Nat) :
    (m ≤ 715827882 → ∃ ws, ws_alloc jk m = .ok ws ∧ WsReady ws m) ∧
    (715827882 < m → ws_alloc jk m = .error .ub) := by
  constructor
  · intro h
    refine ⟨_, ws_alloc_ok (by omega), ?_⟩
    have hz := parts_zero m
    refine WsReady.of_parts (w := ⟨0, 0, mkArr m fun _ => 0, mkArr m fun _ => 0, mkArr m fun _ => 0⟩) hz
      ⟨by simp, by simp, by simp, fun j hj => ?_⟩
    exact g_mkArr _ _ _ hj
  · intro h
    exact ws_alloc_ub (by omega)

/-! ### The callers -/

/-- Two computations that are always equal where it matters. -/
theorem sim_ok_iff {α : Type} {a b : C α} (h : Sim Eq a b) (ha : ∃ v, a = .ok v) (v : α) : b = .ok v ↔ a = .ok v := by
  obtain ⟨u, hu⟩ := ha
  obtain ⟨w, hw, rfl⟩ := h u hu
  rw [hu, hw]

/-- C69 (`spasm_schur`). With the workspace in one array, the possible outcomes of `spasm_schur` are those of C21, if
the matrix has at most 715827882 columns. -/
theorem C69_schur (jk : Junk) (q : ℕ) (A : Csr) (p : Array Nat) (n : Nat) (U : Csr)
    (qinv : Array Int) (size : Nat) (L : Option Triplet) (p_in : Option (Array Nat))
    (p_out : Array Nat) (h : SchurPre q A p n U qinv L p_in p_out) (hb : A.m ≤ 715827882) (S : Csr)
    (L' : Option Triplet) (p_out' : Array Nat) :
    SchurRunWs jk A p n U qinv size L p_in p_out S L' p_out' ↔ SchurRun jk A p n U qinv size L p_in p_out S L' p_out' := by
  have key : ∀ (T : Nat) (rows : Fin T → List Nat), ∑ t, (rows t : Multiset Nat) = Multiset.range n → ∀ t js,
      schur_thread_ws jk A U qinv L.isSome p_in p (rows t) = .ok js ↔
        schur_thread jk A U qinv L.isSome p_in p (rows t) = .ok js := by
    intro T rows hr t js
    refine sim_ok_iff (schur_thread_ws_sim h.m_eq (by omega)) ?_ js
    obtain ⟨v, e, -⟩ := Ok_iff.mp (h.threads jk hr t)
    exact ⟨v, e⟩
  constructor
  · rintro ⟨T, rows, jobs, S0, s, h1, h2, h3⟩
    exact ⟨T, rows, jobs, S0, s, h1, fun t => (key T rows h1 t _).mp (h2 t), h3⟩
  · rintro ⟨T, rows, jobs, S0, s, h1, h2, h3⟩
    exact ⟨T, rows, jobs, S0, s, h1, fun t => (key T rows h1 t _).mpr (h2 t), h3⟩

/-- C69 (`spasm_kernel`): the bound is on the number of rows of `U`. -/
theorem C69_kernel (jk : Junk) (q : ℕ) (U : Csr) (qinv : Array Int) (h : Echelon q U qinv) (hb : U.n ≤ 715827882)
    (K : Csr) : KernelRunWs jk U qinv K ↔ KernelRun jk U qinv K := by
  have hp := kernel_pre_spec jk h
  have key : ∀ (T : Nat) (cols : Fin T → List Nat), ∑ t, (cols t : Multiset Nat) = Multiset.range U.m →
      ∀ Ut K0 utqinv, kernel_pre jk U qinv = .ok (Ut, K0, utqinv) → ∀ t js,
      kernel_thread_ws jk U.n U.m Ut qinv utqinv (cols t) = .ok js ↔
        kernel_thread jk U.n U.m Ut qinv utqinv (cols t) = .ok js := by
    intro T cols hc Ut K0 utqinv e t js
    have hm : Ut.m = U.n := by
      unfold kernel_pre at e
      obtain ⟨_, _, e⟩ := bind_ok_iff.mp e
      obtain ⟨Vt, e1, e⟩ := bind_ok_iff.mp e
      obtain ⟨_, _, e⟩ := bind_ok_iff.mp e
      obtain ⟨_, _, e⟩ := bind_ok_iff.mp e
      obtain ⟨_, _, e⟩ := bind_ok_iff.mp e
      cases e
      have ht := transpose_spec jk h.wfv.toWF true
      rw [e1, Ok_ok] at ht
      exact ht.2.2.1
    refine sim_ok_iff (kernel_thread_ws_sim hm (by omega)) ?_ js
    rw [e, Ok_ok] at hp
    have := hp.1 (cols t) ?_
    · obtain ⟨v, e, -⟩ := Ok_iff.mp this
      exact ⟨v, e⟩
    · intro j hj
      have : j ∈ ∑ t, (cols t : Multiset Nat) := (mem_sum_coe cols j).mpr ⟨t, hj⟩
      rw [hc] at this; exact Multiset.mem_range.mp this
  constructor
  · rintro ⟨T, cols, jobs, Ut, K0, utqinv, s, h1, h2, h3, h4⟩
    exact ⟨T, cols, jobs, Ut, K0, utqinv, s, h1, h2, fun t => (key T cols h1 _ _ _ h2 t _).mp (h3 t), h4⟩
  · rintro ⟨T, cols, jobs, Ut, K0, utqinv, s, h1, h2, h3, h4⟩
    exact ⟨T, cols, jobs, Ut, K0, utqinv, s, h1, h2, fun t => (key T cols h1 _ _ _ h2 t _).mpr (h3 t), h4⟩

/-- C69 (`spasm_rref`). -/
theorem C69_rref (jk : Junk) (q : ℕ) (U : Csr) (qinv rq : Array Int) (h : Echelon q U qinv) (hb : U.m ≤ 715827882)
    (R : Csr) (rq' : Array Int) : RrefRunWs jk U qinv rq R rq' ↔ RrefRun jk U qinv rq R rq' := by
  have key : ∀ (T : Nat) (rows : Fin T → List Nat), ∑ t, (rows t : Multiset Nat) = Multiset.range U.n → ∀ t js,
      rref_thread_ws jk U qinv (rows t) = .ok js ↔ rref_thread jk U qinv (rows t) = .ok js := by
    intro T rows hr t js
    refine sim_ok_iff (rref_thread_ws_sim (by omega)) ?_ js
    have := rref_thread_spec jk h (rows t) ?_
    · obtain ⟨v, e, -⟩ := Ok_iff.mp this
      exact ⟨v, e⟩
    · intro j hj
      have : j ∈ ∑ t, (rows t : Multiset Nat) := (mem_sum_coe rows j).mpr ⟨t, hj⟩
      rw [hr] at this; exact Multiset.mem_range.mp this
  constructor
  · rintro ⟨T, rows, jobs, R0, k, s, h1, h2, h3, h4, h5⟩
    exact ⟨T, rows, jobs, R0, k, s, h1, h2, h3, fun t => (key T rows h1 t _).mp (h4 t), h5⟩
  · rintro ⟨T, rows, jobs, R0, k, s, h1, h2, h3, h4, h5⟩
    exact ⟨T, rows, jobs, R0, k, s, h1, h2, h3, fun t => (key T rows h1 t _).mpr (h4 t), h5⟩

/-- C69 (`spasm_schur_estimate_density`). -/
theorem C69_density (jk : Junk) (q : ℕ) (A : Csr) (p : Array Nat) (n : Nat) (U : Csr) (qinv : Array Int)
    (hA : A.WFV q) (hE : Echelon q U qinv) (hm : U.m = A.m) (hps : n ≤ p.size) (hp : ∀ k, k < n → p.g k < A.n)
    (hn : 0 < n) (hb : A.m ≤ 715827882) (R : Nat) (rand : Nat → Nat) (nnz : Nat) :
    DensityRunWs jk A p n U qinv R rand nnz ↔ DensityRun jk A p n U qinv R rand nnz := by
  have key : ∀ is k, density_thread_ws jk A U qinv p n rand is = .ok k ↔ density_thread jk A U qinv p n rand is = .ok k :=
    fun is k => sim_ok_iff (density_thread_ws_sim hm (by omega)) (C56_safe jk q A p n U qinv hA hE hm hps hp hn rand is) k
  unfold DensityRunWs DensityRun
  simp only [key]

/-- C69 (`spasm_schur_dense`). -/
theorem C69_dense (jk : Junk) (q : ℕ) (a : DenseIn) (h : DensePre q a) (hb : a.A.m ≤ 715827882) (o : DenseOut) :
    SchurDenseRunWs jk a o ↔ SchurDenseRun jk a o := by
  have key : ∀ (T : Nat) (ks : Fin T → List Nat), ∑ t, (ks t : Multiset Nat) = Multiset.range a.n →
      prepare_q a.A.m a.qinv a.q = .ok o.q → ∀ t js,
      schur_dense_thread_ws jk a.A a.U a.qinv a.L.isSome a.p_in a.dt o.q a.p (ks t) = .ok js ↔
        schur_dense_thread jk a.A a.U a.qinv a.L.isSome a.p_in a.dt o.q a.p (ks t) = .ok js := by
    intro T ks hk e t js
    refine sim_ok_iff (schur_dense_thread_ws_sim h.pre.m_eq (by omega)) ?_ js
    obtain ⟨qa, L1, jobs, h1, -, h3, -⟩ := C29_safe jk q a h T ks hk
    rw [e] at h1
    cases h1
    exact ⟨_, h3 t⟩
  constructor
  · rintro ⟨T, ks, jobs, L1, s, h1, h2, h3, h4, h5⟩
    exact ⟨T, ks, jobs, L1, s, h1, h2, h3, fun t => (key T ks h1 h2 t _).mp (h4 t), h5⟩
  · rintro ⟨T, ks, jobs, L1, s, h1, h2, h3, h4, h5⟩
    exact ⟨T, ks, jobs, L1, s, h1, h2, h3, fun t => (key T ks h1 h2 t _).mpr (h4 t), h5⟩

/-- C69 (`echelonize_GPLU`): same result, whatever the outcome of the tests `tc` and whatever is already in the
factorization. -/
theorem C69_GPLU (jk : Junk) (q : ℕ) [Fact q.Prime] (A0 A : Csr) (hA : A.WFV q)
    (hm : A.m = A0.m) (p_in : Option (Array Nat)) (hp : PermSize p_in A.n) (p : Array Nat) (n : Nat)
    (hps : n ≤ p.size) (hpn : ∀ k, k < n → p.g k < A.n) (fact : Lu) (tc : Csr → Array Int → C Bool)
    (old : Nat) (complete : Bool)
    (h : Partial q A0 fact.U fact.qinv fact.Ltmp fact.p (fun t => A.entry q (p.g t)) n
      (fun t => permFun p_in (p.g t)) old complete)
    (htc : fact.Ltmp = none → ∀ U qinv, Echelon q U qinv → U.m = A.m → ∃ b, tc U qinv = .ok b)
    (hb : A.m ≤ 715827882) : gplu_ws jk A p n p_in fact tc = gplu jk A p n p_in fact tc := by
  have hUm : fact.U.m = A.m := by rw [hm]; exact h.m_eq
  have := gplu_gen jk hA hm hp hps hpn h (Tc := fun _ _ => True) (tc := tc) (fun hL U qinv hE hU => by
    obtain ⟨b, e⟩ := htc hL U qinv hE hU
    rw [e, Ok_ok]; exact fun _ => trivial)
  obtain ⟨v, e, -⟩ := Ok_iff.mp this
  rw [e]
  obtain ⟨w, hw, rfl⟩ := gplu_ws_sim hUm (by omega) v e
  exact hw

/-! ### The limit -/

/-- C69 fails for larger matrices: with more than 715827882 columns every thread of `spasm_schur`, of
`spasm_schur_estimate_density`, of `spasm_schur_dense` and of `spasm_rref` begins with an undefined operation, and so do
`echelonize_GPLU` and (with more than 715827882 rows in `U`) `spasm_kernel`; whatever the rows to process are, even if
there are none. -/
theorem C69_limit (jk : Junk) (A U : Csr) (qinv : Array Int) (hasL : Bool) (p_in : Option (Array Nat)) (p : Array Nat)
    (is : List Nat) :
    (715827882 < A.m → schur_thread_ws jk A U qinv hasL p_in p is = .error .ub ∧
      (∀ n rand, density_thread_ws jk A U qinv p n rand is = .error .ub) ∧
      (∀ dt q, schur_dense_thread_ws jk A U qinv hasL p_in dt q p is = .error .ub) ∧
      ∀ n fact tc k, nnz fact.U = .ok k → gplu_ws jk A p n p_in fact tc = .error .ub) ∧
    (715827882 < U.m → rref_thread_ws jk U qinv is = .error .ub) ∧
    (715827882 < U.n → ∀ Ut utqinv, kernel_thread_ws jk U.n U.m Ut qinv utqinv is = .error .ub) := by
  refine ⟨fun h => ⟨?_, fun n rand => ?_, fun dt q => ?_, fun n fact tc k hk => ?_⟩, fun h => ?_, fun h Ut utqinv => ?_⟩
  · exact ws_alloc_bind_ub (by omega) _
  · exact ws_alloc_bind_ub (by omega) _
  · exact ws_alloc_bind_ub (by omega) _
  · exact gplu_ws_ub (ws_alloc_ub (by omega)) hk
  · exact ws_alloc_bind_ub (by omega) _
  · exact ws_alloc_bind_ub (by omega) _

/-- A row of `m` columns with a 1 in front. -/
def exLongRow (m : Nat) : Csr := ⟨1, m, #[0, 1], #[0], some #[1], exU.F⟩

def exLongRowQ (m : Nat) : Array Int := mkArr m fun j => if j = 0 then 0 else -1

theorem exLongRow_echelon {m : Nat} (hm : 0 < m) : Echelon 7 (exLongRow m) (exLongRowQ m) := by
  have h0 : (exLongRowQ m).g 0 = 0 := g_mkArr _ _ _ hm
  have hq : ∀ j, j < m → (exLongRowQ m).g j = if j = 0 then 0 else -1 := fun j hj => g_mkArr _ _ _ hj
  refine ⟨⟨⟨by simp [exLongRow], rfl, ?_, by simp [exLongRow, Array.g], ?_, ?_, exU_wfv.field_ok⟩, exU_wfv.good, fun _ => rfl,
    ?_⟩, by simp [exLongRow, exLongRowQ], fun j hj => ?_, fun j hj => ?_, ?_, ?_, ?_, ?_, ?_, ?_⟩
  · intro i hi
    have : i = 0 := by simp only [exLongRow] at hi; omega
    subst this; show (0 : Nat) ≤ 1; decide
  · intro k hk
    have : k = 0 := by simp only [exLongRow, Array.g] at hk; simp at hk; exact hk
    subst this; exact hm
  · intro a ha
    simp only [exLongRow, Option.some.injEq] at ha
    subst ha; simp [exLongRow, Array.g]
  · intro k hk
    have : k = 0 := by simp only [exLongRow, Array.g] at hk; simp at hk; exact hk
    subst this; show Small 7 1; unfold Small; omega
  · rw [hq j hj]; split <;> omega
  · rw [hq j hj]; show _ < (1 : Int); split <;> omega
  · intro i hi
    have : i = 0 := by simp only [exLongRow] at hi; omega
    subst this; show (0 : Nat) < 1; decide
  · intro i hi
    have : i = 0 := by simp only [exLongRow] at hi; omega
    subst this; exact h0
  · intro j hj h
    rw [hq j hj] at h ⊢
    by_cases hj0 : j = 0
    · subst hj0; rfl
    · rw [if_neg hj0] at h; omega
  · intro i hi
    have : i = 0 := by simp only [exLongRow] at hi; omega
    subst this; rfl
  · intro i hi k h1 h2
    have : i = 0 := by simp only [exLongRow] at hi; omega
    subst this
    have e1 : (exLongRow m).p.g 0 = 0 := rfl
    have e2 : (exLongRow m).p.g (0 + 1) = 1 := rfl
    omega
  · intro i k h1 h2
    have : (exLongRow m).n = 1 := rfl
    omega

/-- Well-formed arguments with a number of columns that fits an `int`, for which `spasm_rref` has no defined run. -/
theorem C69_witness (jk : Junk) : Echelon 7 (exLongRow 715827883) (exLongRowQ 715827883) ∧ (exLongRow 715827883).m < 2 ^ 31 ∧
    ∀ is, rref_thread_ws jk (exLongRow 715827883) (exLongRowQ 715827883) is = .error .ub := by
  refine ⟨exLongRow_echelon (by omega), ?_, fun is => ?_⟩
  · show 715827883 < 2 ^ 31; norm_num
  · refine (C69_limit jk exU (exLongRow 715827883) (exLongRowQ 715827883) false none #[] is).2.1 ?_
    show 715827882 < 715827883
    norm_num

/-! ### The room for the dense factorization -/

/-- C69 (room in `update_fact_after_LU`). With at most `2^30 - 1` rows in the block and at most `2^30 - 1` columns, the
sizes computed with `int` are the ones used in C42 and C26 (with a block at least as large as its rank). -/
theorem C69_room_partial (n Sm r : Nat) (hn : n < 2 ^ 30) (hs : Sm < 2 ^ 30) (h1 : r ≤ n) (h2 : r ≤ Sm) :
    lu_extra n Sm r = .ok (((1 + 2 * Sm - r) * r : Nat), ((2 * n - r + 1) * r / 2 : Nat)) := by
  obtain ⟨a, rfl⟩ := Nat.exists_eq_add_of_le h1
  obtain ⟨b, rfl⟩ := Nat.exists_eq_add_of_le h2
  have e1 : 1 + 2 * (r + b) - r = 1 + r + 2 * b := by omega
  have e2 : 2 * (r + a) - r + 1 = r + 2 * a + 1 := by omega
  rw [e1, e2]
  have k1 : (1 + r + 2 * b) * r < 2 ^ 63 := by
    calc (1 + r + 2 * b) * r ≤ 2 ^ 31 * 2 ^ 30 := Nat.mul_le_mul (by omega) (by omega)
      _ < 2 ^ 63 := by norm_num
  have k2 : (r + 2 * a + 1) * r < 2 ^ 63 := by
    calc (r + 2 * a + 1) * r ≤ 2 ^ 31 * 2 ^ 30 := Nat.mul_le_mul (by omega) (by omega)
      _ < 2 ^ 63 := by norm_num
  unfold lu_extra i32 i64
  rw [if_pos (by omega), ok_bind_eq, if_pos (by omega), ok_bind_eq, if_pos (by omega), ok_bind_eq]
  have f1 : (1 + 2 * ((r + b : Nat) : Int) - r) * r = (((1 + r + 2 * b) * r : Nat) : Int) := by push_cast; ring
  have f2 : (2 * ((r + a : Nat) : Int) - r + 1) * r = (((r + 2 * a + 1) * r : Nat) : Int) := by push_cast; ring
  rw [f1]
  generalize (1 + r + 2 * b) * r = x at k1 ⊢
  rw [if_pos (by omega), ok_bind_eq, if_pos (by omega), ok_bind_eq, if_pos (by omega), ok_bind_eq, if_pos (by omega),
    ok_bind_eq, f2]
  clear f1 f2
  generalize (r + 2 * a + 1) * r = y at k2 ⊢
  rw [if_pos (by omega), ok_bind_eq]
  rfl

/-- C69 fails for larger blocks: `2 * Sm` overflows from `2^30` columns on. -/
theorem C69_room_limit (n Sm r : Nat) (hs : 2 ^ 30 ≤ Sm) : lu_extra n Sm r = .error .ub := by
  unfold lu_extra i32
  rw [if_neg (by omega)]
  rfl

example : lu_extra 3 5 2 = .ok (18, 5) := by decide

end Spasm
