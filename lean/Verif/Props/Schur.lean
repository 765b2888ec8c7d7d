import Verif.Proofs.Schur
import Verif.Props.Solve
import Mathlib.Algebra.BigOperators.Fin

/-
C21: spasm_schur.
-/

namespace Spasm

open Finset Commit

/-- Hypotheses on the arguments of `spasm_schur(A, p, n, fact, est_density, L, p_in, p_out)`. -/
structure SchurPre (q : ℕ) (A : Csr) (p : Array Nat) (n : Nat) (U : Csr) (qinv : Array Int)
    (L : Option Triplet) (p_in : Option (Array Nat)) (p_out : Array Nat) : Prop where
  A_wfv : A.WFV q
  ech : Echelon q U qinv
  m_eq : U.m = A.m
  p_size : n ≤ p.size
  p_lt : ∀ k, k < n → p.g k < A.n
  in_size : PermSize p_in A.n
  out_size : n ≤ p_out.size
  L_wf : ∀ Z, L = some Z → Z.WF ∧ Z.x.isSome = true ∧ U.n ≤ Z.m ∧
    ∀ k, k < n → permFun p_in (p.g k) < Z.n

theorem SchurPre.threads {q : ℕ} {A : Csr} {p : Array Nat} {n : Nat} {U : Csr} {qinv : Array Int}
    {L : Option Triplet} {p_in : Option (Array Nat)} {p_out : Array Nat}
    (h : SchurPre q A p n U qinv L p_in p_out) (jk : Junk) {T : Nat} {rows : Fin T → List Nat}
    (hrows : ∑ t, (rows t : Multiset Nat) = Multiset.range n) (t : Fin T) :
    Ok (schur_thread jk A U qinv L.isSome p_in p (rows t)) (fun jobs => List.Forall₂ (fun i job =>
      ∃ es ts, SchurJob q A U qinv L.isSome p_in (p.g i) job es ts) (rows t) jobs) := by
  refine schur_thread_spec jk h.A_wfv h.ech h.m_eq _ h.in_size h.p_size h.p_lt _ ?_
  intro i hi
  have : i ∈ ∑ t, (rows t : Multiset Nat) := (mem_sum_coe rows i).mpr ⟨t, hi⟩
  rw [hrows] at this; exact Multiset.mem_range.mp this

/-- C21 (no failure). For every initial size of `S`, every number of threads and distribution of
the rows, the threads compute their rows without error; in every interleaving every step is safe;
a state in which no thread can move is a state where all are done, and such a state can always be
reached; then the end of the function succeeds. -/
theorem C21_safe (jk : Junk) (q : ℕ) (A : Csr) (p : Array Nat) (n : Nat) (U : Csr)
    (qinv : Array Int) (size : Nat) (L : Option Triplet) (p_in : Option (Array Nat))
    (p_out : Array Nat) (h : SchurPre q A p n U qinv L p_in p_out) (T : Nat)
    (rows : Fin T → List Nat) (hrows : ∑ t, (rows t : Multiset Nat) = Multiset.range n) :
    ∃ S0 jobs, csr_alloc jk n A.m size A.F.p true = .ok S0 ∧
      (∀ t, schur_thread jk A U qinv L.isSome p_in p (rows t) = .ok (jobs t)) ∧
      ∀ s : St T, Reach (schurCfg A.m L.isSome) jk.int (schur_init S0 L p_out jobs) s →
        (∀ t r, step (schurCfg A.m L.isSome) jk.int t s = some r → ∃ s', r = .ok s') ∧
        (¬ s.Finished → ∃ t s', step (schurCfg A.m L.isSome) jk.int t s = some (.ok s') ∧
          s' ≠ s) ∧
        (∃ s', Reach (schurCfg A.m L.isSome) jk.int s s' ∧ s'.Finished) ∧
        (s.Finished → ∃ o, schur_finish jk s n A.m S0.F L = .ok o) := by
  have hal := csr_alloc_spec jk n A.m size true h.A_wfv.field_ok
  rw [Ok_iff] at hal
  obtain ⟨S0, hS0, hfresh, hgood⟩ := hal
  have hth : ∀ t, ∃ js, schur_thread jk A U qinv L.isSome p_in p (rows t) = .ok js ∧
      List.Forall₂ (fun i job =>
        ∃ es ts, SchurJob q A U qinv L.isSome p_in (p.g i) job es ts) (rows t) js := by
    intro t
    have := h.threads jk hrows t
    rwa [Ok_iff] at this
  choose jobs hj1 hj2 using hth
  refine ⟨S0, jobs, hS0, hj1, ?_⟩
  intro s hs
  obtain ⟨cap, used, mem, h1, h2, h3, h4, h5, h6, h7, h8, h9⟩ :=
    schur_reach (fun Z hZ => (h.L_wf Z hZ).1) h.out_size hrows hj2 hfresh
  have hs' := hs
  rw [h1] at hs'
  obtain ⟨⟨log, hI⟩, h0⟩ := reach_inv h4 h5 h6 h8 h9 hs'
  refine ⟨?_, ?_, completes h4 h8 h9 ⟨log, hI⟩, ?_⟩
  · intro t r hst
    have := inv_step h4 h8 h9 hI hst
    rw [Ok_iff] at this
    obtain ⟨s', e, -⟩ := this
    exact ⟨s', e⟩
  · intro hf
    obtain ⟨t, s', e1, e2⟩ := progress h4 h8 h9 hI hf
    exact ⟨t, s', e1, fun e => by rw [e] at e2; exact lt_irrefl _ e2⟩
  · intro hf
    have hfi := schur_final jk h.A_wfv (fun Z hZ => (h.L_wf Z hZ).1) (fun Z hZ => (h.L_wf Z hZ).2.1)
      (fun Z hZ => (h.L_wf Z hZ).2.2) h.out_size hrows hj2 hfresh (hgood q h.A_wfv.good) hs hf
    have this := hfi.2
    rw [Ok_iff] at this
    obtain ⟨o, e, -⟩ := this
    exact ⟨o, e⟩

/-- C21 (result). Whatever the initial size, the threads and the schedule: row `k` of `S` comes from
a row `p[σ k]` of `A`, each of them being used once; it is this row of `A` minus a combination `ℓ k`
of the rows of `U`; it has no entry on a pivotal column, no explicit zero, no repeated column.
`p_out` tells the (original) row, and the coefficients `ℓ k` are what is added to this row of `L`
(with no entry for zero coefficients). -/
theorem C21_result (jk : Junk) (q : ℕ) (A : Csr) (p : Array Nat) (n : Nat) (U : Csr)
    (qinv : Array Int) (size : Nat) (L : Option Triplet) (p_in : Option (Array Nat))
    (p_out : Array Nat) (h : SchurPre q A p n U qinv L p_in p_out)
    (S : Csr) (L' : Option Triplet) (p_out' : Array Nat)
    (hrun : SchurRun jk A p n U qinv size L p_in p_out S L' p_out') :
    ∃ (σ : Nat → Nat) (ℓ : Nat → Nat → ZMod q), IsPerm σ n ∧
      IsSchur q A U qinv n (fun k => p.g (σ k)) S ℓ ∧
      p_out'.size = p_out.size ∧ (∀ k, k < n → p_out'.g k = permFun p_in (p.g (σ k))) ∧
      (L = none → L' = none) ∧
      ∀ Z, L = some Z → ∃ Z', L' = some Z' ∧ Z'.WF ∧ Z'.x.isSome = true ∧
        Z'.n = Z.n ∧ Z'.m = Z.m ∧ Z'.F = Z.F ∧ (Z.WFV q → Z'.WFV q) ∧
        (∀ i c, Z'.Has i c → Z.Has i c ∨ ∃ k, k < n ∧ p_out'.g k = i ∧ c < U.n ∧ ℓ k c ≠ 0) ∧
        ∀ i c, Z'.sum q i c = Z.sum q i c +
          ∑ k ∈ range n, if p_out'.g k = i then ℓ k c else 0 := by
  obtain ⟨T, rows, jobs, S0, s, hrows, hth, hS0, hr, hf, hfin, rfl⟩ := hrun
  have hal := csr_alloc_spec jk n A.m size true h.A_wfv.field_ok
  rw [hS0, Ok_ok] at hal
  obtain ⟨hfresh, hgood⟩ := hal
  have hj : ∀ t, List.Forall₂ (fun i job =>
      ∃ es ts, SchurJob q A U qinv L.isSome p_in (p.g i) job es ts) (rows t) (jobs t) := by
    intro t
    have := h.threads jk hrows t
    rwa [hth t, Ok_ok] at this
  have hfi := schur_final jk h.A_wfv (fun Z hZ => (h.L_wf Z hZ).1) (fun Z hZ => (h.L_wf Z hZ).2.1)
    (fun Z hZ => (h.L_wf Z hZ).2.2) h.out_size hrows hj hfresh (hgood q h.A_wfv.good) hr hf
  have htg := hfi.1
  have this := hfi.2
  rw [hfin, Ok_ok] at this
  obtain ⟨σ, ℓ, h1, h2, h3, h4, h5⟩ := this
  refine ⟨σ, ℓ, h1, h2, htg, h3, h4, ?_⟩
  intro Z hZ
  obtain ⟨Z', e1, e2, e3, e4, e5, e6, e7, e9, e8⟩ := h5 Z hZ
  refine ⟨Z', e1, e2, e3, e4, e5, e6, e7, ?_, ?_⟩
  · intro i c hh
    rcases e9 i c hh with h | ⟨k, f1, f2, f3⟩
    · exact .inl h
    · exact .inr ⟨k, f1, by rw [h3 k f1]; exact f2, f3⟩
  intro i c
  rw [e8]
  congr 1
  refine Finset.sum_congr rfl fun k hk => ?_
  rw [h3 k (mem_range.mp hk)]

/-- C21 (determinism). Two Schur complements of the same matrix have the same rows: if row `k` of
one and row `k'` of the other come from the same row of `A`, they represent the same vector and have
the same coefficients.  Hence only the order of the rows depends on the schedule. -/
theorem C21_unique (q : ℕ) (A U : Csr) (qinv : Array Int) (hE : Echelon q U qinv)
    (hm : U.m = A.m) (n : Nat) (r r' : Nat → Nat) (S S' : Csr) (ℓ ℓ' : Nat → Nat → ZMod q)
    (h : IsSchur q A U qinv n r S ℓ) (h' : IsSchur q A U qinv n r' S' ℓ')
    (k k' : Nat) (hk : k < n) (hk' : k' < n) (hr : r k = r' k') :
    (∀ i, i < U.n → ℓ k i = ℓ' k' i) ∧ ∀ c, c < A.m → S.entry q k c = S'.entry q k' c := by
  have hz : ∀ (Z : Csr) (ρ : Nat → Nat) (y : Nat → Nat → ZMod q) (t : Nat), t < n →
      IsSchur q A U qinv n ρ Z y → ∀ i, i < U.n → Z.entry q t (U.pivot i) = 0 := by
    intro Z ρ y t ht hZ i hi
    refine Csr.entry_eq_zero_of_not_inRow fun hin => ?_
    have := hZ.elim t ht _ hin
    have := hE.piv i hi
    omega
  have hy : ∀ i, i < U.n → ℓ k i - ℓ' k' i = 0 := by
    refine hE.coeff_zero (fun i => ℓ k i - ℓ' k' i) ?_
    intro i hi
    have e1 := h.eq k hk (U.pivot i) (by rw [← hm]; exact hE.pivot_lt hi)
    have e2 := h'.eq k' hk' (U.pivot i) (by rw [← hm]; exact hE.pivot_lt hi)
    rw [hz S r ℓ k hk h i hi, zero_add] at e1
    rw [hz S' r' ℓ' k' hk' h' i hi, zero_add, ← hr, e1] at e2
    simp only [sub_mul]
    rw [Finset.sum_sub_distrib, e2, sub_self]
  refine ⟨fun i hi => sub_eq_zero.mp (hy i hi), ?_⟩
  intro c hc
  have e1 := h.eq k hk c hc
  have e2 := h'.eq k' hk' c hc
  rw [← hr, e1] at e2
  have : ∑ i ∈ range U.n, ℓ k i * U.entry q i c = ∑ i ∈ range U.n, ℓ' k' i * U.entry q i c :=
    Finset.sum_congr rfl fun i hi => by rw [sub_eq_zero.mp (hy i (mem_range.mp hi))]
  rw [this] at e2
  exact add_right_cancel e2

/-- A concrete case: the three rows of a matrix of rank 2, an older entry in `L`, and rows that
have been permuted before. -/
def exZ : Triplet :=
  { n := 5, m := 3, nz := 1, i := #[4], j := #[0], x := some #[2], F := Field.ofPrime 7 }

theorem exZ_wf : exZ.WF where
  i_size := by decide
  j_size := by decide
  x_size := by intro a ha; cases ha; decide
  i_lt := by decide
  j_lt := by decide
  field_ok := by decide

theorem exSchurPre : SchurPre 7 exFA #[2, 0] 2 exU exUqinv (some exZ) (some #[3, 0, 1]) #[9, 9] where
  A_wfv := exFA_wfv
  ech := exU_echelon
  m_eq := rfl
  p_size := by decide
  p_lt := by decide
  in_size := by intro a ha; cases ha; decide
  out_size := by decide
  L_wf := by
    rintro Z hZ
    cases hZ
    exact ⟨exZ_wf, rfl, by decide, by decide⟩

/-- With two threads, a run exists. -/
example (jk : Junk) : ∃ S L' po,
    SchurRun jk exFA #[2, 0] 2 exU exUqinv 0 (some exZ) (some #[3, 0, 1]) #[9, 9] S L' po := by
  have hrows : ∑ t, ((fun t : Fin 2 => if t = 0 then [1] else [0]) t : Multiset Nat) =
      Multiset.range 2 := by
    rw [Fin.sum_univ_two]; decide
  obtain ⟨S0, jobs, h1, h2, h3⟩ := C21_safe jk 7 exFA #[2, 0] 2 exU exUqinv 0 (some exZ)
    (some #[3, 0, 1]) #[9, 9] exSchurPre 2 _ hrows
  obtain ⟨-, -, ⟨s, h4, h5⟩, -⟩ := h3 _ .init
  obtain ⟨o, h6⟩ := (h3 s h4).2.2.2 h5
  exact ⟨o.1, o.2, s.tags, 2, _, jobs, S0, s, hrows, h2, h1, h4, h5, h6, rfl⟩

end Spasm
