import Verif.Proofs.ChunkRun
import Verif.Proofs.FfpackExists
import Verif.Spec.Check3
import Mathlib.Tactic.IntervalCases

/-
C30: transfer of dense echelon forms.

The theorems require that `U` has a row or that the rank is not 0, or that `realloc(ptr, 0)` does not
return NULL.  Otherwise the function succeeds, but `U->x` becomes NULL and the next transfer that adds a
row dereferences it (C30_empty).
-/

namespace Spasm

open Finset

/-- C30 (reduced echelon forms). `S` contains a reduced echelon form, of rank `r`, of an `n x Sm` matrix
`w0`, whose columns are columns without pivot.  The function succeeds within the buffers it allocates; `U`
is still echelonized, with its previous rows and pivots followed by `r` rows, and its row space is the
previous one plus the space spanned by the rows of `w0`.  Nothing else changes. -/
theorem C30_rref_partial (jk : Junk) (q : ℕ) (fact : Lu) (n r Sm : Nat) (S : Array ℚ) (dt : Datatype)
    (Q qa : Array Nat) (w0 w : Nat → Nat → Int) (hE : Echelon q fact.U fact.qinv)
    (hx : fact.U.x.isSome = true) (hxs : ∀ a, fact.U.x = some a → fact.U.j.size ≤ a.size)
    (hR : DenseRref q n Sm w0 r w Q) (hC : Cells n Sm S w) (hqa : IsQ fact.qinv fact.U.m Sm qa)
    (hps : fact.U.n + r < fact.U.p.size) (h0 : 0 < fact.U.n + r ∨ jk.null0 = false) :
    Ok (update_U_after_rref jk r Sm S dt Q qa fact) (fun f =>
      Echelon q f.U f.qinv ∧ f.U.n = fact.U.n + r ∧ f.U.m = fact.U.m ∧ f.U.F = fact.U.F ∧
      (∀ i, i < fact.U.n → f.U.entry q i = fact.U.entry q i ∧ f.U.pivot i = fact.U.pivot i) ∧
      (∀ i, i < r → f.U.pivot (fact.U.n + i) = qa.g (Q.g i)) ∧
      f.U.rowSpace q = fact.U.rowSpace q ⊔ spanOf (fun i => onCols qa Sm (denseRow q Sm w0 i)) n ∧
      f = { fact with U := f.U, qinv := f.qinv }) := by
  refine (update_U_spec jk dt hE hx hxs hR hC hqa hps h0).mono ?_
  rintro f ⟨unz, g1, g2, -⟩
  exact ⟨g1.ech, g1.n_eq, g1.m_eq, g1.F_eq, fun i hi => ⟨g1.old i hi, g1.pold i hi⟩, g1.pnew,
    g1.rref hR, g2⟩

/-- C30 (reduced echelon forms, in a factorization). A chunk `p[0..n)` of the rows that remain is
processed: the factorization is still valid, and only the other rows remain. -/
theorem C30_chunk_rref_partial (jk : Junk) (q : ℕ) (A : Csr) (a : DenseIn) (fact : Lu) (nr old : Nat)
    (complete : Bool) (ha : a.U = fact.U ∧ a.qinv = fact.qinv ∧ a.L = fact.Ltmp) (hpre : DensePre q a)
    (hdt : a.dt = datatype_choose q) (hL : fact.Ltmp = none)
    (h : Partial q A fact.U fact.qinv fact.Ltmp fact.p (fun t => a.A.entry q (a.p.g t)) (a.n + nr)
      (fun t => permFun a.p_in (a.p.g t)) old complete)
    (o : DenseOut) (hrun : SchurDenseRun jk a o) (r : Nat) (S : Array ℚ) (w0 w : Nat → Nat → Int)
    (Q : Array Nat) (hw0 : Cells a.n (a.A.m - a.U.n) o.S w0)
    (hR : DenseRref q a.n (a.A.m - a.U.n) w0 r w Q) (hC : Cells a.n (a.A.m - a.U.n) S w)
    (h0 : 0 < fact.U.n + r ∨ jk.null0 = false) :
    Ok (update_U_after_rref jk r (a.A.m - a.U.n) S a.dt Q o.q fact) (fun f =>
      Partial q A f.U f.qinv f.Ltmp f.p (fun t => a.A.entry q (a.p.g (a.n + t))) nr
        (fun t => permFun a.p_in (a.p.g (a.n + t))) old complete ∧
      f.U.n = fact.U.n + r) := by
  obtain ⟨w1, ℓ, hin⟩ := chunk_in jk hpre hdt hrun
  have he : ∀ i j, i < a.n → j < a.A.m - a.U.n → w0 i j = w1 i j := fun i j hi hj => by
    have := (hw0.2 i j hi hj).symm.trans (hin.cells.2 i j hi hj)
    exact_mod_cast this
  exact (chunk_run_rref jk ha.1 ha.2.1 (by rw [← ha.1]; exact hpre.pre.m_eq.symm) hL h (fun _ _ => rfl) hin (hR.congr he) hC h0
    a.dt).mono fun f hf => ⟨hf.1, hf.2.1⟩

/-- C30 (LU). A chunk `p[0..n)` of the rows that remain is processed: whatever the schedule of the
computation of the dense Schur complement, and whatever the LU factorization of the result (rank,
factors, permutations), the transfer succeeds within the buffers it allocates, `U`, `L` and `p` are
still a valid factorization, and only the other rows remain.  `pivotal` is not set for these.  For
incomplete factorizations, `pivotal` must have an entry for each row of `A` (the code allocates one for
each row of the current Schur complement, see C28). -/
theorem C30_lu_partial (jk : Junk) (q : ℕ) (hq : q.Prime) (A : Csr) (a : DenseIn) (fact : Lu) (nr old : Nat)
    (complete : Bool) (ha : a.U = fact.U ∧ a.qinv = fact.qinv ∧ a.L = fact.Ltmp) (hpre : DensePre q a)
    (hdt : a.dt = datatype_choose q) (Z0 : Triplet) (hL : fact.Ltmp = some Z0)
    (h : Partial q A fact.U fact.qinv fact.Ltmp fact.p (fun t => a.A.entry q (a.p.g t)) (a.n + nr)
      (fun t => permFun a.p_in (a.p.g t)) old complete)
    (o : DenseOut) (hrun : SchurDenseRun jk a o) (r : Nat) (S : Array ℚ) (w0 w : Nat → Nat → Int)
    (P Q : Array Nat) (hw0 : Cells a.n (a.A.m - a.U.n) o.S w0)
    (hR : IsPluq q a.n (a.A.m - a.U.n) w0 r w P Q) (hC : Cells a.n (a.A.m - a.U.n) S w)
    (h0 : 0 < fact.U.n + r ∨ jk.null0 = false) (pivotal : Array Bool)
    (hpv : complete = false → A.n ≤ pivotal.size ∧
      ∀ t, t < a.n + nr → pivotal.g (permFun a.p_in (a.p.g t)) = false) :
    Ok (update_fact_after_LU jk a.n (a.A.m - a.U.n) r S a.dt P Q o.q (some o.p_out) Z0.nz complete pivotal
        { fact with Ltmp := o.L }) (fun x =>
      Partial q A x.1.U x.1.qinv x.1.Ltmp x.1.p (fun t => a.A.entry q (a.p.g (a.n + t))) nr
        (fun t => permFun a.p_in (a.p.g (a.n + t))) old complete ∧
      x.1.U.n = fact.U.n + r ∧ x.2.size = pivotal.size ∧
      (complete = false → ∀ t, t < nr → x.2.g (permFun a.p_in (a.p.g (a.n + t))) = false)) := by
  have : Fact q.Prime := ⟨hq⟩
  obtain ⟨w1, ℓ, hin⟩ := chunk_in jk hpre hdt hrun
  have he : ∀ i j, i < a.n → j < a.A.m - a.U.n → w0 i j = w1 i j := fun i j hi hj => by
    have := (hw0.2 i j hi hj).symm.trans (hin.cells.2 i j hi hj)
    exact_mod_cast this
  obtain ⟨Lp, hp, -⟩ := h.p_size (by rw [hL]; rfl)
  rw [hL, hp] at h
  exact (chunk_run_lu jk ha.1 ha.2.1 (by rw [← ha.1]; exact hpre.pre.m_eq.symm) (ha.2.2.trans hL) hp h (fun _ _ => rfl)
    (fun _ _ => rfl) hpre.pre.out_size hin (hR.congr he) hC h0 a.dt hpv).mono
    fun x hx => ⟨hx.1, hx.2.1, hx.2.2.2.2.2.1, hx.2.2.2.2.2.2⟩

/-- An empty `U` with room for one entry. -/
def exEmpty : Lu where
  r := 0
  complete := false
  L := none
  U := { n := 0, m := 2, p := #[0, 9, 9], j := #[9], x := some #[9], F := Field.ofPrime 7 }
  qinv := #[-1, -1]
  p := none
  Ltmp := none

/-- C30 (negation in a corner case). If `realloc(ptr, 0)` returns NULL, after a first chunk of rank 0 is
transferred to an empty `U`, the transfer of a chunk of rank 1 fails. -/
theorem C30_empty : ∃ (jk : Junk) (fact : Lu), Echelon 7 fact.U fact.qinv ∧ fact.U.x.isSome = true ∧
    DenseRref 7 1 2 (fun _ _ => 0) 0 (fun _ _ => 0) #[0, 1] ∧
    DenseRref 7 1 2 (fun _ j => if j = 0 then 1 else 0) 1 (fun _ _ => 0) #[0, 1] ∧
    ∃ fact', update_U_after_rref jk 0 2 #[0, 0] (datatype_choose 7) #[0, 1] #[0, 1] fact = .ok fact' ∧
      update_U_after_rref jk 1 2 #[1, 0] (datatype_choose 7) #[0, 1] #[0, 1] fact' = .error .ub := by
  have hperm : IsPerm (#[0, 1] : Array Nat).g 2 := by
    refine ⟨by decide, fun i k hi hk => ?_⟩
    interval_cases i <;> interval_cases k <;> decide
  refine ⟨⟨0, 0, true⟩, exEmpty, Echelon.of_check (by decide +kernel) (by decide) (by decide)
      (by decide) (by decide) (by decide), rfl,
    ⟨by decide, by decide, rfl, hperm, fun i _ hi => absurd hi (Nat.not_lt_zero i), ?_⟩,
    ⟨by decide, by decide, rfl, hperm, fun _ _ _ _ _ => by unfold Bal; decide, ?_⟩,
    _, rfl, by decide +kernel⟩
  · refine le_antisymm (spanOf_le fun i hi => absurd hi (Nat.not_lt_zero i)) (spanOf_le fun i _ => ?_)
    have : denseRow 7 2 (fun _ _ => 0) i = 0 := by
      ext c; unfold denseRow; simp
    rw [this]
    exact Submodule.zero_mem _
  · refine spanOf_congr fun i hi => ?_
    have : i = 0 := by omega
    subst this
    ext c
    unfold denseRrefRow denseRow onCols
    rw [Finset.sum_range_succ, Finset.sum_range_succ, Finset.sum_range_zero]
    have g0 : (#[0, 1] : Array Nat).g 0 = 0 := rfl
    have g1 : (#[0, 1] : Array Nat).g 1 = 1 := rfl
    rw [g0, g1]
    by_cases h0 : c = 0
    · subst h0; simp
    · by_cases h1 : c < 2
      · have : c = 1 := by omega
        subst this; simp
      · rw [if_neg h1, if_neg (by omega), if_neg (by omega)]; simp

/-- The library can meet its specification: for every prime there is one that returns correct results
on all matrices. -/
theorem C30_library (q : ℕ) (hq : q.Prime) : ∃ ff : Ffpack, ff.Correct q :=
  have : Fact q.Prime := ⟨hq⟩
  Ffpack.exists_correct q

/-! ### A concrete case -/

/-- The beginning of the factorization of `exB` modulo 7: `U` and `L` are empty. -/
def exFact0 : Lu :=
  { r := 0, complete := false, L := none,
    U := { n := 0, m := 4, p := #[0, 9, 9], j := #[9], x := some #[9], F := Field.ofPrime 7 },
    qinv := #[-1, -1, -1, -1], p := some #[0, 0],
    Ltmp := some { n := 2, m := 2, nz := 0, i := #[], j := #[], x := some #[], F := Field.ofPrime 7 } }

theorem exFact0_partial (complete : Bool) :
    Partial 7 exB exFact0.U exFact0.qinv exFact0.Ltmp exFact0.p (exB.entry 7) 2 id 0 complete := by
  refine Partial.init (Csr.wfv_of_check (by decide +kernel)) rfl rfl (by decide) rfl ?_ (by decide)
    (by decide) (fun _ => ⟨_, rfl, by decide⟩) ?_
  · intro a ha; cases ha; decide
  · rintro Z hZ
    cases hZ
    refine ⟨⟨⟨by decide, by decide, ?_, by decide, by decide, by decide⟩, exB_wfv.good, rfl, ?_⟩, rfl,
      by decide, rfl⟩
    · intro a ha; cases ha; decide
    · intro k hk; exact absurd hk (Nat.not_lt_zero k)

/-- C30 (explicit zeros). When `L` is computed, the transfer of a dense chunk stores all the entries of the echelon
form, zeros included: with the first row `(1 0 0 0)` and the (correct) decomposition `1 * (1 0 0 0)`, four entries are
added to `U`, three of which are zero. -/
theorem C30_explicit_zero : IsPluq 7 1 4 (fun _ j => if j = 0 then 1 else 0) 1 (fun _ j => if j = 0 then 1 else 0)
      #[0] #[0, 1, 2, 3] ∧
    Cells 1 4 #[1, 0, 0, 0] (fun _ j => if j = 0 then 1 else 0) ∧
    ∃ r, update_fact_after_LU default 1 4 1 #[1, 0, 0, 0] (datatype_choose 7) #[0] #[0, 1, 2, 3] #[0, 1, 2, 3] none 0
      true #[false, false] exFact0 = .ok r ∧ r.1.U.n = 1 ∧ r.1.U.row 0 = [(0, 1), (1, 0), (2, 0), (3, 0)] := by
  refine ⟨?_, ?_, _, rfl, by decide +kernel, by decide +kernel⟩
  · refine ⟨by decide, by decide, rfl, rfl, ⟨by decide, fun i k hi hk => ?_⟩, ⟨by decide, fun i k hi hk => ?_⟩, ?_, ?_, ?_⟩
    · omega
    · interval_cases i <;> interval_cases k <;> decide
    · intro i j _ hj
      unfold Bal
      interval_cases j <;> decide
    · intro i hi
      have : i = 0 := by omega
      subst this; decide
    · intro i j hi hj
      have : i = 0 := by omega
      subst this
      revert j; decide +kernel
  · refine ⟨by decide, fun i j hi hj => ?_⟩
    have : i = 0 := by omega
    subst this
    interval_cases j <;> decide +kernel

/-- A chunk with the first row only; buffers larger than needed. -/
def exChunk : DenseIn :=
  { A := exB, p := #[0, 1], n := 1, p_in := none, U := exFact0.U, qinv := exFact0.qinv,
    L := exFact0.Ltmp, S := #[9, 9, 9, 9, 9], dt := datatype_choose 7, q := #[8, 8, 8, 8], p_out := #[9] }

theorem exChunk_pre : DensePre 7 exChunk where
  pre :=
    { A_wfv := exB_wfv
      ech := (exFact0_partial false).ech
      m_eq := rfl
      p_size := by decide
      p_lt := by decide
      in_size := by intro a ha; cases ha
      out_size := by decide
      L_wf := by
        intro Z hZ
        have h := (exFact0_partial false).L Z hZ
        cases hZ
        exact ⟨h.wfv.toWF, rfl, by decide, by decide⟩ }
  S_size := by decide
  q_size := by decide

theorem exChunk_ne : exChunk.A.entry 7 (exChunk.p.g 0) 0 ≠ 0 := by decide +kernel

/-- The hypotheses of C30_lu_partial hold for this chunk, with a rank that is not 0; one row remains. -/
example (jk : Junk) (complete : Bool) :
    Partial 7 exB exFact0.U exFact0.qinv exFact0.Ltmp exFact0.p
      (fun t => exChunk.A.entry 7 (exChunk.p.g t)) (exChunk.n + 1)
      (fun t => permFun exChunk.p_in (exChunk.p.g t)) 0 complete ∧
    ∃ o r S w0 w P Q, SchurDenseRun jk exChunk o ∧ Cells exChunk.n (exChunk.A.m - exChunk.U.n) o.S w0 ∧
      IsPluq 7 exChunk.n (exChunk.A.m - exChunk.U.n) w0 r w P Q ∧
      Cells exChunk.n (exChunk.A.m - exChunk.U.n) S w ∧ 0 < exFact0.U.n + r := by
  have h7 : Fact (Nat.Prime 7) := ⟨by decide⟩
  constructor
  · refine (exFact0_partial complete).rename ?_ ?_
    · intro t ht
      have : exChunk.p.g t = t := by interval_cases t <;> rfl
      simp only [this]
      rfl
    · intro t ht
      have : exChunk.p.g t = t := by interval_cases t <;> rfl
      simp only [this]
      rfl
  · have hrows : ∑ t, ((fun _ : Fin 1 => [0]) t : Multiset Nat) = Multiset.range exChunk.n := by
      decide
    obtain ⟨qa, L1, jobs, h1, h2, h3, h4⟩ := C29_safe jk 7 exChunk exChunk_pre 1 _ hrows
    obtain ⟨-, -, s, h5, h6⟩ := h4 _ .init
    have hrun : SchurDenseRun jk exChunk ⟨s.S, qa, s.po, L1.map s.toTriplet⟩ :=
      ⟨1, _, jobs, L1, s, hrows, h1, h2, h3, h5, h6, rfl, rfl, rfl⟩
    obtain ⟨w0, ℓ, hin⟩ := chunk_in jk exChunk_pre rfl hrun
    obtain ⟨r, w, P, Q, hR⟩ := exists_pluq (q := 7) exChunk.n (exChunk.A.m - exChunk.U.n) w0
    refine ⟨_, r, _, w0, w, P, Q, hrun, hin.cells, hR, (cells_fill hin.cells.1 w).1, ?_⟩
    by_contra hr
    have hr0 : r = 0 := by omega
    have hz : ∀ j, j < exChunk.A.m - exChunk.U.n → (w0 0 j : ZMod 7) = 0 := by
      intro j hj
      obtain ⟨k, hk, rfl⟩ := hR.q_perm.surj hj
      have := hR.prod 0 k (by decide) hk
      have hP : P.g 0 = 0 := by have := hR.p_perm.1 0 (by decide); exact Nat.lt_one_iff.mp this
      rw [hP] at this
      rw [this, hr0, Finset.sum_range_zero]
    have hv := (hin.red 0 (by decide)).eq 0
    have hn0 : exChunk.U.n = 0 := rfl
    have hon : ∀ c, onCols qa (exChunk.A.m - exChunk.U.n) (fun j => (w0 0 j : ZMod 7)) c = 0 := by
      intro c
      refine Finset.sum_eq_zero fun t ht => ?_
      simp only [hz t (mem_range.mp ht), ite_self]
    rw [hon, hn0, Finset.sum_range_zero, add_zero] at hv
    exact exChunk_ne hv

/-- A chunk of two rows of rank 1 on the two columns without pivot of `exU`: the library returned the
reduced echelon form. -/
example :
    update_U_after_rref default 1 2 #[1, 3, 0, 0] (datatype_choose 7) #[1, 0] #[2, 3]
      { r := 0, complete := false, L := none, U := { exU with p := #[0, 3, 5, 9] }, qinv := exUqinv,
        p := none, Ltmp := none } =
    .ok { r := 0, complete := false, L := none, qinv := #[1, 0, -1, 2], p := none, Ltmp := none,
          U := { exU with n := 3, p := #[0, 3, 5, 7], j := #[1, 2, 3, 0, 2, 3, 2],
                          x := some #[1, 2, -3, 1, 3, 1, 3] } } := by
  decide +kernel

end Spasm
