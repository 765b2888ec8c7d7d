import Verif.Spec.Driver
import Verif.Proofs.ChunkRun
import Verif.Proofs.Rank

/-
Random samples of the rows that remain, and the completion test.
-/

namespace Spasm

open Finset

/-- The vectors sampled. -/
def samples (q : ℕ) (A : Csr) (p : Array Nat) (n : Nat) (w : Int) (draw : Nat → Nat → Int)
    (rnd : Nat → Nat → Nat) (k : Nat) : Nat → ZMod q :=
  randComb q A p n w (draw k) (rnd k)

theorem samples_zero {q : ℕ} {A : Csr} {p : Array Nat} {n : Nat} {draw : Nat → Nat → Int}
    {rnd : Nat → Nat → Nat} {k : Nat} : samples q A p n 0 draw rnd k =
      fun c => ∑ i ∈ range n, (draw k i : ZMod q) * A.entry q (p.g i) c := by
  ext c
  unfold samples randComb randCoeff
  rw [if_pos (le_refl _)]
  refine Finset.sum_congr rfl fun i _ => ?_
  rw [if_pos (le_refl _), if_pos (le_refl _)]

theorem denseRref_rank_zero {q : ℕ} [Fact q.Prime] {n m r : Nat} {w w' : Nat → Nat → Int} {Q : Array Nat}
    (h : DenseRref q n m w r w' Q) : r = 0 ↔ ∀ i, i < n → denseRow q m w i = 0 := by
  constructor
  · rintro rfl i hi
    have := h.span
    rw [spanOf_zero] at this
    have h1 : denseRow q m w i ∈ spanOf (denseRow q m w) n := mem_spanOf hi
    rw [← this] at h1
    exact (Submodule.mem_bot _).1 h1
  · intro h0
    by_contra hr
    have hrm := h.r_m
    have h1 : denseRrefRow q m r Q w' 0 ∈ spanOf (denseRow q m w) n := by
      rw [← h.span]; exact mem_spanOf (by omega)
    have h2 : spanOf (denseRow q m w) n ≤ ⊥ := spanOf_le fun i hi => by
      rw [h0 i hi]; exact Submodule.zero_mem _
    have h3 := congrFun ((Submodule.mem_bot _).1 (h2 h1)) (Q.g 0)
    unfold denseRrefRow onCols at h3
    rw [Finset.sum_eq_single 0] at h3
    · rw [if_pos rfl] at h3
      beta_reduce at h3
      rw [if_pos (by omega), if_pos rfl] at h3
      exact one_ne_zero h3
    · intro b hb hne
      rw [if_neg fun e => hne (h.perm.2 _ _ (mem_range.mp hb) (by omega) e)]
    · intro hn
      exact absurd (mem_range.mpr (by omega)) hn

theorem onCols_eq_zero {q : ℕ} {qinv : Array Int} {m k : Nat} {qa : Array Nat} (h : IsQ qinv m k qa)
    {f : Nat → ZMod q} (hf : onCols qa k f = 0) : ∀ t, t < k → f t = 0 := by
  intro t ht
  have := congrFun hf (qa.g t)
  unfold onCols at this
  rw [Finset.sum_eq_single t] at this
  · rw [if_pos rfl] at this; exact this
  · intro b hb hne
    rw [if_neg fun e => hne (h.inj (mem_range.mp hb) ht e)]
  · intro hn; exact absurd (mem_range.mpr ht) hn

theorem onCols_denseRow {q : ℕ} {qa : Array Nat} {k : Nat} {w : Nat → Nat → Int} {t : Nat} :
    onCols qa k (denseRow q k w t) = onCols qa k fun j => (w t j : ZMod q) := by
  ext c
  unfold onCols denseRow
  exact Finset.sum_congr rfl fun j hj => by rw [if_pos (mem_range.mp hj)]

/-- A dense matrix contains samples, and the library echelonizes it. -/
structure Sampled (q : ℕ) (U : Csr) (qinv : Array Int) (m N : Nat) (v : Nat → Nat → ZMod q)
    (r : Nat) (S : Array ℚ) (Q qa : Array Nat) (w0 w : Nat → Nat → Int) : Prop where
  q_ok : IsQ qinv m (m - U.n) qa
  cells : Cells N (m - U.n) S w
  rref : DenseRref q N (m - U.n) w0 r w Q
  span : U.rowSpace q ⊔ spanOf (fun k => onCols qa (m - U.n) (denseRow q (m - U.n) w0 k)) N =
    U.rowSpace q ⊔ spanOf v N
  zero : r = 0 ↔ ∀ k, k < N → v k ∈ U.rowSpace q

theorem sample_spec (jk : Junk) {q : ℕ} [Fact q.Prime] {A U : Csr} {qinv : Array Int} (hA : A.WFV q)
    (hE : Echelon q U qinv) (hm : U.m = A.m) {p : Array Nat} {n : Nat} (hn : 0 < n)
    (hp : n ≤ p.size) (hpn : ∀ i, i < n → p.g i < A.n) (w : Int) {draw : Nat → Nat → Int}
    (hd : ∀ k i, Small q (draw k i)) (rnd : Nat → Nat → Nat) {qa : Array Nat}
    (hqa : A.m - U.n ≤ qa.size) {S : Array ℚ} {N : Nat}
    (hS : N * (A.m - U.n) ≤ S.size) {ff : Ffpack} (hff : ff.Correct q) :
    Ok (schur_dense_randomized jk A p n U qinv S (datatype_choose A.F.p) qa N w draw rnd) (fun o =>
      o.2.size = qa.size ∧ (ff.rref A.F.p N (A.m - U.n) o.1).2.1.size = S.size ∧
      ∃ w0 w', Sampled q U qinv A.m N (samples q A p n w draw rnd)
        (ff.rref A.F.p N (A.m - U.n) o.1).1 (ff.rref A.F.p N (A.m - U.n) o.1).2.1
        (ff.rref A.F.p N (A.m - U.n) o.1).2.2 o.2 w0 w') := by
  rw [hA.good.p_eq]
  refine (schur_dense_randomized_spec jk hA hE hm hn hp hpn w hd rnd hqa _ hS).mono ?_
  rintro o ⟨h1, h2, h3, -, v, ℓ, h5⟩
  have hC : Cells N (A.m - U.n) o.1 v := by
    refine ⟨by rw [h3]; exact hS, fun i j hi hj => ?_⟩
    obtain ⟨g1, g2, -⟩ := h5 i hi
    rw [g2 j hj, conv_bal hA.good.le_max (g1 j hj)]
  obtain ⟨w', c1, c2, c3⟩ := hff.rref N (A.m - U.n) o.1 v hC fun i j hi hj => (h5 i hi).1 j hj
  refine ⟨h2, by rw [c3, h3], v, w', h1, c1, c2, ?_, ?_⟩
  · have hrow : ∀ k, k < N → samples q A p n w draw rnd k =
        onCols o.2 (A.m - U.n) (denseRow q (A.m - U.n) v k) +
        fun c => ∑ i ∈ range U.n, ℓ k i * U.entry q i c := by
      intro k hk
      ext c
      rw [Pi.add_apply, onCols_denseRow]
      exact (h5 k hk).2.2.eq c
    refine le_antisymm (sup_le le_sup_left (spanOf_le fun t ht => ?_))
      (sup_le le_sup_left (spanOf_le fun t ht => ?_))
    · have : onCols o.2 (A.m - U.n) (denseRow q (A.m - U.n) v t) = samples q A p n w draw rnd t -
          fun c => ∑ i ∈ range U.n, ℓ t i * U.entry q i c := by
        rw [hrow t ht]; simp
      rw [this]
      exact Submodule.sub_mem _ (Submodule.mem_sup_right (mem_spanOf ht))
        (Submodule.mem_sup_left (sum_mem_spanOf _))
    · rw [hrow t ht]
      exact Submodule.add_mem _ (Submodule.mem_sup_right (mem_spanOf (f := fun i => onCols o.2 _
        (denseRow q _ v i)) ht)) (Submodule.mem_sup_left (sum_mem_spanOf _))
  · rw [denseRref_rank_zero c2]
    constructor
    · intro h0 k hk
      have hk' := (h5 k hk).2.2
      have : onCols o.2 (A.m - U.n) (fun t => (v k t : ZMod q)) = 0 := by
        rw [← onCols_denseRow, h0 k hk]
        ext c
        unfold onCols
        simp
      rw [this] at hk'
      unfold samples
      refine mem_spanOf_iff.2 ⟨ℓ k, fun c => ?_⟩
      rw [hk'.eq c]
      simp
    · intro h0 k hk
      have := onCols_eq_zero h1 ((h5 k hk).2.2.zero_of_mem hE (h0 k hk))
      ext c
      unfold denseRow
      split
      · exact this c (by assumption)
      · rfl

theorem csub_ok {a b : Nat} (h : b ≤ a) : csub a b = .ok (a - b) := if_pos h

theorem nnz_ok {A : Csr} (h : A.WF) : nnz A = .ok (A.p.g A.n) := by
  obtain ⟨k, hk, rfl⟩ := Ok_iff.1 ((Ok_rd A.p A.n fun k => k = A.p.g A.n).2
    ⟨by have := h.p_size; omega, rfl⟩)
  exact hk

/-- The completion test answers yes exactly if all the vectors sampled are in the row space of `U`. -/
theorem test_completion_spec (jk : Junk) {q : ℕ} [Fact q.Prime] {A U : Csr} {qinv : Array Int}
    (hA : A.WFV q) (hE : Echelon q U qinv) (hm : U.m = A.m) {p : Array Nat} {n : Nat}
    (hp : n ≤ p.size) (hpn : ∀ i, i < n → p.g i < A.n) {env : Env}
    (hd : ∀ k i, Small q (env.draw k i)) (hff : env.ff.Correct q) :
    Ok (test_completion jk env A p n U qinv) (fun b => b = true ↔ Tested q env A p n U) := by
  suffices h : Ok (test_completion jk env A p n U qinv) (fun b => b = true ↔
      ∀ k, k < env.samples → samples q A p n 0 env.draw (fun _ _ => 0) k ∈ U.rowSpace q) from
    h.mono fun b hb => by rw [hb]; unfold Tested; simp only [samples_zero]
  unfold test_completion
  rw [nnz_ok hA.toWF, Ok_bind, Ok_ok]
  by_cases h0 : n = 0 ∨ A.p.g A.n = 0
  · rw [if_pos h0, Ok_ok]
    simp only [true_iff]
    intro k _
    have : samples q A p n 0 env.draw (fun _ _ => 0) k = 0 := by
      ext c
      unfold samples randComb
      rw [if_pos (le_refl _)]
      refine Finset.sum_eq_zero fun i hi => ?_
      have hi := mem_range.mp hi
      rcases h0 with h0 | h0
      · omega
      · rw [if_pos (le_refl _), Csr.entry_eq_zero_of_not_inRow, mul_zero]
        rintro ⟨l, hl1, hl2, -⟩
        have := hA.toWF.row_le (hpn i hi)
        omega
    rw [this]
    exact Submodule.zero_mem _
  · rw [if_neg h0]
    unfold test_sample
    have := hE.n_le
    rw [csub_ok (by omega), Ok_bind, Ok_ok, Ok_bind]
    refine (sample_spec jk hA hE hm (by omega) hp hpn 0 hd (fun _ _ => 0) (qa := mkArr (A.m - U.n) jk.nat)
      (by simp) (S := dense_alloc jk (env.samples * (A.m - U.n))) (N := env.samples)
      (by unfold dense_alloc; simp) hff).mono ?_
    rintro ⟨S, qa⟩ ⟨-, -, w0, w', h3⟩
    rw [Ok_ok, decide_eq_true_iff]
    exact h3.zero

end Spasm
