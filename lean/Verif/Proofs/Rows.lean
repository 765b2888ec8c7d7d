import Verif.Proofs.Schur
import Verif.Model.Rref

/-
Parallel construction of a matrix row by row (single buffer): from the rows computed by the threads
to the matrix.
-/

namespace Spasm

open Finset Commit

/-- The items of a row. -/
def rowIts (es : List (Nat × Int)) : List (Nat × List Int) := es.map fun e => (0, ent0 e)

theorem comp_rowIts (es : List (Nat × Int)) : comp 0 (rowIts es) = es.map ent0 := by
  induction es with
  | nil => rfl
  | cons e es ih => rw [rowIts, List.map_cons, comp_cons_eq, ← rowIts, ih, List.map_cons]

theorem enc_rowIts_append (es : List (Nat × Int)) (j : Nat × Int) :
    enc (fun _ => 0) (rowIts (es ++ [j])) =
      enc (fun _ => 0) (rowIts es) ++ [⟨0, es.length, 0, j.1⟩, ⟨0, es.length, 1, j.2⟩] := by
  rw [rowIts, List.map_append, enc_append, ← rowIts]
  simp [enc, ent0, List.zipIdx, comp_rowIts]

/-- `job` is the job of a row with entries `es`. -/
structure RowJob (cfg : Cfg) (job : Job) (es : List (Nat × Int)) : Prop where
  ws : job.ws = enc (fun _ => 0) (rowIts es)
  len : job.len 0 = es.length
  need : es.length ≤ cfg.need 0 es.length
  grow : ∀ k, k + es.length ≤ cfg.grow 0 k es.length

theorem RowJob.encodes {cfg : Cfg} (hnb : cfg.nb = 1) (hw : cfg.wid 0 = 2) {job : Job}
    {es : List (Nat × Int)} (h : RowJob cfg job es) : Encodes cfg job (rowIts es) := by
  refine ⟨h.ws, ?_, ?_⟩
  · intro b hb
    have : b = 0 := by omega
    subst this
    rw [h.len, comp_rowIts, List.length_map]
  · intro it hit
    unfold rowIts at hit
    rw [List.mem_map] at hit
    obtain ⟨e, -, rfl⟩ := hit
    exact ⟨by simp only; omega, by simp only [hw]; rfl⟩

theorem RowJob.jobOk {cfg : Cfg} (hnb : cfg.nb = 1) (hw : cfg.wid 0 = 2) {job : Job}
    {es : List (Nat × Int)} (h : RowJob cfg job es) : JobOk cfg job := by
  refine (h.encodes hnb hw).jobOk (by omega) (by omega) ?_ ?_
  · intro b hb
    have : b = 0 := by omega
    subst this
    rw [h.len]; exact h.need
  · intro b hb k
    have : b = 0 := by omega
    subst this
    rw [h.len]; exact h.grow k

section
variable {cfg : Cfg} {T : Nat} {rows : Fin T → List Nat} {jobs : Fin T → List Job}
  {P : Nat → List (Nat × Int) → Prop} {K0 : Csr} {n N m size : Nat} {G : Int}

/-- The hypotheses of the commit protocol. -/
theorem rows_setup (hnb : cfg.nb = 1) (hw : cfg.wid 0 = 2)
    (hjobs : ∀ t, List.Forall₂ (fun i job => ∃ es, P i es ∧ RowJob cfg job es) (rows t) (jobs t))
    (hcard : Multiset.card (∑ t, (rows t : Multiset Nat)) = n) (hN : n ≤ N)
    (hK0 : Fresh K0 n m size G true) :
    0 < cfg.nb ∧
    (∀ b, b < cfg.nb → (fun _ => 0 : Nat → Nat) b ≤ (fun _ => K0.nzmax : Nat → Nat) b) ∧
    (∀ t, ∀ j ∈ jobs t, JobOk cfg j) ∧
    Multiset.card (∑ t, (jobs t : Multiset Job)) < K0.p.size ∧
    Multiset.card (∑ t, (jobs t : Multiset Job)) ≤ (mkArr N (fun _ => 0) : Array Nat).size := by
  have hc := forall₂_card hjobs
  have hps := hK0.p_size
  refine ⟨by omega, fun _ _ => Nat.zero_le _, ?_, by omega, by rw [size_mkArr]; omega⟩
  intro t j hj
  obtain ⟨k, hk, rfl⟩ := List.getElem_of_mem hj
  have h := List.forall₂_iff_get.mp (hjobs t)
  obtain ⟨es, -, h⟩ := h.2 k (by omega) hk
  exact h.jobOk hnb hw

theorem rows_safe (hnb : cfg.nb = 1) (hw : cfg.wid 0 = 2)
    (hjobs : ∀ t, List.Forall₂ (fun i job => ∃ es, P i es ∧ RowJob cfg job es) (rows t) (jobs t))
    (hcard : Multiset.card (∑ t, (rows t : Multiset Nat)) = n) (hN : n ≤ N)
    (hK0 : Fresh K0 n m size G true) {junk : Nat → Int} {s : St T}
    (hr : Reach cfg junk (rows_init K0 N jobs) s) :
    (∀ t r, step cfg junk t s = some r → ∃ s', r = .ok s') ∧
    (¬ s.Finished → ∃ t s', step cfg junk t s = some (.ok s') ∧ s' ≠ s) ∧
    ∃ s', Reach cfg junk s s' ∧ s'.Finished := by
  obtain ⟨h4, h5, h6, h8, h9⟩ := rows_setup hnb hw hjobs hcard hN hK0
  obtain ⟨⟨log, hI⟩, h0⟩ := reach_inv h4 h5 h6 h8 h9 hr
  refine ⟨?_, ?_, completes h4 h8 h9 ⟨log, hI⟩⟩
  · intro t r hst
    have := inv_step h4 h8 h9 hI hst
    rw [Ok_iff] at this
    obtain ⟨s', e, -⟩ := this
    exact ⟨s', e⟩
  · intro hf
    obtain ⟨t, s', e1, e2⟩ := progress h4 h8 h9 hI hf
    exact ⟨t, s', e1, fun e => by rw [e] at e2; exact lt_irrefl _ e2⟩

/-- The matrix at the end. -/
theorem rows_final (hnb : cfg.nb = 1) (hw : cfg.wid 0 = 2)
    (hjobs : ∀ t, List.Forall₂ (fun i job => ∃ es, P i es ∧ RowJob cfg job es) (rows t) (jobs t))
    (hcard : Multiset.card (∑ t, (rows t : Multiset Nat)) = n) (hN : n ≤ N)
    (hK0 : Fresh K0 n m size G true) (hG : G < 0 ∨ (2 ≤ G ∧ G ≤ 0xfffffffb))
    (hP : ∀ i es, P i es → ∀ e ∈ es, e.1 < m) {junk : Nat → Int} {s : St T}
    (hr : Reach cfg junk (rows_init K0 N jobs) s) (hf : s.Finished) :
    ∃ (σ : List Nat) (R : Nat → List (Nat × Int)), (σ : Multiset Nat) = ∑ t, (rows t : Multiset Nat) ∧
      σ.length = n ∧ (∀ k, k < n → P (σ.getD k 0) (R k)) ∧
      (s.toCsr K0.n K0.m K0.F).WF ∧ ∀ k, k < n → (s.toCsr K0.n K0.m K0.F).row k = R k := by
  obtain ⟨h4, h5, h6, h8, h9⟩ := rows_setup hnb hw hjobs hcard hN hK0
  obtain ⟨⟨log, hI⟩, h0⟩ := reach_inv h4 h5 h6 h8 h9 hr
  obtain ⟨hlog, hl⟩ := hI.laid hf
  have hrs := hI.rsize
  obtain ⟨σ, hσ, hσl⟩ := log_perm hjobs hlog
  have hσlen : σ.length = n := by rw [← Multiset.coe_card, hσ, hcard]
  rw [List.forall₂_iff_get] at hσl
  obtain ⟨hll, hσl⟩ := hσl
  have hloglen : log.length = n := by omega
  have hex : ∀ k, ∃ es, k < n → ∃ job, log[k]? = some job ∧ P (σ.getD k 0) es ∧
      RowJob cfg job es := by
    intro k
    by_cases hk : k < n
    · obtain ⟨es, b1, b2⟩ := hσl k (by omega) (by omega)
      have e : σ.getD k 0 = σ.get ⟨k, by omega⟩ := by
        rw [getD_lt _ _ (by omega)]; rfl
      rw [← e] at b1
      exact ⟨es, fun _ => ⟨_, List.getElem?_eq_getElem (by omega), b1, b2⟩⟩
    · exact ⟨[], fun h => absurd h hk⟩
  choose R hex using hex
  have henc : ∀ i j, log[i]? = some j → Encodes cfg j (rowIts (R i)) := by
    intro i j hj
    have hi : i < n := by rw [List.getElem?_eq_some_iff] at hj; rw [← hloglen]; exact hj.1
    obtain ⟨job, c1, -, c2⟩ := hex i hi
    rw [c1] at hj; cases hj; exact c2.encodes hnb hw
  obtain ⟨hwf, hrow, hnnz⟩ := hl.toCsr (m := m) (F := K0.F) h4 rfl (by rw [h0]; exact hK0.p_zero)
    (by rw [hrs, hloglen, hK0.p_size]; omega) hloglen
    (by rw [hK0.F_p]; exact hG) henc (R := R)
    (fun i hi => comp_rowIts _)
    (fun i hi e he => by obtain ⟨job, -, c, -⟩ := hex i hi; exact hP _ _ c e he)
  rw [hK0.n_eq, hK0.m_eq]
  exact ⟨σ, R, hσ, hσlen, fun k hk => by obtain ⟨job, -, c, -⟩ := hex k hk; exact c, hwf, hrow⟩

end

end Spasm
