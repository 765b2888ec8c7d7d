import Verif.Proofs.Extract
import Verif.Props.Pivots
import Verif.Props.Solve

/-
C25: structural pivots are moved to U.
-/

namespace Spasm

open Finset

/-- What `spasm_pivots_extract_structural` must do, when `A` is what remains of the matrix `A0` being
factorized, and the rows of `A` are the rows `permFun p_in` of `A0`: `p'` lists the `npiv` pivotal
rows of `A` first; one row is appended to `U` for each; it starts with its pivot, and multiplied by
the pivot gives the row of `A`; `U` is again in echelon form; the pivots are recorded in `L` and
`fact->p`; the non-pivotal rows of `A` remain to be processed. -/
structure Extracted (q : ℕ) (A0 A : Csr) (p_in : Option (Array Nat)) (fact : Lu) (complete : Bool)
    (pinv qinv : Array Int) (npiv : Nat) (f : Lu) (p' : Array Nat) : Prop where
  order : PivotOrder A pinv npiv p'
  ech : Echelon q f.U f.qinv
  n_eq : f.U.n = fact.U.n + npiv
  old : ∀ i, i < fact.U.n → f.U.entry q i = fact.U.entry q i ∧ f.U.pivot i = fact.U.pivot i
  piv : ∀ k, k < npiv → f.U.pivot (fact.U.n + k) = (pinv.g (p'.g k)).toNat
  new : ∀ k, k < npiv → ∀ c, A.entry q (p'.g k) c =
    A.entry q (p'.g k) (pinv.g (p'.g k)).toNat * f.U.entry q (fact.U.n + k) c
  noL : fact.Ltmp = none → f.Ltmp = none
  L : ∀ Z, fact.Ltmp = some Z → ∃ Z' a a', f.Ltmp = some Z' ∧ fact.p = some a ∧ f.p = some a' ∧
    (∀ i, i < fact.U.n → a'.g i = a.g i) ∧
    (∀ k, k < npiv → a'.g (fact.U.n + k) = permFun p_in (p'.g k)) ∧
    ∀ i c, Z'.sum q i c = Z.sum q i c + ∑ k ∈ range npiv,
      if i = permFun p_in (p'.g k) ∧ c = fact.U.n + k
      then A.entry q (p'.g k) (pinv.g (p'.g k)).toNat else 0
  rest : Partial q A0 f.U f.qinv f.Ltmp f.p (fun t => A.entry q (p'.g (t + npiv))) (A.n - npiv)
    (fun t => permFun p_in (p'.g (t + npiv))) fact.U.n complete
  keep : f.r = fact.r ∧ f.complete = fact.complete ∧ f.L = fact.L

/-- C25. Whatever acyclic set of pivots was chosen, ordering and moving the pivotal rows to `U`
succeeds: no assertion fails, all accesses are within bounds, and the outcome is as specified. -/
theorem C25_choice (jk : Junk) (q : ℕ) [Fact q.Prime] (A0 A : Csr) (hA : A.WFV q) (hnd : A.NoDup)
    (hz : A.NoZero) (hm : A.m = A0.m) (p_in : Option (Array Nat)) (hp : PermSize p_in A.n)
    (fact : Lu) (complete : Bool)
    (h : Partial q A0 fact.U fact.qinv fact.Ltmp fact.p (A.entry q) A.n (permFun p_in) fact.U.n
      complete)
    (pinv qinv : Array Int) (hP : PivotSet A pinv qinv) (p : Array Nat) (hps : p.size = A.n) :
    Ok (pivots_reorder jk A pinv qinv (pivCount A.m qinv) p) (fun p' =>
      Ok (extract_rows jk A p_in fact pinv qinv (pivCount A.m qinv) p') (fun f =>
        Extracted q A0 A p_in fact complete pinv qinv (pivCount A.m qinv) f p')) := by
  refine (pivots_reorder_spec jk hA.toWF hP rfl hps).mono ?_
  intro p' hO
  refine (extract_rows_spec jk hA hnd hz hm hP.toMatching hp hO h).mono ?_
  rintro f ⟨r1, r2, r3, r4, r5, r6, r7⟩
  exact ⟨hO, r1.ech, r2, r3, fun k hk => (r4 k hk).1, fun k hk => (r4 k hk).2, r5, r6, r1, r7⟩

/-- C25. `spasm_pivots_extract_structural` as a whole, for every outcome of the parallel pivot search
that extends the pivots it is given to an acyclic set and counts them.  At least one pivot is found
unless the matrix is empty. -/
theorem C25_extract (jk : Junk) (q : ℕ) [Fact q.Prime] (A0 A : Csr) (hA : A.WFV q) (hnd : A.NoDup)
    (hz : A.NoZero) (hm : A.m = A0.m) (p_in : Option (Array Nat)) (hp : PermSize p_in A.n)
    (fact : Lu) (complete : Bool)
    (h : Partial q A0 fact.U fact.qinv fact.Ltmp fact.p (A.entry q) A.n (permFun p_in) fact.U.n
      complete)
    (greedy : Option (Array Int → Array Int → C (Nat × Array Int × Array Int)))
    (hg : ∀ g, greedy = some g → ∀ pinv qinv, PivotSet A pinv qinv → Ok (g pinv qinv) (fun r =>
      PivotSet A r.2.1 r.2.2 ∧ pivCount A.m qinv + r.1 = pivCount A.m r.2.2))
    (p : Array Nat) (hps : p.size = A.n) :
    Ok (pivots_extract_structural jk A p_in fact p greedy) (fun r => ∃ pinv qinv,
      PivotSet A pinv qinv ∧ r.1 = pivCount A.m qinv ∧ (0 < A.p.g A.n → 0 < r.1) ∧
      Extracted q A0 A p_in fact complete pinv qinv r.1 r.2.1 r.2.2) := by
  have hfind : Ok (pivots_find A greedy) (fun r => PivotSet A r.2.1 r.2.2 ∧
      r.1 = pivCount A.m r.2.2 ∧ (0 < A.p.g A.n → 0 < r.1)) := by
    cases hgr : greedy with
    | none => exact C23_pivots q A hA hz
    | some g =>
      unfold pivots_find
      simp only [Ok_bind]
      refine (find_FL_pivots_spec hA.toWF hA.has_x hz (by simp) (by simp)
        (fun i hi => g_mkArr _ _ _ hi) (fun j hj => g_mkArr _ _ _ hj)).mono ?_
      rintro ⟨n1, pinv, qinv⟩ ⟨h1, h2, -, h3⟩
      refine (find_FL_column_pivots_spec hA.toWF h1).mono ?_
      rintro ⟨n2, pinv', qinv'⟩ ⟨g1, g2, -⟩
      simp only at *
      refine (hg g hgr pinv' qinv' g1).mono ?_
      rintro ⟨n3, pinv'', qinv''⟩ ⟨k1, k2⟩
      simp only at k1 k2
      rw [Ok_ok]
      refine ⟨k1, by simp only; omega, fun h0 => ?_⟩
      have := C23_some hA.toWF h0 h3
      simp only at this ⊢
      omega
  unfold pivots_extract_structural
  rw [Ok_bind]
  refine hfind.mono ?_
  rintro ⟨npiv, pinv, qinv⟩ ⟨hP, hc, h0⟩
  simp only at hP hc h0 ⊢
  subst hc
  rw [Ok_bind]
  refine (C25_choice jk q A0 A hA hnd hz hm p_in hp fact complete h pinv qinv hP p hps).mono ?_
  intro p' hp'
  rw [Ok_bind]
  refine hp'.mono ?_
  intro f hf
  rw [Ok_ok]
  exact ⟨pinv, qinv, hP, rfl, h0, hf⟩

/-! ### A concrete case -/

/-- The factorization of `exP` just started, with `L`. -/
def exStart : Lu :=
  { r := 0, complete := false, L := none,
    U := { n := 0, m := 5, p := #[0, 9, 9, 9, 9], j := #[8, 8], x := some #[9, 9],
           F := Field.ofPrime 7 },
    qinv := #[-1, -1, -1, -1, -1], p := some #[9, 9, 9, 9],
    Ltmp := some { n := 4, m := 4, nz := 0, i := #[], j := #[], x := some #[],
                   F := Field.ofPrime 7 } }

theorem exStart_partial (complete : Bool) : Partial 7 exP exStart.U exStart.qinv exStart.Ltmp exStart.p (exP.entry 7)
    exP.n (permFun none) exStart.U.n complete := by
  refine Partial.init (Csr.wfv_of_check (by decide +kernel)) rfl rfl (by decide) rfl ?_ (by decide)
    (by decide) (fun _ => ⟨_, rfl, by decide⟩) ?_
  · intro a ha; cases ha; decide
  · intro Z hZ
    cases hZ
    refine ⟨⟨⟨by decide, rfl, ?_, by simp, by simp, by decide⟩, good_ofPrime 7 (by decide) (by decide),
      rfl, by simp⟩, rfl, by decide, rfl⟩
    intro a ha; cases ha; rfl

/-- The hypotheses hold on the concrete matrix. -/
example : Ok (pivots_extract_structural default exP none exStart #[0, 0, 0, 0] none) (fun r =>
    ∃ pinv qinv, PivotSet exP pinv qinv ∧ r.1 = pivCount exP.m qinv ∧ (0 < exP.p.g exP.n → 0 < r.1) ∧
      Extracted 7 exP exP none exStart false pinv qinv r.1 r.2.1 r.2.2) :=
  C25_extract default 7 exP exP exP_wfv exP_nodup exP_nozero rfl none (fun a ha => by cases ha)
    exStart false (exStart_partial _) none (fun g hg => by cases hg) _ rfl

/-- The rows of `U` in that case. -/
example : (match pivots_extract_structural default exP none exStart #[0, 0, 0, 0] none with
    | .ok r => decide (r.1 = 4 ∧ r.2.1.U.n = 4 ∧ r.2.2 = #[0, 2, 1, 3] ∧
        r.2.1.p = some #[0, 2, 1, 3] ∧ r.2.1.qinv = #[2, 1, 0, 3, -1])
    | .error _ => false) = true := by decide +kernel

end Spasm
