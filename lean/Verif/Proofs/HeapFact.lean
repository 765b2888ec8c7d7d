import Verif.Proofs.HeapEch

/-
Memory management of the functions of a factorization, of the certificates and of the decompositions: specifications.
-/

namespace Spasm
namespace Heap

variable {K KU KL KB : Ptr → Ptr → Ptr → Prop}

theorem rows_row_tr {PU : SL} (U qinv N Np : Ptr) (ws : List Ptr) (hU : Tr PU (use_csr U) (fun _ => PU))
    (hq : Tr PU (touch? qinv) (fun _ => PU)) (v : Ptr × Ptr) :
    Tr (arrs ws * (csrO N Np v.1 v.2 * PU)) (rows_row U qinv N Np ws v)
      (fun v => arrs ws * (csrO N Np v.1 v.2 * PU)) := by
  obtain ⟨Nj, Nx⟩ := v
  unfold rows_row
  refine Tr.read hq fun _ => ?_
  refine Tr.read hU fun _ => ?_
  refine Tr.read (Tr.loopT (touchAny_tr ws)) fun _ => ?_
  refine Tr.bind (Q := fun w => arrs ws * (csrO N Np w.1 w.2 * PU)) ?_ fun w => ?_
  · refine Tr.flipT.bind fun _ => ?_
    refine Tr.iteT (fun _ => ?_) fun _ => Tr.ret SL.Le.rfl
    refine Tr.step (csr_realloc_tr N Np Nj Nx) fun _ => ?_
    refine Tr.openCsr (A := N) fun p' j x hp => ?_
    subst hp
    exact Tr.ret (by sl_ac)
  obtain ⟨Nj, Nx⟩ := w
  refine Tr.keep (Tr.loopT Tr.touchesT) fun _ => ?_
  hstep
  exact Tr.ret SL.Le.rfl

/-- A factorization that is only read. -/
abbrev luR (KU KL : Ptr → Ptr → Ptr → Prop) (N U q p L : Ptr) : SL :=
  cell N (.lu U q p L none) * (CsrR KU U * (arr q * (arr p * CsrQR KL L)))

theorem kernel_tr (N U q p L : Ptr) : Tr (luR KU KL N U q p L) (kernel N)
    (fun R => luR KU KL N U q p L * CsrS R) := by
  unfold kernel
  refine Tr.getLuK U q p L none ?_
  hstep
  refine Tr.step (transpose_tr (K := KU) U true) fun Ut => ?_
  refine Tr.step (csr_alloc_tr true) fun R => ?_
  refine Tr.openCsr fun Rp Rj Rx _ => ?_
  refine Tr.step malloc_arr_tr fun Utq => ?_
  hstep
  refine Tr.bind (Q := fun v => csrO R Rp v.1 v.2 * (CsrS Ut * (arr Utq * luR KU KL N U q p L)))
    (parallel_tr fun ws => ?_) fun v => ?_
  · refine Tr.pre (Tr.loopST (I := fun v => arrs ws * (csrO R Rp v.1 v.2 * (CsrS Ut * (arr Utq * luR KU KL N U q p L))))
      (fun v => ?_) (Rj, Rx)) ?_
    rotate_left
    · sl_ac
    hstep
    exact rows_row_tr Ut Utq R Rp ws (Tr.readR_last (use_csrR_tr _ Ut)) (Tr.read_last (touch?_tr Utq)) v
  hstep
  hstep
  refine Tr.weaken (CsrS.intro R Rp v.1 v.2) ?_
  hstep
  exact Tr.ret (by sl_ac)

theorem kernel_from_rref_tr (R qinv : Ptr) : Tr (CsrR K R * arr qinv) (kernel_from_rref R qinv)
    (fun N => CsrR K R * arr qinv * CsrS N) := by
  unfold kernel_from_rref
  refine Tr.step (transpose_tr (K := K) R true) fun Rt => ?_
  refine Tr.openCsr fun Tp Tj Tx _ => ?_
  refine Tr.step malloc_arr_tr fun p => ?_
  refine Tr.openCsr fun Rp Rj Rx hR => ?_
  hstep
  refine Tr.read (nnz_tr R Rp Rj Rx) fun _ => ?_
  refine Tr.step (csr_alloc_tr true) fun N => ?_
  refine Tr.openCsr fun Np Nj Nx _ => ?_
  refine Tr.keep (Tr.loopT ?_) fun _ => ?_
  · hstep
    hstep
    exact Tr.read_last (touch_tr Np)
  refine Tr.read (nnz_tr R Rp Rj Rx) fun _ => ?_
  hstep
  refine Tr.weaken (CsrS.intro Rt Tp Tj Tx) ?_
  hstep
  refine Tr.weaken (CsrS.intro N Np Nj Nx) ?_
  refine Tr.weaken (CsrR.intro (A := R) hR) ?_
  exact Tr.ret (by sl_ac)

theorem rref_tr (N U q p L Rq : Ptr) : Tr (luR KU KL N U q p L * arr Rq) (rref N Rq)
    (fun R => luR KU KL N U q p L * arr Rq * CsrS R) := by
  unfold rref
  refine Tr.getLuK U q p L none ?_
  hstep
  refine Tr.step (csr_alloc_tr true) fun R => ?_
  refine Tr.openCsr fun Rp Rj Rx _ => ?_
  refine Tr.openCsr fun Up Uj Ux hU => ?_
  refine Tr.bind (Q := fun v => csrO R Rp v.1 v.2 * (csrO U Up Uj Ux *
    (cell N (.lu U q p L none) * (arr q * (arr p * CsrQR KL L)) * arr Rq))) (parallel_tr fun ws => ?_) fun v => ?_
  · hstep
    refine Tr.pre (Tr.loopST (I := fun v => arrs ws * (csrO R Rp v.1 v.2 * (csrO U Up Uj Ux *
      (cell N (.lu U q p L none) * (arr q * (arr p * CsrQR KL L)) * arr Rq)))) (fun v => ?_) (Rj, Rx)) ?_
    rotate_left
    · sl_ac
    hstep
    exact rows_row_tr U none R Rp ws (Tr.read_last (use_csr_tr U Up Uj Ux)) (Tr.ret SL.Le.rfl) v
  hstep
  refine Tr.weaken (CsrS.intro R Rp v.1 v.2) ?_
  refine Tr.weaken (CsrR.intro (A := U) hU) ?_
  hstep
  exact Tr.ret (by sl_ac)

theorem CsrQR.some {A : Ptr} (h : A.isSome = true) : CsrQR K A = CsrR K A := if_pos h

theorem use_csrQ_tr (L : Ptr) : Tr (CsrQR K L) (use_csr L) (fun _ => CsrQR K L) := by
  rcases L with _ | a
  · exact null_tr fun _ => rfl
  · exact use_csrR_tr K (some a)

theorem getCsrQ_tr (L : Ptr) : Tr (CsrQR K L) (getCsr L) (fun _ => CsrQR K L) := by
  rcases L with _ | a
  · exact null_tr fun _ => rfl
  · show Tr (CsrR K (some a)) _ (fun _ => CsrR K (some a))
    rw [← bind_pure' (getCsr (some a))]
    exact Tr.openCsr fun p j x h => Tr.ret (SL.Le.trans (by sl_ac) (CsrR.intro h))

theorem scatterQ_tr {P F : SL} (L : Ptr) (l : List Ptr) [e1 : Ext (CsrQR K L) P F] [h : Has l P] :
    Tr P (scatter L l) (fun _ => P) := by
  unfold scatter
  refine Tr.read (use_csrQ_tr (K := K) L) fun _ => ?_
  exact use_tr

theorem solve_tr (N U q p L b x : Ptr) : Tr (luR KU KL N U q p L * (arr b * arr x)) (solve N b x)
    (fun _ => luR KU KL N U q p L * (arr b * arr x)) := by
  unfold solve
  refine Tr.getLuK U q p L none ?_
  refine Tr.step malloc_arr_tr fun y => ?_
  refine Tr.step malloc_arr_tr fun z => ?_
  refine Tr.step malloc_arr_tr fun Uq => ?_
  hstep
  hstep
  refine Tr.keep (scatter_tr U [y, z, Uq]) fun _ => ?_
  refine Tr.keep (scatterQ_tr (K := KL) L [z, x]) fun _ => ?_
  hstep
  hstep
  hstep
  exact Tr.last (free_arr_tr Uq) fun _ => by sl_ac

theorem gesv_tr (N U q p L B ok : Ptr) : Tr (luR KU KL N U q p L * (CsrR KB B * arr ok)) (gesv N B ok)
    (fun X => luR KU KL N U q p L * (CsrR KB B * arr ok) * CsrS X) := by
  unfold gesv
  refine Tr.getLuK U q p L none ?_
  refine Tr.openCsr fun Bp Bj Bx hB => ?_
  refine Tr.read (getCsrQ_tr (K := KL) L) fun _ => ?_
  refine Tr.weaken (CsrR.intro (A := B) hB) ?_
  refine Tr.step (triplet_alloc_tr true) fun X => ?_
  refine Tr.openTrip fun Xi Xj Xx => ?_
  refine Tr.keep (Tr.loopT ?_) fun _ => ?_
  · refine Tr.step malloc_arr_tr fun b => ?_
    refine Tr.step malloc_arr_tr fun x => ?_
    refine Tr.keep (Tr.loopT ?_) fun _ => ?_
    · hstep
      refine Tr.keep (scatter_tr B [b]) fun _ => ?_
      refine Tr.read (solve_tr (KU := KU) (KL := KL) N U q p L b x) fun _ => ?_
      hstep
      exact use_tr
    hstep
    exact Tr.last (free_arr_tr x) fun _ => by sl_ac
  refine Tr.weaken (TripS.intro X Xi Xj Xx) ?_
  refine Tr.step (compress_tr (K := fun _ _ _ => True) X) fun XX => ?_
  refine Tr.step (triplet_free_tr X) fun _ => ?_
  exact Tr.ret (by sl_ac)

/-! ### src/spasm_certificate.c -/

theorem certificate_rank_create_tr (A N U q p L : Ptr) : Tr (luR KU KL N U q p L * CsrR K A)
    (certificate_rank_create A N) (fun P => luR KU KL N U q p L * CsrR K A * CertS P) := by
  unfold certificate_rank_create
  refine Tr.getLuK U q p L none ?_
  refine Tr.openCsr fun Up Uj Ux hU => ?_
  refine Tr.read (getCsrQ_tr (K := KL) L) fun _ => ?_
  refine Tr.weaken (CsrR.intro (A := U) hU) ?_
  refine Tr.step (malloc_tr _) fun P => ?_
  refine Tr.step malloc_arr_tr fun xx => ?_
  refine Tr.step malloc_arr_tr fun yy => ?_
  refine Tr.step malloc_arr_tr fun ii => ?_
  refine Tr.step malloc_arr_tr fun jj => ?_
  refine Tr.step (store_cell_tr P (.cert none none none none) _) fun _ => ?_
  hstep
  hstep
  refine Tr.step malloc_arr_tr fun x => ?_
  refine Tr.step malloc_arr_tr fun y => ?_
  hstep
  refine Tr.read (solve_tr (KU := KU) (KL := KL) N U q p L y x) fun _ => ?_
  hstep
  refine Tr.keep (scatter_tr A [x, y]) fun _ => ?_
  refine Tr.read (solve_tr (KU := KU) (KL := KL) N U q p L y x) fun _ => ?_
  hstep
  hstep
  hstep
  refine Tr.weaken (P₀ := certO P ii jj xx yy) (CertS.intro P ii jj xx yy) ?_
  exact Tr.ret (by sl_ac)

theorem certificate_rank_verify_tr (A P i j x y : Ptr) : Tr (CsrR K A * certO P i j x y) (certificate_rank_verify A P)
    (fun _ => CsrR K A * certO P i j x y) := by
  unfold certificate_rank_verify
  refine Tr.stepP (getCert_tr P i j x y) fun v hv => ?_
  subst hv
  hstep
  refine (Tr.maybeT ?_).post fun _ => by sl_ac
  refine Tr.step malloc_arr_tr fun x' => ?_
  refine Tr.step malloc_arr_tr fun y' => ?_
  hstep
  refine Tr.keep (scatter_tr A [x', y']) fun _ => ?_
  hstep
  hstep
  exact Tr.last (free_arr_tr y') fun _ => by sl_ac

theorem factorization_verify_tr (A N U q p L : Ptr) : Tr (luR KU KL N U q p L * CsrR K A) (factorization_verify A N)
    (fun _ => luR KU KL N U q p L * CsrR K A) := by
  unfold factorization_verify
  refine Tr.getLuK U q p L none ?_
  refine Tr.step malloc_arr_tr fun x => ?_
  refine Tr.step malloc_arr_tr fun y => ?_
  refine Tr.step malloc_arr_tr fun z => ?_
  refine Tr.step malloc_arr_tr fun t => ?_
  refine Tr.step malloc_arr_tr fun pr => ?_
  hstep
  hstep
  refine Tr.keep (scatter_tr A [x, t]) fun _ => ?_
  refine Tr.keep (scatterQ_tr (K := KL) L [x, y]) fun _ => ?_
  refine Tr.keep (scatter_tr U [y, z]) fun _ => ?_
  hstep
  hstep
  hstep
  hstep
  hstep
  exact Tr.last (free_arr_tr t) fun _ => by sl_ac

theorem certificate_save_tr (P i j x y : Ptr) : Tr (certO P i j x y) (certificate_save P)
    (fun _ => certO P i j x y) := by
  unfold certificate_save
  refine Tr.stepP (getCert_tr P i j x y) fun v hv => ?_
  subst hv
  exact use_tr.post fun _ => by sl_ac

/-! ### Decompositions -/

theorem maximum_matching_tr (A p q : Ptr) : Tr (CsrR K A * (arr p * arr q)) (maximum_matching A p q)
    (fun _ => CsrR K A * (arr p * arr q)) := by
  unfold maximum_matching
  refine Tr.step malloc_arr_tr fun a => ?_
  refine Tr.step malloc_arr_tr fun b => ?_
  refine Tr.step malloc_arr_tr fun c => ?_
  refine Tr.step malloc_arr_tr fun d => ?_
  refine Tr.step malloc_arr_tr fun e => ?_
  hstep
  hstep
  hstep
  hstep
  hstep
  hstep
  hstep
  hstep
  exact Tr.last (free_arr_tr e) fun _ => by sl_ac

/-- `k` arrays. -/
def Blks (k : Nat) : SL := fun R => ∃ l : List Nat, l.length = k ∧ R = (l.map fun a => (a, Obj.arr) : List (Nat × Obj))

theorem Blks.arr {q : Ptr} (h : q.isSome = true) : (arr q).Le (Blks 1) := by
  rcases q with _ | a
  · exact absurd h (by simp)
  · rintro R rfl
    exact ⟨[a], rfl, rfl⟩

theorem Blks.add {k l : Nat} : (Blks k * Blks l).Le (Blks (k + l)) := by
  rintro R ⟨R₁, R₂, rfl, ⟨a, rfl, rfl⟩, ⟨b, rfl, rfl⟩⟩
  exact ⟨a ++ b, List.length_append, by rw [List.map_append]; rfl⟩

theorem malloc_some_tr : Tr 1 (malloc .arr) (fun q => SL.pure (q.isSome = true) * arr q) :=
  (malloc_tr .arr).post fun q => by
    rintro R ⟨a, rfl, rfl⟩
    exact ⟨0, {(a, Obj.arr)}, (zero_add _).symm, ⟨rfl, rfl⟩, show _ = arrCells (some a) from rfl⟩

theorem strongly_connected_components_tr (A : Ptr) : Tr (CsrR K A) (strongly_connected_components A)
    (fun P => CsrR K A * DmS P * Blks 1) := by
  unfold strongly_connected_components
  refine Tr.openCsr fun Ap Aj Ax hA => ?_
  refine Tr.step dm_alloc_tr fun P => ?_
  refine Tr.openDm fun p q r c => ?_
  refine Tr.step malloc_arr_tr fun pstack => ?_
  refine Tr.step malloc_arr_tr fun marks => ?_
  refine Tr.stepP malloc_some_tr fun prev hp => ?_
  refine Tr.step malloc_arr_tr fun stack => ?_
  refine Tr.step malloc_arr_tr fun lowlink => ?_
  hstep
  hstep
  hstep
  hstep
  hstep
  hstep
  hstep
  hstep
  refine Tr.weaken (DmS.intro P p q r c) ?_
  refine Tr.weaken (CsrR.intro (A := A) hA) ?_
  refine Tr.weaken (Blks.arr hp) ?_
  exact Tr.ret (by sl_ac)

/-- Between two and four arrays. -/
def Left24 : SL := SL.ex fun k : { k : Nat // 2 ≤ k ∧ k ≤ 4 } => Blks k.1

theorem dulmage_mendelsohn_tr (A : Ptr) : Tr (CsrR K A) (dulmage_mendelsohn A)
    (fun P => CsrR K A * DmS P * Left24) := by
  unfold dulmage_mendelsohn
  refine Tr.openCsr fun Ap Aj Ax hA => ?_
  refine Tr.weaken (CsrR.intro (A := A) hA) ?_
  refine Tr.stepP malloc_some_tr fun jm hj => ?_
  refine Tr.stepP malloc_some_tr fun im hi => ?_
  refine Tr.step (transpose_tr (K := K) A false) fun At => ?_
  refine Tr.keep ?_ fun _ => ?_
  · refine Tr.flipT.bind fun _ => ?_
    refine Tr.iteT (fun _ => ?_) fun _ => ?_
    · exact Tr.read_last (maximum_matching_tr (K := K) A jm im)
    · exact Tr.read_last (maximum_matching_tr (K := fun _ _ _ => True) At im jm)
  refine Tr.step dm_alloc_tr fun P => ?_
  refine Tr.openDm fun p q r c => ?_
  hstep
  hstep
  hstep
  hstep
  hstep
  hstep
  hstep
  hstep
  refine Tr.flipT.bind fun _ => ?_
  have h2 : (arr jm * arr im).Le (Blks 2) :=
    SL.Le.trans ((Blks.arr hj).mul (Blks.arr hi)) Blks.add
  refine Tr.iteT (fun _ => Tr.ret ?_) fun _ => ?_
  · refine SL.Le.trans (Q := CsrR K A * dmO P p q r c * (arr jm * arr im)) (by sl_ac) ?_
    exact ((SL.Le.rfl.mul (DmS.intro P p q r c))).mul (SL.Le.trans h2 (SL.Le.ex ⟨2, by omega⟩ SL.Le.rfl))
  refine Tr.step (pinv_tr q) fun qi => ?_
  refine Tr.step (permute_tr (K := K) A p qi false) fun B => ?_
  refine Tr.step (submatrix_tr (K := fun _ _ _ => True) B false) fun C => ?_
  hstep
  refine Tr.step (strongly_connected_components_tr (K := fun _ _ _ => True) C) fun S => ?_
  refine Tr.openDm fun Sp Sq Sr Sc => ?_
  refine Tr.getDmK Sp Sq Sr Sc ?_
  refine Tr.read (range_pvec_tr p Sp) fun _ => ?_
  refine Tr.getDmK Sp Sq Sr Sc ?_
  refine Tr.read (range_pvec_tr q Sq) fun _ => ?_
  hstep
  hstep
  refine Tr.step (dm_freeO_tr S Sp Sq Sr Sc) fun _ => ?_
  hstep
  refine Tr.ret ?_
  refine SL.Le.trans (Q := CsrR K A * dmO P p q r c * (arr jm * arr im * (Blks 1 * arr qi))) (by sl_ac) ?_
  refine ((SL.Le.rfl.mul (DmS.intro P p q r c))).mul ?_
  refine SL.Le.trans (h2.mul SL.Le.rfl) ?_
  rcases hq : qi.isSome with _ | _
  · have : qi = none := by rcases qi with _ | _; rfl; exact absurd hq (by simp)
    subst this
    rw [arr_none, mul_one]
    exact SL.Le.trans Blks.add (SL.Le.ex ⟨3, by omega⟩ SL.Le.rfl)
  · refine SL.Le.trans (SL.Le.rfl.mul (SL.Le.trans (SL.Le.rfl.mul (Blks.arr hq)) Blks.add)) ?_
    exact SL.Le.trans Blks.add (SL.Le.ex ⟨4, by omega⟩ SL.Le.rfl)

end Heap
end Spasm
