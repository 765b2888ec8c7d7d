import Verif.Proofs.HeapLib

/-
Memory management of `spasm_echelonize`: specifications.
-/

namespace Spasm
namespace Heap

variable {K KU KB : Ptr → Ptr → Ptr → Prop}

theorem Tr.keep {α β : Type} {P : SL} {x : M α} {f : α → M β} {S : β → SL} (h : Tr P x (fun _ => P))
    (k : ∀ v, Tr P (f v) S) : Tr P (x >>= f) S := h.bind k

instance (priority := 3500) Ext.arrs_nil {P : SL} : Ext (arrs []) P P := ⟨(one_mul P).symm⟩
instance (priority := 3500) Ext.arrs_cons {a : Ptr} {l : List Ptr} {P F G : SL} [h : Ext (arr a) P F]
    [k : Ext (arrs l) F G] : Ext (arrs (a :: l)) P G :=
  ⟨by show P = arr a * arrs l * G; rw [h.eq, k.eq, mul_assoc]⟩

theorem test_completion_tr (A p U q : Ptr) : Tr (CsrR K A * (arr p * (CsrR KU U * arr q))) (test_completion A p U q)
    (fun _ => CsrR K A * (arr p * (CsrR KU U * arr q))) := by
  unfold test_completion
  refine Tr.flipT.bind fun _ => ?_
  refine Tr.iteT (fun _ => Tr.ret SL.Le.rfl) fun _ => ?_
  refine Tr.step malloc_arr_tr fun S => ?_
  refine Tr.step malloc_arr_tr fun Q => ?_
  refine Tr.step malloc_arr_tr fun Sp => ?_
  refine Tr.read (schur_dense_randomized_tr (K := K) (KU := KU) A p U q S Q) fun _ => ?_
  hstep
  hstep
  hstep
  hstep
  exact Tr.flipT.post fun _ => by sl_ac

/-- What the methods that finish need. -/
abbrev FinP (K : Ptr → Ptr → Ptr → Prop) (A p p_in N U q lp L : Ptr) : SL :=
  CsrR K A * (arr p * (arr p_in * FactO N U q lp L))

/-- What `gplu_row` needs. -/
abbrev GpluI (K : Ptr → Ptr → Ptr → Prop) (A p p_in U q L lp Up x xj : Ptr) : SL :=
  CsrR K A * (arr p * (arr p_in * (CsrP U Up * (arr q * (TripQ L * (arr lp * (arr x * arr xj)))))))

theorem gplu_row_tr (A p p_in U q L lp Up x xj : Ptr) : Tr (GpluI K A p p_in U q L lp Up x xj)
    (gplu_row A p p_in U q L lp Up x xj) (fun _ => GpluI K A p p_in U q L lp Up x xj) := by
  unfold gplu_row
  refine Tr.flipT.bind fun _ => ?_
  refine Tr.iteT (fun _ => Tr.ret SL.Le.rfl) fun _ => ?_
  refine Tr.bind (Q := fun _ => GpluI K A p p_in U q L lp Up x xj) ?_ fun done => ?_
  · refine Tr.flipT.bind fun _ => ?_
    refine Tr.iteT (fun _ => ?_) fun _ => Tr.ret SL.Le.rfl
    exact Tr.last (test_completion_tr (K := K) (KU := fun p' _ _ => p' = Up) A p U q) fun _ => by sl_ac
  refine Tr.iteT (fun _ => Tr.ret SL.Le.rfl) fun _ => ?_
  refine Tr.read (Tr.maybeT (csr_reallocP_tr U Up)) fun _ => ?_
  refine Tr.openCsr fun Up' Uj Ux hp => ?_
  subst hp
  refine Tr.read (triplet_grow_tr L) fun _ => ?_
  refine Tr.openTrip? fun Li Lj Lx => ?_
  hstep
  hstep
  refine Tr.bind (sparse_triangular_solve_tr U A [x, xj] q (Tr.read_last (use_csr_tr U Up' Uj Ux))) fun _ => ?_
  refine Tr.bind (Tr.loopT ?_) fun _ => ?_
  · hstep
    exact Tr.onT fun _ => Tr.maybeT Tr.touchesT
  have hend : (tripQO L Li Lj Lx * (csrO U Up' Uj Ux * (CsrR K A * (arr p * (arr p_in * (arr q * (arr lp *
      (arr x * arr xj)))))))).Le (GpluI K A p p_in U q L lp Up' x xj) :=
    SL.Le.trans ((TripQ.intro L Li Lj Lx).mul ((CsrP.intro U Up' Uj Ux).mul SL.Le.rfl)) (by sl_ac)
  refine Tr.flipT.bind fun _ => ?_
  refine Tr.iteT (fun _ => Tr.ret (SL.Le.trans (by sl_ac) hend)) fun _ => ?_
  refine Tr.bind (Tr.onT fun _ => Tr.touchesT) fun _ => ?_
  hstep
  hstep
  hstep
  exact Tr.ret (SL.Le.trans (by sl_ac) hend)

theorem echelonize_GPLU_tr (A p p_in N U q lp L : Ptr) : Tr (FinP K A p p_in N U q lp L) (echelonize_GPLU A p p_in N)
    (fun _ => FinP K A p p_in N U q lp L) := by
  unfold echelonize_GPLU
  refine Tr.getLuK U q lp none L ?_
  refine Tr.openCsr fun Up Uj Ux _ => ?_
  refine Tr.read (nnz_tr U Up Uj Ux) fun _ => ?_
  refine Tr.step malloc_arr_tr fun x => ?_
  refine Tr.step malloc_arr_tr fun xj => ?_
  hstep
  refine Tr.weaken (CsrP.intro U Up Uj Ux) ?_
  refine Tr.bind (Q := fun _ => GpluI K A p p_in U q L lp Up x xj * cell N (.lu U q lp none L)) ?_ fun _ => ?_
  · refine ((Tr.loopBT (I := fun _ => GpluI K A p p_in U q L lp Up x xj) (fun _ => ?_) ()).frame _).pre (by sl_ac)
    exact (gplu_row_tr A p p_in U q L lp Up x xj).bind fun _ => Tr.ret SL.Le.rfl
  hstep
  refine Tr.weaken (CsrP.csr U Up) ?_
  exact Tr.last (free_arr_tr xj) fun _ => by sl_ac

theorem update_U_after_rref_tr (S Sq Q N U q lp L : Ptr) : Tr (arr S * (arr Sq * (arr Q * FactO N U q lp L)))
    (update_U_after_rref S Sq Q N) (fun _ => arr S * (arr Sq * (arr Q * FactO N U q lp L))) := by
  unfold update_U_after_rref
  refine Tr.getLuK U q lp none L ?_
  hstep
  refine Tr.read (csr_reallocS_tr U) fun _ => ?_
  refine Tr.openCsr fun Up Uj Ux _ => ?_
  refine Tr.bind (Tr.loopT ?_) fun _ => ?_
  · hstep
    hstep
    exact Tr.read_last (touch_tr Up)
  refine Tr.weaken (CsrS.intro U Up Uj Ux) ?_
  exact (Tr.readR_last (nnzR_tr _ U)).post fun _ => by sl_ac

/-- What `update_fact_after_LU` needs. -/
abbrev UpdP (S Sp Sq Q p_out pv N U q lp L : Ptr) : SL :=
  arr S * (arr Sp * (arr Sq * (arr Q * (arr p_out * (arr pv * FactO N U q lp L)))))

theorem update_fact_after_LU_tr (S Sp Sq Q p_out pv N U q lp L : Ptr) :
    Tr (UpdP S Sp Sq Q p_out pv N U q lp L) (update_fact_after_LU S Sp Sq Q p_out pv N)
      (fun _ => UpdP S Sp Sq Q p_out pv N U q lp L) := by
  unfold update_fact_after_LU
  refine Tr.getLuK U q lp none L ?_
  hstep
  rcases hL : L.isSome with _ | _
  · have : L = none := by rcases L with _ | _; rfl; exact absurd hL (by simp)
    subst this
    exact null_tr fun _ => rfl
  have hT := TripQ.some hL
  unfold UpdP FactO
  rw [hT]
  refine Tr.openTrip fun i j x => ?_
  refine Tr.read (csr_reallocS_tr U) fun _ => ?_
  refine Tr.weaken (TripS.intro L i j x) ?_
  refine Tr.read (triplet_realloc_tr L) fun _ => ?_
  refine Tr.openCsr fun Up Uj Ux _ => ?_
  refine Tr.openTrip fun Li Lj Lx => ?_
  refine Tr.bind (Tr.maybeT ?_) fun _ => ?_
  · refine Tr.bind (Tr.loopT ?_) fun _ => use_tr
    hstep
    exact Tr.read_last (touch?_tr p_out)
  refine Tr.bind (Tr.loopT ?_) fun _ => ?_
  · hstep
    hstep
    hstep
    exact Tr.maybeT (Tr.read_last (touch_tr lp))
  refine (Tr.loopT ?_).post fun _ => ?_
  · hstep
    hstep
    exact Tr.read_last (touch_tr Up)
  refine SL.Le.trans (Q := tripO L Li Lj Lx * (csrO U Up Uj Ux * (arr S * (arr Sp * (arr Sq * (arr Q * (arr p_out *
    (arr pv * (cell N (.lu U q lp none L) * (arr q * arr lp)))))))))) (by sl_ac) ?_
  exact SL.Le.trans ((TripS.intro L Li Lj Lx).mul ((CsrS.intro U Up Uj Ux).mul SL.Le.rfl)) (by sl_ac)

theorem echelonize_dense_lowrank_tr (A p p_in N U q lp L : Ptr) : Tr (FinP K A p p_in N U q lp L)
    (echelonize_dense_lowrank A p N) (fun _ => FinP K A p p_in N U q lp L) := by
  unfold echelonize_dense_lowrank
  refine Tr.getLuK U q lp none L ?_
  refine Tr.step malloc_arr_tr fun S => ?_
  refine Tr.step malloc_arr_tr fun Q => ?_
  refine Tr.step malloc_arr_tr fun Sp => ?_
  refine Tr.bind (Tr.loopBT (I := fun _ => _) (fun _ => ?_) ()) fun _ => ?_
  · hstep
    refine Tr.read (schur_dense_randomized_tr (K := K) (KU := fun _ _ _ => True) A p U q S Q) fun _ => ?_
    hstep
    refine Tr.keep ?_ fun done => ?_
    · refine Tr.flipT.bind fun _ => ?_
      refine Tr.iteT (fun _ => ?_) fun _ => Tr.ret SL.Le.rfl
      exact Tr.last (test_completion_tr (K := K) (KU := fun _ _ _ => True) A p U q) fun _ => by sl_ac
    refine Tr.iteT (fun _ => Tr.ret SL.Le.rfl) fun _ => ?_
    refine Tr.read (update_U_after_rref_tr S Sp Q N U q lp L) fun _ => ?_
    exact Tr.ret SL.Le.rfl
  hstep
  hstep
  exact Tr.last (free_arr_tr Sp) fun _ => by sl_ac

theorem echelonize_dense_tr (hasL : Bool) (A p p_in N U q lp L : Ptr) : Tr (FinP K A p p_in N U q lp L)
    (echelonize_dense hasL A p p_in N) (fun _ => FinP K A p p_in N U q lp L) := by
  unfold echelonize_dense
  refine Tr.step malloc_arr_tr fun S => ?_
  refine Tr.step malloc_arr_tr fun p_out => ?_
  refine Tr.step malloc_arr_tr fun Q => ?_
  refine Tr.step malloc_arr_tr fun Sq => ?_
  refine Tr.step malloc_arr_tr fun Sp => ?_
  refine Tr.step malloc_arr_tr fun pv => ?_
  hstep
  refine Tr.bind (Tr.loopBT (I := fun _ => _) (fun _ => ?_) ()) fun _ => ?_
  · refine Tr.bind (Tr.onT fun _ => ?_) fun _ => ?_
    · refine Tr.getLuK U q lp none L ?_
      rcases hL : L.isSome with _ | _
      · have : L = none := by rcases L with _ | _; rfl; exact absurd hL (by simp)
        subst this
        exact null_tr fun _ => rfl
      have hT := TripQ.some hL
      unfold FinP FactO
      rw [hT]
      refine Tr.openTrip fun i j x => ?_
      refine Tr.weaken (TripS.intro L i j x) ?_
      exact Tr.ret (by sl_ac)
    refine Tr.read (schur_dense_tr (K := K) A p p_in N U q lp L S Q p_out) fun _ => ?_
    refine Tr.keep (Tr.iteT (fun _ => ?_) fun _ => ?_) fun _ => ?_
    · hstep
      exact Tr.read_last (update_fact_after_LU_tr S Sp Sq Q p_out pv N U q lp L)
    · hstep
      exact Tr.read_last (update_U_after_rref_tr S Sq Q N U q lp L)
    refine Tr.flipT.bind fun _ => ?_
    exact Tr.ret SL.Le.rfl
  hstep
  hstep
  hstep
  hstep
  hstep
  hstep
  exact (Tr.maybeT (Tr.read_last (echelonize_dense_lowrank_tr (K := K) A p p_in N U q lp L))).post fun _ => by sl_ac

theorem echelonize_finish_tr (hasL : Bool) (A p p_in N U q lp L : Ptr) : Tr (FinP K A p p_in N U q lp L)
    (echelonize_finish hasL A p p_in N) (fun _ => FinP K A p p_in N U q lp L) := by
  unfold echelonize_finish
  refine Tr.flipT.bind fun _ => ?_
  refine Tr.iteT (fun _ => echelonize_dense_lowrank_tr A p p_in N U q lp L) fun _ => ?_
  refine Tr.flipT.bind fun _ => ?_
  refine Tr.iteT (fun _ => echelonize_dense_tr hasL A p p_in N U q lp L) fun _ => ?_
  exact Tr.maybeT (echelonize_GPLU_tr A p p_in N U q lp L)

/-! ### The main loop -/

/-- The current matrix is the argument of `spasm_echelonize` in the first round, and a Schur complement later. -/
def CurS (K : Ptr → Ptr → Ptr → Prop) (A : Ptr) (v : (Ptr × Ptr) × Bool) : SL :=
  if v.2 = true then CsrR K A * (CsrS v.1.1 * arr v.1.2) else SL.pure (v.1 = (A, none)) * CsrR K A

theorem CurS.later {A S p : Ptr} : CurS K A ((S, p), true) = CsrR K A * (CsrS S * arr p) := rfl

theorem CurS.first {A : Ptr} : CsrR K A = CurS K A ((A, none), false) := by
  show _ = SL.pure ((A, none) = (A, none)) * CsrR K A
  have : SL.pure ((A, (none : Ptr)) = (A, none)) = 1 := by
    funext R; exact propext ⟨fun h => h.1, fun h => ⟨h, rfl⟩⟩
  rw [this, one_mul]

/-- What a round needs. -/
abbrev RndP (K : Ptr → Ptr → Ptr → Prop) (A p N U q lp L : Ptr) (v : (Ptr × Ptr) × Bool) : SL :=
  CurS K A v * (arr p * FactO N U q lp L)

/-- A proof about the current matrix: it is the caller's or not. -/
theorem CurS.cases {α : Type} {A p N U q lp L : Ptr} {v : (Ptr × Ptr) × Bool} {x : M α} {Q : α → SL}
    (h1 : v = ((A, none), false) → Tr (CsrR K A * (arr p * FactO N U q lp L)) x Q)
    (h2 : v.2 = true → Tr (CsrR K A * (CsrS v.1.1 * arr v.1.2) * (arr p * FactO N U q lp L)) x Q) :
    Tr (RndP K A p N U q lp L v) x Q := by
  obtain ⟨v, b⟩ := v
  rcases b with _ | _
  · show Tr (SL.pure (v = (A, none)) * CsrR K A * _) _ _
    rw [mul_assoc]
    exact Tr.pureI fun h => h1 (by rw [h])
  · exact h2 rfl

theorem echelonize_round_tr (A p N U q lp L : Ptr) (v : (Ptr × Ptr) × Bool) : Tr (RndP K A p N U q lp L v)
    (echelonize_round U q L N p v) (fun w => RndP K A p N U q lp L w.1) := by
  refine CurS.cases (fun hv => ?_) fun hv => ?_
  · subst hv
    have hd : (CsrR K A * (arr p * FactO N U q lp L)).Le (RndP K A p N U q lp L ((A, none), false)) := by
      unfold RndP; rw [← CurS.first]; exact SL.Le.rfl
    unfold echelonize_round
    hstep
    refine Tr.flipT.bind fun _ => ?_
    refine Tr.iteT (fun _ => Tr.ret hd) fun _ => ?_
    refine Tr.read (pivots_extract_structural_tr (K := K) A none N U q lp L p) fun _ => ?_
    refine Tr.flipT.bind fun _ => ?_
    refine Tr.iteT (fun _ => Tr.ret hd) fun _ => ?_
    refine Tr.read (schur_estimate_density_tr (K := K) (KU := fun _ _ _ => True) A p U q) fun _ => ?_
    refine Tr.flipT.bind fun _ => ?_
    refine Tr.iteT (fun _ => Tr.ret hd) fun _ => ?_
    refine Tr.step malloc_arr_tr fun p_out => ?_
    refine Tr.step (schur_tr (K := K) A p N U q lp L none p_out) fun S => ?_
    refine Tr.bind (Q := fun _ => _) (Tr.onT fun h => absurd h (by simp)) fun _ => ?_
    hstep
    refine Tr.ret ?_
    show SL.Le _ (CurS K A ((S, p_out), true) * (arr p * FactO N U q lp L))
    rw [CurS.later]
    unfold SchurP; rw [arr_none]; sl_ac
  · obtain ⟨⟨B, p_in⟩, b⟩ := v
    have hb : b = true := hv
    subst hb
    unfold echelonize_round
    hstep
    refine Tr.flipT.bind fun _ => ?_
    refine Tr.iteT (fun _ => Tr.ret SL.Le.rfl) fun _ => ?_
    refine Tr.read (pivots_extract_structural_tr (K := fun _ _ _ => True) B p_in N U q lp L p) fun _ => ?_
    refine Tr.flipT.bind fun _ => ?_
    refine Tr.iteT (fun _ => Tr.ret SL.Le.rfl) fun _ => ?_
    refine Tr.read (schur_estimate_density_tr (K := fun _ _ _ => True) (KU := fun _ _ _ => True) B p U q) fun _ => ?_
    refine Tr.flipT.bind fun _ => ?_
    refine Tr.iteT (fun _ => Tr.ret SL.Le.rfl) fun _ => ?_
    refine Tr.step malloc_arr_tr fun p_out => ?_
    refine Tr.step (schur_tr (K := fun _ _ _ => True) B p N U q lp L p_in p_out) fun S => ?_
    refine Tr.bind (Q := fun _ => CsrR K A * (arr p * (arr p_in * (FactO N U q lp L * (CsrS S * arr p_out))))) ?_ fun _ => ?_
    · exact Tr.last (csr_free_tr B) fun _ => by sl_ac
    hstep
    refine Tr.ret ?_
    show SL.Le _ (CurS K A ((S, p_out), true) * (arr p * FactO N U q lp L))
    rw [CurS.later]
    sl_ac

theorem echelonize_rounds_tr (A p N U q lp L : Ptr) : ∀ (n : Nat) (v : (Ptr × Ptr) × Bool),
    Tr (RndP K A p N U q lp L v) (echelonize_rounds U q L N p n v) (fun w => RndP K A p N U q lp L w.1)
  | 0, v => Tr.ret SL.Le.rfl
  | n + 1, v => by
    refine Tr.bind (echelonize_round_tr A p N U q lp L v) fun w => ?_
    obtain ⟨w, st⟩ := w
    rcases st with _ | st
    · exact echelonize_rounds_tr A p N U q lp L n w
    · exact Tr.ret SL.Le.rfl

theorem echelonize_cleanup_tr (hasL : Bool) (A p N U q lp L : Ptr) (v : (Ptr × Ptr) × Bool)
    (hL : L.isSome = hasL) : Tr (RndP K A p N U q lp L v)
    (echelonize_cleanup hasL v.2 v.1.1 p v.1.2 U L lp N) (fun R => CsrR K A * LuS R) := by
  have key : Tr (CsrR K A * FactO N U q lp L) (do
      on hasL do
        let Lp' ← realloc lp
        let (U₀, q₀, _, L₀, Lt₀) ← getLu N
        store N (.lu U₀ q₀ Lp' L₀ Lt₀)
        let LL ← compress L
        let (U₀, q₀, p₀, _, Lt₀) ← getLu N
        store N (.lu U₀ q₀ p₀ LL Lt₀)
        triplet_free L
        let (U₀, q₀, p₀, L₀, _) ← getLu N
        store N (.lu U₀ q₀ p₀ L₀ none)
      pure N) (fun R => CsrR K A * LuS R) := by
    refine Tr.bind (Q := fun _ => CsrR K A * LuS N) ?_ fun _ => Tr.ret SL.Le.rfl
    rcases hasL with _ | _
    · have : L = none := by rcases L with _ | _; rfl; exact absurd hL (by simp)
      subst this
      refine Tr.ret (SL.Le.rfl.mul ?_)
      refine SL.Le.ex (U, q, lp, none) ?_
      exact SL.Le.rfl
    · have hT := TripQ.some hL
      unfold FactO
      rw [hT]
      show Tr _ (realloc lp >>= _) _
      refine Tr.step (realloc_tr lp) fun lp' => ?_
      refine Tr.getLuK U q lp none L ?_
      refine Tr.step (store_cell_tr N (.lu U q lp none L) _) fun _ => ?_
      refine Tr.step (compress_tr (K := fun _ _ _ => True) L) fun LL => ?_
      refine Tr.getLuK U q lp' none L ?_
      refine Tr.step (store_cell_tr N (.lu U q lp' none L) _) fun _ => ?_
      refine Tr.step (triplet_free_tr L) fun _ => ?_
      refine Tr.getLuK U q lp' LL L ?_
      refine Tr.last (store_cell_tr N (.lu U q lp' LL L) _) fun _ => ?_
      refine SL.Le.trans (Q := CsrR K A * (cell N (.lu U q lp' LL none) * (CsrS U * (arr q * (arr lp' * CsrS LL)))))
        (by sl_ac) (SL.Le.rfl.mul (SL.Le.ex (U, q, lp', LL) ?_))
      refine SL.Le.rfl.mul (SL.Le.rfl.mul (SL.Le.rfl.mul (SL.Le.rfl.mul ?_)))
      show SL.Le _ (CsrQ LL)
      rintro R ⟨w, hw⟩
      have : LL.isSome = true := by
        obtain ⟨_, _, _, ⟨a, ha, _⟩, _⟩ := hw
        rw [ha]; rfl
      show CsrQR _ LL R
      unfold CsrQR
      rw [if_pos this]
      exact ⟨w, hw⟩
  unfold echelonize_cleanup
  refine CurS.cases (fun hv => ?_) fun hv => ?_
  · subst hv
    hstep
    hstep
    hstep
    refine Tr.read (csr_resize_tr U) fun _ => ?_
    refine Tr.read (csr_reallocS_tr U) fun _ => ?_
    refine Tr.bind (Q := fun _ => CsrR K A * FactO N U q lp L) ?_ fun _ => key
    exact Tr.ret (SL.Le.trans (SL.Le.of_eq (by rw [one_mul])) (by sl_ac))
  · obtain ⟨⟨B, p_in⟩, b⟩ := v
    have hb : b = true := hv
    subst hb
    hstep
    hstep
    hstep
    refine Tr.read (csr_resize_tr U) fun _ => ?_
    refine Tr.read (csr_reallocS_tr U) fun _ => ?_
    refine Tr.bind (Q := fun _ => CsrR K A * FactO N U q lp L) ?_ fun _ => key
    exact Tr.last (csr_free_tr B) fun _ => by sl_ac

/-- `spasm_echelonize`: the argument is unchanged, and the result is a factorization. -/
theorem echelonize_tr (A : Ptr) (hasL : Bool) : Tr (CsrR K A) (echelonize A hasL) (fun R => CsrR K A * LuS R) := by
  unfold echelonize
  hstep
  refine Tr.step (csr_alloc_tr true) fun U => ?_
  refine Tr.step malloc_arr_tr fun q => ?_
  hstep
  refine Tr.bind (Q := fun L => SL.pure (L.isSome = hasL) * (TripQ L * (arr q * (CsrS U * CsrR K A)))) ?_ fun L => ?_
  · rcases hasL with _ | _
    · refine Tr.ret fun R hR => ⟨0, R, (zero_add _).symm, ⟨rfl, rfl⟩, ?_⟩
      have : TripQ none = 1 := rfl
      rw [this, one_mul]
      exact hR
    · refine Tr.last (triplet_alloc_tr true) fun L => ?_
      rintro R ⟨R₁, R₂, rfl, ⟨w, hw⟩, h2⟩
      have hs : L.isSome = true := by
        obtain ⟨_, _, _, ⟨a, ha, _⟩, _⟩ := hw
        rw [ha]; rfl
      refine ⟨0, R₁ + R₂, (zero_add _).symm, ⟨rfl, hs⟩, ⟨R₁, R₂, rfl, ?_, ?_⟩⟩
      · rw [TripQ.some hs]; exact ⟨w, hw⟩
      · exact h2
  refine Tr.pureI fun hL => ?_
  refine Tr.step (optarr_tr hasL) fun lp => ?_
  refine Tr.bind (Tr.onT fun _ => use_tr) fun _ => ?_
  refine Tr.step (malloc_tr _) fun N => ?_
  refine Tr.step malloc_arr_tr fun p => ?_
  refine Tr.chooseT.bind fun n => ?_
  refine Tr.bind (Q := fun w => RndP K A p N U q lp L w.1) ?_ fun w => ?_
  · refine (echelonize_rounds_tr A p N U q lp L n ((A, none), false)).pre ?_
    unfold RndP
    rw [← CurS.first]
    sl_ac
  obtain ⟨⟨⟨B, p_in⟩, later⟩, status⟩ := w
  refine Tr.bind (Tr.onT fun _ => use_tr) fun _ => ?_
  refine Tr.bind (Q := fun _ => RndP K A p N U q lp L ((B, p_in), later)) (Tr.onT fun _ => ?_) fun _ =>
    echelonize_cleanup_tr hasL A p N U q lp L ((B, p_in), later) hL
  refine CurS.cases (fun hv => ?_) fun hv => ?_
  · injection hv with h1 h2
    injection h1 with h3 h4
    subst h2 h3 h4
    refine Tr.last (echelonize_finish_tr (K := K) hasL B p none N U q lp L) fun _ => ?_
    unfold RndP
    rw [← CurS.first]
    exact SL.Le.trans (SL.Le.of_eq (by unfold FinP; rw [arr_none])) (by sl_ac)
  · have hb : later = true := hv
    subst hb
    refine Tr.last (echelonize_finish_tr (K := fun _ _ _ => True) hasL B p p_in N U q lp L) fun _ => ?_
    unfold RndP
    rw [CurS.later]
    sl_ac

end Heap
end Spasm
