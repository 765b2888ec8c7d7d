import Verif.Proofs.HeapUtil

/-
Memory management of the functions of the library up to the methods of `spasm_echelonize`: specifications.
-/

namespace Spasm
namespace Heap

theorem Tr.touchesT {l : List Ptr} {P : SL} [h : Has l P] : Tr P (touches l) (fun _ => P) := h.tr
theorem use_tr {l : List Ptr} {P : SL} [h : Has l P] : Tr P (use l) (fun _ => P) := Tr.loopT h.tr

theorem use_csr_tr (A p j x : Ptr) : Tr (csrO A p j x) (use_csr A) (fun _ => csrO A p j x) := by
  unfold use_csr
  refine Tr.getCsrK p j x ?_
  refine Tr.loopT ?_
  refine Tr.read (touch_tr p) fun _ => ?_
  refine Tr.read (touch_tr j) fun _ => ?_
  exact Tr.read_last (touch?_tr x)

variable {K KU KB : Ptr → Ptr → Ptr → Prop}

theorem use_csrR_tr (K : Ptr → Ptr → Ptr → Prop) (A : Ptr) : Tr (CsrR K A) (use_csr A) (fun _ => CsrR K A) :=
  Tr.exI fun v => (use_csr_tr A _ _ _).post fun _ => CsrR.intro v.2

/-- A step of a proof: an operation that does not need anything to be chosen. -/
macro "hstep" : tactic => `(tactic|
  first
  | refine Tr.read (touch_tr _) fun _ => ?_
  | refine Tr.read (touch?_tr _) fun _ => ?_
  | refine Tr.bind Tr.touchesT fun _ => ?_
  | refine Tr.bind use_tr fun _ => ?_
  | refine Tr.readR (use_csrR_tr _ _) fun _ => ?_
  | refine Tr.readR (nnzR_tr _ _) fun _ => ?_
  | refine Tr.step (free_arr_tr _) fun _ => ?_
  | refine Tr.step (csr_free_tr _) fun _ => ?_)

/-! ### Triplets -/

/-- A triplet matrix, or `NULL`. -/
def TripQ (A : Ptr) : SL := if A.isSome = true then TripS A else 1

/-- The structure of a triplet matrix, or `NULL`. -/
def tcell (L i j x : Ptr) : SL :=
  if L.isSome = true then cell L (.triplet i j x) else SL.pure (i = none ∧ j = none ∧ x = none)

/-- A triplet matrix with known pointers, or `NULL`. -/
abbrev tripQO (L i j x : Ptr) : SL := tcell L i j x * (arr i * (arr j * arr x))

theorem TripQ.some {L : Ptr} (h : L.isSome = true) : TripQ L = TripS L := if_pos h

theorem TripQ.intro (L i j x : Ptr) : (tripQO L i j x).Le (TripQ L) := by
  unfold TripQ tripQO tcell
  split
  · exact TripS.intro L i j x
  · rintro R ⟨R₁, R₂, rfl, ⟨h, rfl, rfl, rfl⟩, h2⟩
    subst h
    rw [arr_none, one_mul, one_mul] at h2
    rw [zero_add]; exact h2

theorem Tr.openTrip? {β : Type} {P F : SL} {L : Ptr} {f : Ptr × Ptr × Ptr → M β} {S : β → SL} [e : Ext (TripQ L) P F]
    (k : ∀ i j x, Tr (tripQO L i j x * F) (f (i, j, x)) S) : Tr P (getTriplet? L >>= f) S := by
  rw [e.eq]
  unfold getTriplet? TripQ
  split
  · rename_i h
    refine Tr.openTrip fun i j x => ?_
    refine (k i j x).pre ?_
    unfold tripQO tcell
    rw [if_pos h]
    sl_ac
  · rename_i h
    refine Tr.bind (Q := fun v => SL.pure (v = (none, none, none)) * F) (Tr.ret ?_) fun v => Tr.pureI fun hv => ?_
    · rw [one_mul]
      exact fun R hR => ⟨0, R, (zero_add _).symm, ⟨rfl, rfl⟩, hR⟩
    · subst hv
      refine (k none none none).pre ?_
      unfold tripQO tcell
      rw [if_neg h]
      rw [arr_none, mul_one, mul_one, mul_one]
      exact fun R hR => ⟨0, R, (zero_add _).symm, ⟨rfl, rfl, rfl, rfl⟩, hR⟩

theorem add_entry_tr (T : Ptr) : Tr (TripS T) (add_entry T) (fun _ => TripS T) := by
  unfold add_entry
  refine Tr.read (Tr.maybeT (triplet_realloc_tr T)) fun _ => ?_
  refine Tr.openTrip fun i j x => ?_
  hstep
  refine (Tr.maybeT ?_).post fun _ => SL.Le.trans (by sl_ac) (TripS.intro T i j x)
  hstep
  exact Tr.read_last (touch_tr j)

theorem triplet_transpose_tr (T : Ptr) : Tr (TripS T) (triplet_transpose T) (fun _ => TripS T) := by
  unfold triplet_transpose
  refine Tr.openTrip fun i j x => ?_
  refine Tr.last (store_cell_tr T (.triplet i j x) _) fun _ => ?_
  exact SL.Le.trans (by sl_ac) (TripS.intro T j i x)

theorem triplet_grow_tr (L : Ptr) : Tr (TripQ L) (triplet_grow L) (fun _ => TripQ L) :=
  Tr.onT fun h => by rw [TripQ.some h]; exact Tr.maybeT (triplet_realloc_tr L)

theorem remove_explicit_zeroes_tr (A : Ptr) : Tr (CsrS A) (remove_explicit_zeroes A) (fun _ => CsrS A) := by
  unfold remove_explicit_zeroes
  refine Tr.openCsr fun p j x _ => ?_
  refine Tr.iteT (fun _ => ?_) fun _ => ?_
  · hstep
    refine Tr.weaken (CsrS.intro A p j x) ?_
    exact Tr.last (csr_reallocS_tr A) fun _ => by sl_ac
  · exact Tr.ret (SL.Le.trans (by sl_ac) (CsrS.intro A p j x))

theorem deduplicate_tr (A : Ptr) : Tr (CsrS A) (deduplicate A) (fun _ => CsrS A) := by
  unfold deduplicate
  refine Tr.openCsr fun p j x _ => ?_
  refine Tr.step malloc_arr_tr fun v => ?_
  refine Tr.bind (Tr.loopT ?_) fun _ => ?_
  · hstep
    exact Tr.read_last (touch?_tr x)
  · hstep
    refine Tr.weaken (CsrS.intro A p j x) ?_
    exact Tr.last (csr_reallocS_tr A) fun _ => by sl_ac

theorem compress_tr (T : Ptr) : Tr (TripR K T) (compress T) (fun C => TripR K T * CsrS C) := by
  unfold compress
  refine Tr.openTripR K fun Ti Tj Tx hT => ?_
  refine Tr.step (csr_alloc_tr _) fun C => ?_
  refine Tr.step malloc_arr_tr fun w => ?_
  refine Tr.openCsr fun Cp Cj Cx _ => ?_
  hstep
  hstep
  refine Tr.bind (Tr.loopT ?_) fun _ => ?_
  · hstep
    exact Tr.onT fun _ => Tr.touchesT
  hstep
  refine Tr.weaken (CsrS.intro C Cp Cj Cx) ?_
  refine Tr.read (deduplicate_tr C) fun _ => ?_
  refine Tr.read (remove_explicit_zeroes_tr C) fun _ => ?_
  hstep
  refine Tr.ret ?_
  refine SL.Le.trans (Q := tripO T Ti Tj Tx * CsrS C) (by sl_ac) ?_
  exact (TripR.intro hT).mul SL.Le.rfl

theorem triplet_load_tr (b : Bool) : Tr 1 (triplet_load b) (fun T => TripS T) := by
  unfold triplet_load
  refine Tr.step (triplet_alloc_tr b) fun T => ?_
  refine Tr.read (Tr.loopT (add_entry_tr T)) fun _ => ?_
  refine Tr.read (Tr.maybeT (triplet_realloc_tr T)) fun _ => ?_
  exact Tr.ret (by sl_ac)

theorem csr_save_tr (A : Ptr) : Tr (CsrR K A) (csr_save A) (fun _ => CsrR K A) := use_csrR_tr K A

theorem triplet_save_tr (A : Ptr) : Tr (TripR K A) (triplet_save A) (fun _ => TripR K A) := by
  unfold triplet_save
  refine Tr.openTripR K fun i j x hT => ?_
  refine (Tr.loopT ?_).post fun _ => SL.Le.trans (by sl_ac) (TripR.intro hT)
  hstep
  exact Tr.read_last (touch?_tr x)

/-- A decomposition, or `NULL`. -/
def DmQ (A : Ptr) : SL := if A.isSome = true then DmS A else 1

theorem save_pnm_tr (A DM : Ptr) : Tr (CsrR K A * DmQ DM) (save_pnm A DM) (fun _ => CsrR K A * DmQ DM) := by
  unfold save_pnm
  refine Tr.step malloc_arr_tr fun w => ?_
  hstep
  hstep
  refine Tr.read (P₀ := DmQ DM) (Tr.onT fun h => ?_) fun _ => ?_
  · unfold DmQ
    rw [if_pos h]
    refine Tr.openDm fun p q r c => ?_
    exact use_tr.post fun _ => SL.Le.trans (by sl_ac) (DmS.intro DM p q r c)
  hstep
  exact Tr.last (free_arr_tr w) fun _ => by sl_ac

/-! ### Other operations on sparse matrices -/

theorem transpose_tr (C : Ptr) (b : Bool) : Tr (CsrR K C) (transpose C b) (fun T => CsrR K C * CsrS T) := by
  unfold transpose
  refine Tr.openCsr fun Cp Cj Cx hC => ?_
  refine Tr.read (nnz_tr C Cp Cj Cx) fun _ => ?_
  refine Tr.step (csr_alloc_tr _) fun T => ?_
  refine Tr.openCsr fun Tp Tj Tx _ => ?_
  refine Tr.step malloc_arr_tr fun w => ?_
  hstep
  hstep
  refine Tr.bind (Tr.loopT ?_) fun _ => ?_
  · hstep
    exact Tr.onT fun _ => Tr.touchesT
  hstep
  refine Tr.ret ?_
  refine SL.Le.trans (Q := csrO C Cp Cj Cx * csrO T Tp Tj Tx) (by sl_ac) ?_
  exact (CsrR.intro hC).mul (CsrS.intro _ _ _ _)

theorem submatrix_tr (A : Ptr) (b : Bool) : Tr (CsrR K A) (submatrix A b) (fun B => CsrR K A * CsrS B) := by
  unfold submatrix
  refine Tr.openCsr fun Ap Aj Ax hA => ?_
  hstep
  refine Tr.step (csr_alloc_tr _) fun B => ?_
  refine Tr.openCsr fun Bp Bj Bx _ => ?_
  refine Tr.bind (Tr.loopT ?_) fun _ => ?_
  · hstep
    refine Tr.maybeT ?_
    hstep
    exact Tr.onT fun _ => Tr.touchesT
  hstep
  refine Tr.weaken (CsrS.intro B Bp Bj Bx) ?_
  refine Tr.read (csr_reallocS_tr B) fun _ => ?_
  refine Tr.ret ?_
  refine SL.Le.trans (Q := csrO A Ap Aj Ax * CsrS B) (by sl_ac) ?_
  exact (CsrR.intro hA).mul SL.Le.rfl

theorem pinv_tr (p : Ptr) : Tr (arr p) (pinv p) (fun q => arr p * arr q) := by
  unfold pinv
  refine Tr.iteT (fun _ => ?_) fun _ => ?_
  · refine Tr.step malloc_arr_tr fun q => ?_
    hstep
    exact Tr.ret (by sl_ac)
  · exact Tr.ret (SL.Le.of_eq (by rw [arr_none, mul_one]))

theorem permute_tr (A p q : Ptr) (b : Bool) : Tr (CsrR K A * (arr p * arr q)) (permute A p q b)
    (fun C => CsrR K A * (arr p * arr q) * CsrS C) := by
  unfold permute
  refine Tr.openCsr fun Ap Aj Ax hA => ?_
  refine Tr.step (csr_alloc_tr _) fun B => ?_
  refine Tr.openCsr fun Bp Bj Bx _ => ?_
  refine Tr.bind (Tr.loopT ?_) fun _ => ?_
  · hstep
    hstep
    hstep
    hstep
    exact Tr.onT fun _ => Tr.touchesT
  hstep
  refine Tr.ret ?_
  refine SL.Le.trans (Q := csrO A Ap Aj Ax * (arr p * arr q) * csrO B Bp Bj Bx) (by sl_ac) ?_
  exact ((CsrR.intro hA).mul SL.Le.rfl).mul (CsrS.intro _ _ _ _)

theorem range_pvec_tr (x p : Ptr) : Tr (arr x * arr p) (range_pvec x p) (fun _ => arr x * arr p) := use_tr

theorem sparse_triangular_solve_tr {P F G H : SL} (U B : Ptr) (ws : List Ptr) (q : Ptr)
    (hU : Tr P (use_csr U) (fun _ => P)) [e1 : ExtR B P KB F] [e2 : Ext (arrs ws) P G] [e3 : Ext (arr q) P H] :
    Tr P (sparse_triangular_solve U B ws q) (fun _ => P) := by
  unfold sparse_triangular_solve
  refine Tr.bind hU fun _ => ?_
  hstep
  refine Tr.read (Tr.loopT (touchAny_tr ws)) fun _ => ?_
  exact use_tr

theorem scatter_tr {P F : SL} (A : Ptr) (l : List Ptr) [e1 : ExtR A P K F] [h : Has l P] :
    Tr P (scatter A l) (fun _ => P) := by
  unfold scatter
  hstep
  exact use_tr

/-! ### src/spasm_pivots.c -/

theorem find_FL_pivots_tr (A p q : Ptr) : Tr (CsrR K A * (arr p * arr q)) (find_FL_pivots A p q)
    (fun _ => CsrR K A * (arr p * arr q)) := by
  unfold find_FL_pivots
  hstep
  exact use_tr

theorem find_FL_column_pivots_tr (A p q : Ptr) : Tr (CsrR K A * (arr p * arr q)) (find_FL_column_pivots A p q)
    (fun _ => CsrR K A * (arr p * arr q)) := by
  unfold find_FL_column_pivots
  refine Tr.step malloc_arr_tr fun w => ?_
  hstep
  hstep
  hstep
  exact Tr.last (free_arr_tr w) fun _ => by sl_ac

theorem find_cycle_free_pivots_tr (A p q : Ptr) : Tr (CsrR K A * (arr p * arr q)) (find_cycle_free_pivots A p q)
    (fun _ => CsrR K A * (arr p * arr q)) := by
  unfold find_cycle_free_pivots
  refine Tr.step malloc_arr_tr fun w => ?_
  refine Tr.bind (parallel_tr fun ws => Tr.loopT ?_) fun _ => ?_
  · refine Tr.read (touchAny_tr ws) fun _ => ?_
    hstep
    hstep
    exact Tr.maybeT (Tr.read_last (touch_tr w))
  exact Tr.last (free_arr_tr w) fun _ => by sl_ac

theorem pivots_find_tr (A p q : Ptr) : Tr (CsrR K A * (arr p * arr q)) (pivots_find A p q)
    (fun _ => CsrR K A * (arr p * arr q)) := by
  unfold pivots_find
  hstep
  hstep
  refine Tr.bind (find_FL_pivots_tr A p q) fun _ => ?_
  refine Tr.bind (find_FL_column_pivots_tr A p q) fun _ => ?_
  exact Tr.maybeT (find_cycle_free_pivots_tr A p q)

theorem pivots_reorder_tr (A pi q p : Ptr) : Tr (CsrR K A * (arr pi * (arr q * arr p))) (pivots_reorder A pi q p)
    (fun _ => CsrR K A * (arr pi * (arr q * arr p))) := by
  unfold pivots_reorder
  refine Tr.step malloc_arr_tr fun xj => ?_
  refine Tr.step malloc_arr_tr fun marks => ?_
  refine Tr.step malloc_arr_tr fun pstack => ?_
  hstep
  hstep
  hstep
  hstep
  hstep
  hstep
  exact Tr.last (free_arr_tr _) fun _ => by sl_ac

/-- A factorization under construction. -/
abbrev FactO (N U q p L : Ptr) : SL := cell N (.lu U q p none L) * (CsrS U * (arr q * (arr p * TripQ L)))

theorem on_trip_tr {L : Ptr} {P F : SL} {x : M Unit} [e : Ext (TripQ L) P F]
    (h : L.isSome = true → Tr (TripS L * F) x (fun _ => TripS L * F)) : Tr P (on L.isSome x) (fun _ => P) :=
  Tr.onT fun hL => by
    have := h hL
    rw [← TripQ.some hL, ← e.eq] at this
    exact this

theorem pivots_extract_structural_tr (A p_in N U q lp L p : Ptr) :
    Tr (CsrR K A * (arr p_in * (arr p * FactO N U q lp L))) (pivots_extract_structural A p_in N p)
      (fun _ => CsrR K A * (arr p_in * (arr p * FactO N U q lp L))) := by
  unfold pivots_extract_structural
  refine Tr.step malloc_arr_tr fun qi => ?_
  refine Tr.step malloc_arr_tr fun pi => ?_
  refine Tr.read (pivots_find_tr (K := K) A pi qi) fun _ => ?_
  refine Tr.read (pivots_reorder_tr (K := K) A pi qi p) fun _ => ?_
  refine Tr.getLuK U q lp none L ?_
  hstep
  hstep
  hstep
  refine Tr.read (Tr.maybeT (csr_reallocS_tr U)) fun _ => ?_
  refine Tr.openCsr fun Ap Aj Ax hA => ?_
  refine Tr.openCsr fun Up Uj Ux _ => ?_
  refine Tr.read (nnz_tr U Up Uj Ux) fun _ => ?_
  refine Tr.bind (Tr.loopT ?_) fun _ => ?_
  · hstep
    refine Tr.bind (on_trip_tr (L := L) fun _ => ?_) fun _ => ?_
    · hstep
      refine Tr.read (add_entry_tr L) fun _ => ?_
      exact Tr.read_last (touch_tr lp)
    hstep
    hstep
    exact Tr.read_last (touch_tr Up)
  hstep
  refine Tr.last (free_arr_tr qi) fun _ => ?_
  refine SL.Le.trans (Q := csrO A Ap Aj Ax * csrO U Up Uj Ux *
    (arr p_in * (arr p * (cell N (.lu U q lp none L) * (arr q * (arr lp * TripQ L)))))) (by sl_ac) ?_
  refine SL.Le.trans (((CsrR.intro (A := A) hA).mul (CsrS.intro U Up Uj Ux)).mul SL.Le.rfl) (by unfold FactO; sl_ac)

/-! ### src/spasm_schur.c -/

theorem schur_estimate_density_tr (A p U q : Ptr) : Tr (CsrR K A * (arr p * (CsrR KU U * arr q)))
    (schur_estimate_density A p U q) (fun _ => CsrR K A * (arr p * (CsrR KU U * arr q))) := by
  unfold schur_estimate_density
  refine Tr.maybeT (parallel_tr fun ws => Tr.loopT ?_)
  hstep
  refine Tr.bind (sparse_triangular_solve_tr U A ws q (Tr.readR_last (use_csrR_tr _ U))) fun _ => ?_
  exact use_tr

theorem bind_pure' {α : Type} (x : M α) : (x >>= fun v => pure v) = x := by
  funext s
  show (match x s with | .ok (a, s') => (pure a : M α) s' | .error e => .error e) = _
  rcases x s with _ | ⟨_, _⟩ <;> rfl

/-- What `schur_row` needs. -/
abbrev SchurI (K : Ptr → Ptr → Ptr → Prop) (A p U q S Sp L p_in p_out : Ptr) (v : (Ptr × Ptr) × Ptr × Ptr × Ptr) : SL :=
  csrO S Sp v.1.1 v.1.2 * (tripQO L v.2.1 v.2.2.1 v.2.2.2 *
    (CsrR K A * (arr p * (CsrS U * (arr q * (arr p_in * arr p_out))))))

theorem schur_row_tr (A p U q S Sp L p_in p_out : Ptr) (ws : List Ptr) (v : (Ptr × Ptr) × Ptr × Ptr × Ptr) :
    Tr (arrs ws * SchurI K A p U q S Sp L p_in p_out v) (schur_row A p U q S Sp L p_in p_out ws v)
      (fun v => arrs ws * SchurI K A p U q S Sp L p_in p_out v) := by
  obtain ⟨⟨Sj, Sx⟩, Li, Lj, Lx⟩ := v
  unfold schur_row
  hstep
  refine Tr.bind (sparse_triangular_solve_tr U A ws q (Tr.readR_last (use_csrR_tr _ U))) fun _ => ?_
  refine Tr.bind (Q := fun w => arrs ws * SchurI K A p U q S Sp L p_in p_out (w, Li, Lj, Lx)) ?_ fun w => ?_
  · refine Tr.flipT.bind fun b => ?_
    refine Tr.iteT (fun _ => ?_) fun _ => Tr.ret SL.Le.rfl
    refine Tr.step (csr_realloc_tr S Sp Sj Sx) fun _ => ?_
    refine Tr.openCsr (A := S) fun p' j x hp => ?_
    subst hp
    exact Tr.ret (by sl_ac)
  obtain ⟨Sj, Sx⟩ := w
  refine Tr.bind (Q := fun w => arrs ws * SchurI K A p U q S Sp L p_in p_out ((Sj, Sx), w)) ?_ fun w => ?_
  · refine Tr.iteT (fun hL => ?_) fun _ => Tr.ret SL.Le.rfl
    refine Tr.flipT.bind fun b => ?_
    refine Tr.iteT (fun _ => ?_) fun _ => Tr.ret SL.Le.rfl
    have hT : (tripQO L Li Lj Lx).Le (TripS L) := by
      have := TripQ.intro L Li Lj Lx
      rwa [TripQ.some hL] at this
    refine Tr.weaken hT ?_
    refine Tr.read (triplet_realloc_tr L) fun _ => ?_
    rw [← bind_pure' (getTriplet L)]
    refine Tr.openTrip fun i j x => Tr.ret ?_
    have ht : cell L (.triplet i j x) = tcell L i j x := (if_pos hL).symm
    unfold tripO
    rw [ht]
    sl_ac
  obtain ⟨Li, Lj, Lx⟩ := w
  hstep
  hstep
  refine Tr.bind (Tr.loopT ?_) fun _ => ?_
  · hstep
    refine Tr.flipT.bind fun b => ?_
    refine Tr.iteT (fun _ => Tr.touchesT) fun _ => Tr.onT fun _ => Tr.touchesT
  hstep
  exact Tr.ret SL.Le.rfl

/-- What the Schur complements need. -/
abbrev SchurP (K : Ptr → Ptr → Ptr → Prop) (A p N U q lp L p_in p_out : Ptr) : SL :=
  CsrR K A * (arr p * (FactO N U q lp L * (arr p_in * arr p_out)))

theorem schur_tr (A p N U q lp L p_in p_out : Ptr) : Tr (SchurP K A p N U q lp L p_in p_out) (schur A p N L p_in p_out)
    (fun S => SchurP K A p N U q lp L p_in p_out * CsrS S) := by
  unfold schur
  refine Tr.getLuK U q lp none L ?_
  refine Tr.read (Tr.maybeT (schur_estimate_density_tr (K := K) (KU := fun _ _ _ => True) A p U q)) fun _ => ?_
  refine Tr.step (csr_alloc_tr true) fun S => ?_
  refine Tr.openCsr fun Sp Sj Sx _ => ?_
  refine Tr.openTrip? fun Li Lj Lx => ?_
  refine Tr.bind (Q := fun v => SchurI K A p U q S Sp L p_in p_out v * (cell N (.lu U q lp none L) * arr lp))
    (parallel_tr fun ws => ?_) fun v => ?_
  · have := (Tr.loopST (schur_row_tr (K := K) A p U q S Sp L p_in p_out ws) ((Sj, Sx), Li, Lj, Lx)).frame
      (cell N (.lu U q lp none L) * arr lp)
    exact this.conseq (by unfold SchurI; sl_ac) fun _ => by unfold SchurI; sl_ac
  obtain ⟨⟨Sj, Sx⟩, Li, Lj, Lx⟩ := v
  refine Tr.weaken (CsrS.intro S Sp Sj Sx) ?_
  refine Tr.read (csr_reallocS_tr S) fun _ => ?_
  refine Tr.weaken (TripQ.intro L Li Lj Lx) ?_
  exact Tr.ret (by unfold SchurP FactO; sl_ac)

theorem schur_dense_tr (A p p_in N U q lp L S Q p_out : Ptr) :
    Tr (SchurP K A p N U q lp L p_in p_out * (arr S * arr Q)) (schur_dense A p p_in N S Q p_out)
      (fun _ => SchurP K A p N U q lp L p_in p_out * (arr S * arr Q)) := by
  unfold schur_dense
  refine Tr.getLuK U q lp none L ?_
  hstep
  refine Tr.bind (on_trip_tr (L := L) fun _ => Tr.read_last (triplet_realloc_tr L)) fun _ => ?_
  refine Tr.openTrip? fun Li Lj Lx => ?_
  refine (parallel_tr fun ws => Tr.loopT ?_).post fun _ =>
    SL.Le.trans (Q := tripQO L Li Lj Lx * (CsrR K A * (arr p * (cell N (.lu U q lp none L) * (CsrS U * (arr q * arr lp))
      * (arr p_in * arr p_out))) * (arr S * arr Q))) (by sl_ac)
      (SL.Le.trans ((TripQ.intro L Li Lj Lx).mul SL.Le.rfl) (by unfold SchurP FactO; sl_ac))
  hstep
  hstep
  hstep
  refine Tr.read (touchAny_tr ws) fun _ => ?_
  refine Tr.bind (sparse_triangular_solve_tr U A ws q (Tr.readR_last (use_csrR_tr _ U))) fun _ => ?_
  hstep
  exact Tr.onT fun _ => use_tr

/-- What the random Schur complements need. -/
abbrev RandP (K KU : Ptr → Ptr → Ptr → Prop) (A p U q S Q : Ptr) : SL := CsrR K A * (arr p * (CsrR KU U * (arr q * (arr S * arr Q))))

theorem schur_dense_randomized_tr (A p U q S Q : Ptr) :
    Tr (RandP K KU A p U q S Q) (schur_dense_randomized A p U q S Q) (fun _ => RandP K KU A p U q S Q) := by
  unfold schur_dense_randomized
  refine Tr.openCsr (A := U) fun Up Uj Ux hU => ?_
  hstep
  refine (parallel_tr fun ws => Tr.loopT ?_).post fun _ =>
    SL.Le.trans (Q := csrO U Up Uj Ux * (CsrR K A * (arr p * (arr q * (arr S * arr Q))))) (by sl_ac)
      (SL.Le.trans ((CsrR.intro hU).mul SL.Le.rfl) (by unfold RandP; sl_ac))
  refine Tr.read (Tr.loopT (touchAny_tr ws)) fun _ => ?_
  refine Tr.bind (Tr.loopT ?_) fun _ => ?_
  · hstep
    hstep
    exact Tr.read_last (touchAny_tr ws)
  refine Tr.bind (Tr.loopT ?_) fun _ => ?_
  · hstep
    refine Tr.read (touchAny_tr ws) fun _ => ?_
    exact Tr.read_last (use_csr_tr U Up Uj Ux)
  exact use_tr

end Heap
end Spasm
