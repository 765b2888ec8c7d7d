import Verif.Proofs.HeapFact
import Verif.Model.HeapMain

/-
Memory management of the programs: specifications, and from triples to plain statements.
-/

namespace Spasm
namespace Heap

variable {K KU KL KB : Ptr → Ptr → Ptr → Prop}

theorem load_matrix_tr (b : Bool) : Tr 1 (load_matrix b) (fun A => CsrS A) := by
  unfold load_matrix
  refine Tr.step (triplet_load_tr b) fun T => ?_
  refine Tr.read (Tr.maybeT (triplet_transpose_tr T)) fun _ => ?_
  refine Tr.step (compress_tr (K := fun _ _ _ => True) T) fun A => ?_
  refine Tr.step (triplet_free_tr T) fun _ => ?_
  exact Tr.ret (by sl_ac)

/-- The beginning of a proof about a factorization. -/
theorem Tr.openLu {α : Type} {P F : SL} {N : Ptr} {x : M α} {S : α → SL} [e : Ext (LuS N) P F]
    (k : ∀ U q p L, Tr (luR (fun _ _ _ => True) (fun _ _ _ => True) N U q p L * F) x S) : Tr P x S :=
  Tr.exE (P₀ := fun v : Ptr × Ptr × Ptr × Ptr =>
    cell N (.lu v.1 v.2.1 v.2.2.1 v.2.2.2 none) * (CsrS v.1 * (arr v.2.1 * (arr v.2.2.1 * CsrQ v.2.2.2)))) (e := e)
    fun v => k v.1 v.2.1 v.2.2.1 v.2.2.2

theorem LuS.intro (N U q p L : Ptr) : (luR (fun _ _ _ => True) (fun _ _ _ => True) N U q p L).Le (LuS N) :=
  SL.Le.ex (U, q, p, L) SL.Le.rfl

/-- What is left when there is a certificate. -/
def CertLeft (cert : Bool) : SL := if cert = true then SL.ex fun P => CertS P else 1

theorem main_rank_tr (cert hasL : Bool) : Tr 1 (main_rank cert hasL) (fun _ => CertLeft cert) := by
  unfold main_rank
  refine Tr.step (load_matrix_tr true) fun A => ?_
  hstep
  refine Tr.step (echelonize_tr (K := fun _ _ _ => True) A (hasL || cert)) fun N => ?_
  refine Tr.openLu (N := N) fun U q p L => ?_
  refine Tr.getLuK U q p L none ?_
  refine Tr.openCsr fun Up Uj Ux _ => ?_
  refine Tr.weaken (CsrS.intro U Up Uj Ux) ?_
  refine Tr.bind (Q := fun _ => luR (fun _ _ _ => True) (fun _ _ _ => True) N U q p L * CsrS A * CertLeft cert)
    ?_ fun _ => ?_
  · rcases cert with _ | _
    · exact Tr.ret (by show SL.Le _ (_ * 1); sl_ac)
    · show Tr _ (factorization_verify A N >>= _) _
      refine Tr.read (factorization_verify_tr (K := fun _ _ _ => True) (KU := fun _ _ _ => True)
        (KL := fun _ _ _ => True) A N U q p L) fun _ => ?_
      refine Tr.read (factorization_verify_tr (K := fun _ _ _ => True) (KU := fun _ _ _ => True)
        (KL := fun _ _ _ => True) A N U q p L) fun _ => ?_
      refine Tr.read (factorization_verify_tr (K := fun _ _ _ => True) (KU := fun _ _ _ => True)
        (KL := fun _ _ _ => True) A N U q p L) fun _ => ?_
      refine Tr.step (certificate_rank_create_tr (K := fun _ _ _ => True) (KU := fun _ _ _ => True)
        (KL := fun _ _ _ => True) A N U q p L) fun P => ?_
      refine Tr.exE (P₀ := fun v : Ptr × Ptr × Ptr × Ptr => certO P v.1 v.2.1 v.2.2.1 v.2.2.2)
        (e := (inferInstance : Ext (CertS P) _ _)) fun v => ?_
      obtain ⟨i, j, x, y⟩ := v
      refine Tr.read (certificate_rank_verify_tr (K := fun _ _ _ => True) A P i j x y) fun _ => ?_
      refine (Tr.maybeT (Tr.read_last (certificate_save_tr P i j x y))).post fun _ => ?_
      refine SL.Le.trans (Q := luR (fun _ _ _ => True) (fun _ _ _ => True) N U q p L * CsrS A * certO P i j x y)
        (by sl_ac) (SL.Le.rfl.mul ?_)
      exact SL.Le.ex P (CertS.intro P i j x y)
  refine Tr.weaken (LuS.intro N U q p L) ?_
  refine Tr.step (lu_free_tr N) fun _ => ?_
  exact Tr.last (csr_free_tr A) fun _ => by sl_ac

theorem main_kernel_tr (hasL : Bool) : Tr 1 (main_kernel hasL) (fun _ => SL.ex fun v : Ptr × Ptr => LuS v.1 * CsrS v.2) := by
  unfold main_kernel
  refine Tr.step (load_matrix_tr true) fun A => ?_
  refine Tr.step (echelonize_tr (K := fun _ _ _ => True) A hasL) fun N => ?_
  hstep
  refine Tr.openLu (N := N) fun U q p L => ?_
  refine Tr.step (kernel_tr (KU := fun _ _ _ => True) (KL := fun _ _ _ => True) N U q p L) fun R => ?_
  hstep
  refine Tr.weaken (LuS.intro N U q p L) ?_
  exact (Tr.readR_last (use_csrR_tr _ R)).post fun _ => SL.Le.trans (by sl_ac) (SL.Le.ex (N, R) SL.Le.rfl)

theorem main_solve_tr : Tr 1 main_solve (fun _ => SL.ex fun v : Ptr × Ptr × Ptr × Ptr × Ptr =>
    CsrS v.1 * (CsrS v.2.1 * (LuS v.2.2.1 * (arr v.2.2.2.1 * CsrS v.2.2.2.2)))) := by
  unfold main_solve
  refine Tr.step (load_matrix_tr true) fun A => ?_
  refine Tr.step (load_matrix_tr true) fun B => ?_
  hstep
  refine Tr.step (echelonize_tr (K := fun _ _ _ => True) A true) fun N => ?_
  refine Tr.step malloc_arr_tr fun ok => ?_
  refine Tr.openLu (N := N) fun U q p L => ?_
  refine Tr.step (gesv_tr (KU := fun _ _ _ => True) (KL := fun _ _ _ => True) (KB := fun _ _ _ => True)
    N U q p L B ok) fun X => ?_
  hstep
  refine Tr.weaken (LuS.intro N U q p L) ?_
  exact (Tr.readR_last (use_csrR_tr _ X)).post fun _ => SL.Le.trans (by sl_ac) (SL.Le.ex (A, B, N, ok, X) SL.Le.rfl)

theorem main_echelonize_tr (hasL r : Bool) : Tr 1 (main_echelonize hasL r) (fun _ => 1) := by
  unfold main_echelonize
  refine Tr.step (load_matrix_tr true) fun A => ?_
  refine Tr.step (echelonize_tr (K := fun _ _ _ => True) A hasL) fun N => ?_
  hstep
  refine Tr.openLu (N := N) fun U q p L => ?_
  refine Tr.keep (Tr.iteT (fun _ => ?_) fun _ => ?_) fun _ => ?_
  · refine Tr.step malloc_arr_tr fun Rq => ?_
    refine Tr.step (rref_tr (KU := fun _ _ _ => True) (KL := fun _ _ _ => True) N U q p L Rq) fun R => ?_
    refine Tr.readR (csr_save_tr R) fun _ => ?_
    hstep
    exact Tr.last (free_arr_tr Rq) fun _ => by sl_ac
  · refine Tr.getLuK U q p L none ?_
    exact Tr.readR_last (csr_save_tr U)
  refine Tr.weaken (LuS.intro N U q p L) ?_
  exact Tr.last (lu_free_tr N) fun _ => by sl_ac

theorem main_transpose_tr : Tr 1 main_transpose (fun _ => 1) := by
  unfold main_transpose
  refine Tr.step (load_matrix_tr true) fun A => ?_
  refine Tr.step (transpose_tr (K := fun _ _ _ => True) A true) fun B => ?_
  hstep
  refine Tr.readR (csr_save_tr B) fun _ => ?_
  exact Tr.last (csr_free_tr B) fun _ => by sl_ac

theorem main_bitmap_tr : Tr 1 main_bitmap (fun _ => 1) := by
  unfold main_bitmap
  refine Tr.step (load_matrix_tr false) fun A => ?_
  refine Tr.read (P₀ := CsrS A) ((save_pnm_tr (K := fun _ _ _ => True) A none).conseq
    (by show SL.Le _ (_ * 1); sl_ac) fun _ => by show SL.Le (_ * 1) _; sl_ac) fun _ => ?_
  exact Tr.last (csr_free_tr A) fun _ => by sl_ac

theorem main_stack_tr : Tr 1 main_stack (fun _ => 1) := by
  unfold main_stack
  refine Tr.step (triplet_load_tr true) fun A => ?_
  refine Tr.openTrip fun i j x => ?_
  refine Tr.step malloc_arr_tr fun p => ?_
  refine Tr.step malloc_arr_tr fun q => ?_
  hstep
  hstep
  hstep
  refine Tr.weaken (TripS.intro A i j x) ?_
  refine Tr.read (triplet_save_tr (K := fun _ _ _ => True) A) fun _ => ?_
  refine Tr.step (triplet_free_tr A) fun _ => ?_
  hstep
  exact Tr.last (free_arr_tr q) fun _ => by sl_ac

theorem main_vertical_swap_tr : Tr 1 main_vertical_swap (fun _ => SL.ex fun A => TripS A) := by
  unfold main_vertical_swap
  refine Tr.step (triplet_load_tr true) fun A => ?_
  refine Tr.openTrip fun i j x => ?_
  hstep
  refine Tr.weaken (TripS.intro A i j x) ?_
  exact (Tr.read_last (triplet_save_tr (K := fun _ _ _ => True) A)).post fun _ =>
    SL.Le.trans (by sl_ac) (SL.Le.ex A SL.Le.rfl)

theorem DmS.some {A : Ptr} : (DmS A).Le (DmQ A) := by
  rintro R ⟨v, hv⟩
  have : A.isSome = true := by
    obtain ⟨_, _, _, ⟨a, ha, _⟩, _⟩ := hv
    rw [ha]; rfl
  unfold DmQ
  rw [if_pos this]
  exact ⟨v, hv⟩

theorem main_dm_tr : Tr 1 main_dm (fun _ => SL.ex fun v : Ptr × Ptr => DmQ v.1 * (CsrS v.2 * Left24)) := by
  unfold main_dm
  refine Tr.step (load_matrix_tr true) fun A => ?_
  refine Tr.step (dulmage_mendelsohn_tr (K := fun _ _ _ => True) A) fun D => ?_
  refine Tr.openDm fun p q r c => ?_
  refine Tr.step (pinv_tr q) fun qi => ?_
  refine Tr.step (permute_tr (K := fun _ _ _ => True) A p qi true) fun B => ?_
  hstep
  hstep
  refine Tr.keep (Tr.maybeT use_tr) fun _ => ?_
  refine Tr.keep (Tr.maybeT (Tr.readR_last (csr_save_tr B))) fun _ => ?_
  refine Tr.weaken (SL.Le.trans (DmS.intro D p q r c) DmS.some) ?_
  exact (Tr.maybeT (Tr.read_last (save_pnm_tr (K := fun _ _ _ => True) B D))).post fun _ =>
    SL.Le.trans (by sl_ac) (SL.Le.ex (D, B) SL.Le.rfl)

/-! ### Plain statements -/

theorem Tr.ends {α : Type} {P : SL} {x : M α} {Q : α → SL} {Q' : α → Cells → Prop} {s : St} {R F : Cells}
    (h : Tr P x Q) (hg : s.Good) (hc : s.cells = R + F) (hP : P R) (k : ∀ v R', Q v R' → Q' v (R' + F)) :
    Ends x s Q' := by
  have := h s F R hg hc hP
  unfold Ends
  revert this
  rcases x s with e | ⟨v, s'⟩
  · exact id
  · rintro ⟨hg', R', he, hQ⟩
    exact ⟨hg', by rw [he]; exact k v R' hQ⟩

theorem csrO_iff {A p j x : Ptr} {R : Cells} : csrO A p j x R ↔
    ∃ a, A = some a ∧ R = {(a, Obj.csr p j x)} + arrCells p + arrCells j + arrCells x := by
  constructor
  · rintro ⟨_, _, rfl, ⟨a, rfl, rfl⟩, _, _, rfl, rfl, _, _, rfl, rfl, rfl⟩
    exact ⟨a, rfl, by rw [add_assoc, add_assoc]⟩
  · rintro ⟨a, rfl, rfl⟩
    exact ⟨_, _, by rw [add_assoc, add_assoc], ⟨a, rfl, rfl⟩, _, _, rfl, rfl, _, _, rfl, rfl, rfl⟩

theorem tripO_iff {A p j x : Ptr} {R : Cells} : tripO A p j x R ↔
    ∃ a, A = some a ∧ R = {(a, Obj.triplet p j x)} + arrCells p + arrCells j + arrCells x := by
  constructor
  · rintro ⟨_, _, rfl, ⟨a, rfl, rfl⟩, _, _, rfl, rfl, _, _, rfl, rfl, rfl⟩
    exact ⟨a, rfl, by rw [add_assoc, add_assoc]⟩
  · rintro ⟨a, rfl, rfl⟩
    exact ⟨_, _, by rw [add_assoc, add_assoc], ⟨a, rfl, rfl⟩, _, _, rfl, rfl, _, _, rfl, rfl, rfl⟩

theorem CsrS.cells {A : Ptr} {R : Cells} (h : CsrS A R) : CsrCells A R := by
  obtain ⟨v, hv⟩ := h
  obtain ⟨a, ha, hR⟩ := csrO_iff.mp hv
  exact ⟨a, _, _, _, ha, hR⟩

/-- A matrix with exactly these blocks. -/
theorem CsrCells.exact {A : Ptr} {B : Cells} (h : CsrCells A B) :
    ∃ K, CsrR K A B ∧ ∀ R, CsrR K A R → R = B := by
  obtain ⟨a, p, j, x, ha, hB⟩ := h
  refine ⟨fun p' j' x' => p' = p ∧ j' = j ∧ x' = x, ⟨⟨(p, j, x), rfl, rfl, rfl⟩, csrO_iff.mpr ⟨a, ha, hB⟩⟩, ?_⟩
  rintro R ⟨⟨⟨p', j', x'⟩, h1, h2, h3⟩, hv⟩
  obtain ⟨a', ha', hR⟩ := csrO_iff.mp hv
  change p' = p at h1
  change j' = j at h2
  change x' = x at h3
  subst h1 h2 h3
  rw [ha] at ha'
  injection ha' with ha'
  subst ha'
  rw [hR, hB]

theorem CsrCells.owned {A : Ptr} {B : Cells} (h : CsrCells A B) : CsrS A B := by
  obtain ⟨a, p, j, x, ha, hB⟩ := h
  exact ⟨⟨(p, j, x), trivial⟩, csrO_iff.mpr ⟨a, ha, hB⟩⟩

theorem TripS.cells {A : Ptr} {R : Cells} (h : TripS A R) : TripletCells A R := by
  obtain ⟨v, hv⟩ := h
  obtain ⟨a, ha, hR⟩ := tripO_iff.mp hv
  exact ⟨a, _, _, _, ha, hR⟩

theorem TripletCells.owned {A : Ptr} {B : Cells} (h : TripletCells A B) : TripS A B := by
  obtain ⟨a, p, j, x, ha, hB⟩ := h
  exact ⟨⟨(p, j, x), trivial⟩, tripO_iff.mpr ⟨a, ha, hB⟩⟩

theorem TripletCells.exact {A : Ptr} {B : Cells} (h : TripletCells A B) :
    ∃ K, TripR K A B ∧ ∀ R, TripR K A R → R = B := by
  obtain ⟨a, p, j, x, ha, hB⟩ := h
  refine ⟨fun p' j' x' => p' = p ∧ j' = j ∧ x' = x, ⟨⟨(p, j, x), rfl, rfl, rfl⟩, tripO_iff.mpr ⟨a, ha, hB⟩⟩, ?_⟩
  rintro R ⟨⟨⟨p', j', x'⟩, h1, h2, h3⟩, hv⟩
  obtain ⟨a', ha', hR⟩ := tripO_iff.mp hv
  change p' = p at h1
  change j' = j at h2
  change x' = x at h3
  subst h1 h2 h3
  rw [ha] at ha'
  injection ha' with ha'
  subst ha'
  rw [hR, hB]

theorem CsrCells?.exact {A : Ptr} {B : Cells} (h : CsrCells? A B) :
    ∃ K, CsrQR K A B ∧ ∀ R, CsrQR K A R → R = B := by
  rcases h with ⟨rfl, rfl⟩ | h
  · exact ⟨fun _ _ _ => True, rfl, fun R h => h⟩
  · obtain ⟨K, h1, h2⟩ := h.exact
    obtain ⟨a, _, _, _, rfl, _⟩ := h
    exact ⟨K, h1, h2⟩

theorem CsrQ.cells {A : Ptr} {R : Cells} (h : CsrQ A R) : CsrCells? A R := by
  rcases A with _ | a
  · exact .inl ⟨rfl, h⟩
  · exact .inr (CsrS.cells h)

/-- A factorization with exactly these blocks. -/
theorem LuCells.exact {N : Ptr} {B : Cells} (h : LuCells N B) :
    ∃ KU KL U q p L, luR KU KL N U q p L B ∧ ∀ R, luR KU KL N U q p L R → R = B := by
  obtain ⟨a, U, q, p, L, BU, BL, rfl, hU, hL, rfl⟩ := h
  obtain ⟨KU, hU1, hU2⟩ := hU.exact
  obtain ⟨KL, hL1, hL2⟩ := hL.exact
  refine ⟨KU, KL, U, q, p, L, ⟨_, _, ?_, ⟨a, rfl, rfl⟩, BU, _, rfl, hU1, _, _, rfl, rfl, _, BL, rfl, rfl, hL1⟩, ?_⟩
  · ac_rfl
  · rintro R ⟨_, _, rfl, ⟨a', h', rfl⟩, BU', _, rfl, hU', _, _, rfl, rfl, _, BL', rfl, rfl, hL'⟩
    injection h' with h'
    rw [hU2 _ hU', hL2 _ hL', h']
    ac_rfl

theorem LuS.cells {N : Ptr} {R : Cells} (h : LuS N R) : LuCells N R := by
  obtain ⟨⟨U, q, p, L⟩, _, _, rfl, ⟨a, h', rfl⟩, BU', _, rfl, hU', _, _, rfl, rfl, _, BL', rfl, rfl, hL'⟩ := h
  refine ⟨a, U, q, p, L, BU', BL', h', CsrS.cells hU', CsrQ.cells hL', ?_⟩
  dsimp only
  ac_rfl

theorem LuCells.owned {N : Ptr} {B : Cells} (h : LuCells N B) : LuS N B := by
  obtain ⟨a, U, q, p, L, BU, BL, rfl, hU, hL, rfl⟩ := h
  refine ⟨(U, q, p, L), _, _, ?_, ⟨a, rfl, rfl⟩, BU, _, rfl, hU.owned, _, _, rfl, rfl, _, BL, rfl, rfl, ?_⟩
  · show _ = {(a, Obj.lu U q p L none)} + (BU + (arrCells q + (arrCells p + BL)))
    ac_rfl
  · rcases hL with ⟨rfl, rfl⟩ | hL
    · rfl
    · obtain ⟨a', rfl⟩ : ∃ a', L = some a' := ⟨_, hL.choose_spec.choose_spec.choose_spec.choose_spec.1⟩
      exact hL.owned

theorem dmO_iff {A p q r c : Ptr} {R : Cells} : dmO A p q r c R ↔
    ∃ a, A = some a ∧ R = {(a, Obj.dm p q r c)} + arrCells p + arrCells q + arrCells r + arrCells c := by
  constructor
  · rintro ⟨_, _, rfl, ⟨a, rfl, rfl⟩, _, _, rfl, rfl, _, _, rfl, rfl, _, _, rfl, rfl, rfl⟩
    exact ⟨a, rfl, by ac_rfl⟩
  · rintro ⟨a, rfl, rfl⟩
    exact ⟨_, _, by rw [add_assoc, add_assoc, add_assoc], ⟨a, rfl, rfl⟩, _, _, rfl, rfl, _, _, rfl, rfl, _, _, rfl, rfl, rfl⟩

theorem certO_iff {A p q r c : Ptr} {R : Cells} : certO A p q r c R ↔
    ∃ a, A = some a ∧ R = {(a, Obj.cert p q r c)} + arrCells p + arrCells q + arrCells r + arrCells c := by
  constructor
  · rintro ⟨_, _, rfl, ⟨a, rfl, rfl⟩, _, _, rfl, rfl, _, _, rfl, rfl, _, _, rfl, rfl, rfl⟩
    exact ⟨a, rfl, by ac_rfl⟩
  · rintro ⟨a, rfl, rfl⟩
    exact ⟨_, _, by rw [add_assoc, add_assoc, add_assoc], ⟨a, rfl, rfl⟩, _, _, rfl, rfl, _, _, rfl, rfl, _, _, rfl, rfl, rfl⟩

theorem DmS.cells {A : Ptr} {R : Cells} (h : DmS A R) : DmCells A R := by
  obtain ⟨v, hv⟩ := h
  obtain ⟨a, ha, hR⟩ := dmO_iff.mp hv
  exact ⟨a, _, _, _, _, ha, hR⟩

theorem DmCells.owned {A : Ptr} {B : Cells} (h : DmCells A B) : DmS A B := by
  obtain ⟨a, p, q, r, c, ha, hB⟩ := h
  exact ⟨(p, q, r, c), dmO_iff.mpr ⟨a, ha, hB⟩⟩

theorem CertS.cells {A : Ptr} {R : Cells} (h : CertS A R) : CertCells A R := by
  obtain ⟨v, hv⟩ := h
  obtain ⟨a, ha, hR⟩ := certO_iff.mp hv
  exact ⟨a, _, _, _, _, ha, hR⟩

end Heap
end Spasm
