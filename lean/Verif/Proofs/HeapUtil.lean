import Verif.Proofs.HeapLogic
import Verif.Model.HeapLib

/-
Memory management of src/spasm_util.c: specifications.
-/

namespace Spasm
namespace Heap

/-- A sparse matrix with known pointers. -/
abbrev csrO (A p j x : Ptr) : SL := cell A (.csr p j x) * (arr p * (arr j * arr x))
/-- A triplet matrix with known pointers. -/
abbrev tripO (A i j x : Ptr) : SL := cell A (.triplet i j x) * (arr i * (arr j * arr x))
/-- A decomposition with known pointers. -/
abbrev dmO (A p q r c : Ptr) : SL := cell A (.dm p q r c) * (arr p * (arr q * (arr r * arr c)))
/-- A certificate with known pointers. -/
abbrev certO (A p q r c : Ptr) : SL := cell A (.cert p q r c) * (arr p * (arr q * (arr r * arr c)))

/-- A sparse matrix whose pointers satisfy `K`: the pointers of a matrix that must not change are fixed by `K`. -/
def CsrR (K : Ptr → Ptr → Ptr → Prop) (A : Ptr) : SL :=
  SL.ex fun v : { v : Ptr × Ptr × Ptr // K v.1 v.2.1 v.2.2 } => csrO A v.1.1 v.1.2.1 v.1.2.2
/-- A sparse matrix. -/
abbrev CsrS (A : Ptr) : SL := CsrR (fun _ _ _ => True) A
/-- A sparse matrix whose array of row pointers is known. -/
abbrev CsrP (A p : Ptr) : SL := CsrR (fun p' _ _ => p' = p) A
/-- A triplet matrix whose pointers satisfy `K`. -/
def TripR (K : Ptr → Ptr → Ptr → Prop) (A : Ptr) : SL :=
  SL.ex fun v : { v : Ptr × Ptr × Ptr // K v.1 v.2.1 v.2.2 } => tripO A v.1.1 v.1.2.1 v.1.2.2
/-- A triplet matrix. -/
abbrev TripS (A : Ptr) : SL := TripR (fun _ _ _ => True) A
/-- A decomposition. -/
def DmS (A : Ptr) : SL := SL.ex fun v : Ptr × Ptr × Ptr × Ptr => dmO A v.1 v.2.1 v.2.2.1 v.2.2.2
/-- A certificate. -/
def CertS (A : Ptr) : SL := SL.ex fun v : Ptr × Ptr × Ptr × Ptr => certO A v.1 v.2.1 v.2.2.1 v.2.2.2

theorem CsrR.intro {K : Ptr → Ptr → Ptr → Prop} {A p j x : Ptr} (h : K p j x) : (csrO A p j x).Le (CsrR K A) :=
  SL.Le.ex ⟨(p, j, x), h⟩ SL.Le.rfl
theorem TripR.intro {K : Ptr → Ptr → Ptr → Prop} {A p j x : Ptr} (h : K p j x) : (tripO A p j x).Le (TripR K A) :=
  SL.Le.ex ⟨(p, j, x), h⟩ SL.Le.rfl
theorem CsrS.intro (A p j x : Ptr) : (csrO A p j x).Le (CsrS A) := CsrR.intro trivial
theorem CsrP.intro (A p j x : Ptr) : (csrO A p j x).Le (CsrP A p) := CsrR.intro rfl
theorem CsrP.csr (A p : Ptr) : (CsrP A p).Le (CsrS A) := SL.Le.ex_left fun _ => CsrS.intro _ _ _ _
theorem TripS.intro (A p j x : Ptr) : (tripO A p j x).Le (TripS A) := TripR.intro trivial
theorem DmS.intro (A p q r c : Ptr) : (dmO A p q r c).Le (DmS A) := SL.Le.ex (p, q, r, c) SL.Le.rfl
theorem CertS.intro (A p q r c : Ptr) : (certO A p q r c).Le (CertS A) := SL.Le.ex (p, q, r, c) SL.Le.rfl

/-- `P` is the sparse matrix `A`, with pointers that satisfy `K`, beside `F`. -/
class ExtR (A : Ptr) (P : SL) (K : outParam (Ptr → Ptr → Ptr → Prop)) (F : outParam SL) : Prop where
  eq : P = CsrR K A * F

instance (priority := 2000) ExtR.all {A : Ptr} {K : Ptr → Ptr → Ptr → Prop} : ExtR A (CsrR K A) K 1 :=
  ⟨(mul_one _).symm⟩
instance (priority := 1000) ExtR.hd {A : Ptr} {K : Ptr → Ptr → Ptr → Prop} {F : SL} : ExtR A (CsrR K A * F) K F := ⟨rfl⟩
instance (priority := 900) ExtR.right {A : Ptr} {K : Ptr → Ptr → Ptr → Prop} {P R F : SL} [h : ExtR A R K F] :
    ExtR A (P * R) K (P * F) := ⟨by rw [h.eq, mul_left_comm]⟩
instance (priority := 800) ExtR.left {A : Ptr} {K : Ptr → Ptr → Ptr → Prop} {P R F : SL} [h : ExtR A P K F] :
    ExtR A (P * R) K (F * R) := ⟨by rw [h.eq, mul_assoc]⟩

theorem ExtR.ext {A : Ptr} {P F : SL} {K : Ptr → Ptr → Ptr → Prop} (e : ExtR A P K F) : Ext (CsrR K A) P F := ⟨e.eq⟩

/-! ### Reading pointers -/

theorem Tr.openCsr {β : Type} {P F : SL} {A : Ptr} {K : Ptr → Ptr → Ptr → Prop} {f : Ptr × Ptr × Ptr → M β} {S : β → SL}
    [e : ExtR A P K F] (k : ∀ p j x, K p j x → Tr (csrO A p j x * F) (f (p, j, x)) S) : Tr P (getCsr A >>= f) S := by
  refine Tr.exE (P₀ := fun v : { v : Ptr × Ptr × Ptr // K v.1 v.2.1 v.2.2 } => csrO A v.1.1 v.1.2.1 v.1.2.2)
    (e := e.ext) fun v => ?_
  obtain ⟨⟨p, j, x⟩, hK⟩ := v
  refine Tr.stepP (P₀ := cell A (.csr p j x)) (getCsr_tr A p j x) fun v hv => ?_
  subst hv
  exact (k p j x hK).pre (by sl_ac)

/-- An operation that reads a matrix. -/
theorem Tr.readR {α β : Type} {P F : SL} {A : Ptr} {K : Ptr → Ptr → Ptr → Prop} {x : M α} {f : α → M β} {S : β → SL}
    (h : Tr (CsrR K A) x (fun _ => CsrR K A)) [e : ExtR A P K F] (k : ∀ v, Tr P (f v) S) : Tr P (x >>= f) S :=
  Tr.read (e := e.ext) h k

theorem Tr.readR_last {P F : SL} {A : Ptr} {K : Ptr → Ptr → Ptr → Prop} {x : M Unit}
    (h : Tr (CsrR K A) x (fun _ => CsrR K A)) [e : ExtR A P K F] : Tr P x (fun _ => P) :=
  Tr.read_last (e := e.ext) h

theorem Tr.getCsrK {β : Type} {P F : SL} {A : Ptr} (p j x : Ptr) {f : Ptr × Ptr × Ptr → M β} {S : β → SL}
    [e : Ext (cell A (.csr p j x)) P F] (k : Tr P (f (p, j, x)) S) : Tr P (getCsr A >>= f) S := by
  refine Tr.stepP (getCsr_tr A p j x) fun v hv => ?_
  subst hv
  rw [← e.eq]; exact k

theorem Tr.openTripR {β : Type} {P F : SL} {A : Ptr} (K : Ptr → Ptr → Ptr → Prop) {f : Ptr × Ptr × Ptr → M β} {S : β → SL}
    [e : Ext (TripR K A) P F] (k : ∀ p j x, K p j x → Tr (tripO A p j x * F) (f (p, j, x)) S) :
    Tr P (getTriplet A >>= f) S := by
  refine Tr.exE (P₀ := fun v : { v : Ptr × Ptr × Ptr // K v.1 v.2.1 v.2.2 } => tripO A v.1.1 v.1.2.1 v.1.2.2)
    (e := e) fun v => ?_
  obtain ⟨⟨p, j, x⟩, hK⟩ := v
  refine Tr.stepP (P₀ := cell A (.triplet p j x)) (getTriplet_tr A p j x) fun v hv => ?_
  subst hv
  exact (k p j x hK).pre (by sl_ac)

theorem Tr.openTrip {β : Type} {P F : SL} {A : Ptr} {f : Ptr × Ptr × Ptr → M β} {S : β → SL} [e : Ext (TripS A) P F]
    (k : ∀ p j x, Tr (tripO A p j x * F) (f (p, j, x)) S) : Tr P (getTriplet A >>= f) S :=
  Tr.openTripR (fun _ _ _ => True) fun p j x _ => k p j x

theorem Tr.getTripK {β : Type} {P F : SL} {A : Ptr} (p j x : Ptr) {f : Ptr × Ptr × Ptr → M β} {S : β → SL}
    [e : Ext (cell A (.triplet p j x)) P F] (k : Tr P (f (p, j, x)) S) : Tr P (getTriplet A >>= f) S := by
  refine Tr.stepP (getTriplet_tr A p j x) fun v hv => ?_
  subst hv
  rw [← e.eq]; exact k

theorem Tr.openDm {β : Type} {P F : SL} {A : Ptr} {f : Ptr × Ptr × Ptr × Ptr → M β} {S : β → SL} [e : Ext (DmS A) P F]
    (k : ∀ p q r c, Tr (dmO A p q r c * F) (f (p, q, r, c)) S) : Tr P (getDm A >>= f) S := by
  refine Tr.exE (P₀ := fun v : Ptr × Ptr × Ptr × Ptr => dmO A v.1 v.2.1 v.2.2.1 v.2.2.2) (e := e) fun v => ?_
  obtain ⟨p, q, r, c⟩ := v
  refine Tr.stepP (P₀ := cell A (.dm p q r c)) (getDm_tr A p q r c) fun v hv => ?_
  subst hv
  exact (k p q r c).pre (by sl_ac)

theorem Tr.getDmK {β : Type} {P F : SL} {A : Ptr} (p q r c : Ptr) {f : Ptr × Ptr × Ptr × Ptr → M β} {S : β → SL}
    [e : Ext (cell A (.dm p q r c)) P F] (k : Tr P (f (p, q, r, c)) S) : Tr P (getDm A >>= f) S := by
  refine Tr.stepP (getDm_tr A p q r c) fun v hv => ?_
  subst hv
  rw [← e.eq]; exact k

theorem Tr.openCert {β : Type} {P F : SL} {A : Ptr} {f : Ptr × Ptr × Ptr × Ptr → M β} {S : β → SL}
    [e : Ext (CertS A) P F] (k : ∀ p q r c, Tr (certO A p q r c * F) (f (p, q, r, c)) S) : Tr P (getCert A >>= f) S := by
  refine Tr.exE (P₀ := fun v : Ptr × Ptr × Ptr × Ptr => certO A v.1 v.2.1 v.2.2.1 v.2.2.2) (e := e) fun v => ?_
  obtain ⟨p, q, r, c⟩ := v
  refine Tr.stepP (P₀ := cell A (.cert p q r c)) (getCert_tr A p q r c) fun v hv => ?_
  subst hv
  exact (k p q r c).pre (by sl_ac)

theorem Tr.getLuK {β : Type} {P F : SL} {A : Ptr} (U qinv p L Lt : Ptr) {f : Ptr × Ptr × Ptr × Ptr × Ptr → M β}
    {S : β → SL} [e : Ext (cell A (.lu U qinv p L Lt)) P F] (k : Tr P (f (U, qinv, p, L, Lt)) S) :
    Tr P (getLu A >>= f) S := by
  refine Tr.stepP (getLu_tr A U qinv p L Lt) fun v hv => ?_
  subst hv
  rw [← e.eq]; exact k

/-! ### src/spasm_util.c -/

theorem optarr_tr (b : Bool) : Tr 1 (if b = true then malloc .arr else pure none) (fun q => arr q) :=
  Tr.iteT (fun _ => malloc_arr_tr) fun _ => Tr.ret SL.Le.rfl

theorem csr_alloc_tr (b : Bool) : Tr 1 (csr_alloc b) (fun A => CsrS A) := by
  unfold csr_alloc
  refine Tr.step (malloc_tr _) fun A => ?_
  refine Tr.step malloc_arr_tr fun p => ?_
  refine Tr.step (store_cell_tr A (.csr none none none) _) fun _ => ?_
  refine Tr.step malloc_arr_tr fun j => ?_
  refine Tr.step (store_cell_tr A (.csr p none none) _) fun _ => ?_
  refine Tr.step (optarr_tr b) fun x => ?_
  refine Tr.step (store_cell_tr A (.csr p j none) _) fun _ => ?_
  refine Tr.read (touch_tr p) fun _ => ?_
  exact Tr.ret (SL.Le.trans (by sl_ac) (CsrS.intro A p j x))

theorem triplet_alloc_tr (b : Bool) : Tr 1 (triplet_alloc b) (fun A => TripS A) := by
  unfold triplet_alloc
  refine Tr.step (malloc_tr _) fun A => ?_
  refine Tr.step malloc_arr_tr fun p => ?_
  refine Tr.step (store_cell_tr A (.triplet none none none) _) fun _ => ?_
  refine Tr.step malloc_arr_tr fun j => ?_
  refine Tr.step (store_cell_tr A (.triplet p none none) _) fun _ => ?_
  refine Tr.step (optarr_tr b) fun x => ?_
  refine Tr.step (store_cell_tr A (.triplet p j none) _) fun _ => ?_
  exact Tr.ret (SL.Le.trans (by sl_ac) (TripS.intro A p j x))

theorem nnz_tr (A p j x : Ptr) : Tr (csrO A p j x) (nnz A) (fun _ => csrO A p j x) := by
  unfold nnz
  refine Tr.getCsrK p j x ?_
  exact Tr.read_last (touch_tr p)

theorem nnzR_tr (K : Ptr → Ptr → Ptr → Prop) (A : Ptr) : Tr (CsrR K A) (nnz A) (fun _ => CsrR K A) := by
  refine Tr.exI fun v => ?_
  exact (nnz_tr A _ _ _).post fun _ => CsrR.intro v.2

theorem csr_realloc_tr (A p j x : Ptr) : Tr (csrO A p j x) (csr_realloc A) (fun _ => CsrP A p) := by
  unfold csr_realloc
  refine Tr.read (Tr.maybeT (nnz_tr A p j x)) fun _ => ?_
  refine Tr.getCsrK p j x ?_
  refine Tr.step (realloc_tr j) fun j' => ?_
  refine Tr.step (store_cell_tr A (.csr p j x) _) fun _ => ?_
  refine Tr.iteT (fun _ => ?_) fun _ => ?_
  · refine Tr.step (realloc_tr x) fun x' => ?_
    refine Tr.last (store_cell_tr A (.csr p j' x) _) fun _ => ?_
    exact SL.Le.trans (by sl_ac) (CsrP.intro A p j' x')
  · exact Tr.ret (SL.Le.trans (by sl_ac) (CsrP.intro A p j' x))

theorem csr_reallocP_tr (A p : Ptr) : Tr (CsrP A p) (csr_realloc A) (fun _ => CsrP A p) :=
  Tr.exI fun v => (csr_realloc_tr A _ _ _).post fun _ => by rw [v.2]; exact SL.Le.rfl

theorem csr_reallocS_tr (A : Ptr) : Tr (CsrS A) (csr_realloc A) (fun _ => CsrS A) :=
  Tr.exI fun _ => (csr_realloc_tr A _ _ _).post fun _ => CsrP.csr _ _

theorem triplet_realloc_tr (A : Ptr) : Tr (TripS A) (triplet_realloc A) (fun _ => TripS A) := by
  refine Tr.exI fun v => ?_
  obtain ⟨⟨i, j, x⟩, _⟩ := v
  show Tr (tripO A i j x) _ _
  unfold triplet_realloc
  refine Tr.getTripK i j x ?_
  refine Tr.step (realloc_tr i) fun i' => ?_
  refine Tr.step (store_cell_tr A (.triplet i j x) _) fun _ => ?_
  refine Tr.step (realloc_tr j) fun j' => ?_
  refine Tr.step (store_cell_tr A (.triplet i' j x) _) fun _ => ?_
  refine Tr.iteT (fun _ => ?_) fun _ => ?_
  · refine Tr.step (realloc_tr x) fun x' => ?_
    refine Tr.last (store_cell_tr A (.triplet i' j' x) _) fun _ => ?_
    exact SL.Le.trans (by sl_ac) (TripS.intro A i' j' x')
  · exact Tr.ret (SL.Le.trans (by sl_ac) (TripS.intro A i' j' x))

theorem cell_isSome {q : Ptr} {o : Obj} {P : SL} {α : Type} {x : M α} {Q : α → SL}
    (h : q.isSome = true → Tr (cell q o * P) x Q) : Tr (cell q o * P) x Q := by
  rcases q with _ | a
  · rintro s F R hg he ⟨_, _, _, ⟨a, h, _⟩, _⟩
    exact absurd h (by simp)
  · exact h rfl

theorem csr_freeO_tr (A p j x : Ptr) : Tr (csrO A p j x) (csr_free A) (fun _ => 1) := by
  refine cell_isSome fun hA => ?_
  show Tr _ (if A.isSome = true then _ else _) _
  rw [if_pos hA]
  refine Tr.getCsrK p j x ?_
  refine Tr.step (free_arr_tr p) fun _ => ?_
  refine Tr.getCsrK p j x ?_
  refine Tr.step (free_arr_tr j) fun _ => ?_
  refine Tr.getCsrK p j x ?_
  refine Tr.step (free_arr_tr x) fun _ => ?_
  exact Tr.last (free_cell_tr A (.csr p j x)) fun _ => by sl_ac

theorem csr_free_tr (A : Ptr) : Tr (CsrS A) (csr_free A) (fun _ => 1) := Tr.exI fun _ => csr_freeO_tr A _ _ _

theorem triplet_freeO_tr (A p j x : Ptr) : Tr (tripO A p j x) (triplet_free A) (fun _ => 1) := by
  unfold triplet_free
  refine Tr.getTripK p j x ?_
  refine Tr.step (free_arr_tr p) fun _ => ?_
  refine Tr.getTripK p j x ?_
  refine Tr.step (free_arr_tr j) fun _ => ?_
  refine Tr.getTripK p j x ?_
  refine Tr.step (free_arr_tr x) fun _ => ?_
  exact Tr.last (free_cell_tr A (.triplet p j x)) fun _ => by sl_ac

theorem triplet_free_tr (A : Ptr) : Tr (TripS A) (triplet_free A) (fun _ => 1) := Tr.exI fun _ => triplet_freeO_tr A _ _ _

theorem csr_resize_tr (A : Ptr) : Tr (CsrS A) (csr_resize A) (fun _ => CsrS A) := by
  unfold csr_resize
  refine Tr.openCsr fun p j x _ => ?_
  refine Tr.step (realloc_tr p) fun p' => ?_
  refine Tr.step (store_cell_tr A (.csr p j x) _) fun _ => ?_
  refine Tr.last (Tr.maybeT (Tr.loopT (touch_tr p'))) fun _ => ?_
  exact SL.Le.trans (by sl_ac) (CsrS.intro A p' j x)

theorem dm_alloc_tr : Tr 1 dm_alloc (fun A => DmS A) := by
  unfold dm_alloc
  refine Tr.step (malloc_tr _) fun A => ?_
  refine Tr.step malloc_arr_tr fun p => ?_
  refine Tr.step (store_cell_tr A (.dm none none none none) _) fun _ => ?_
  refine Tr.step malloc_arr_tr fun q => ?_
  refine Tr.step (store_cell_tr A (.dm p none none none) _) fun _ => ?_
  refine Tr.step malloc_arr_tr fun r => ?_
  refine Tr.step (store_cell_tr A (.dm p q none none) _) fun _ => ?_
  refine Tr.step malloc_arr_tr fun c => ?_
  refine Tr.step (store_cell_tr A (.dm p q r none) _) fun _ => ?_
  exact Tr.ret (SL.Le.trans (by sl_ac) (DmS.intro A p q r c))

theorem dm_freeO_tr (A p q r c : Ptr) : Tr (dmO A p q r c) (dm_free A) (fun _ => 1) := by
  unfold dm_free
  refine Tr.getDmK p q r c ?_
  refine Tr.step (free_arr_tr p) fun _ => ?_
  refine Tr.getDmK p q r c ?_
  refine Tr.step (free_arr_tr q) fun _ => ?_
  refine Tr.getDmK p q r c ?_
  refine Tr.step (free_arr_tr r) fun _ => ?_
  refine Tr.getDmK p q r c ?_
  refine Tr.step (free_arr_tr c) fun _ => ?_
  exact Tr.last (free_cell_tr A (.dm p q r c)) fun _ => by sl_ac

theorem dm_free_tr (A : Ptr) : Tr (DmS A) (dm_free A) (fun _ => 1) := Tr.exI fun _ => dm_freeO_tr A _ _ _ _

/-- A sparse matrix, or `NULL`. -/
def CsrQR (K : Ptr → Ptr → Ptr → Prop) (A : Ptr) : SL := if A.isSome = true then CsrR K A else 1
abbrev CsrQ (A : Ptr) : SL := CsrQR (fun _ _ _ => True) A

theorem csr_freeQ_tr (A : Ptr) : Tr (CsrQ A) (csr_free A) (fun _ => 1) := by
  unfold CsrQ CsrQR
  split
  · exact csr_free_tr A
  · rename_i h
    show Tr _ (if A.isSome = true then _ else _) _
    rw [if_neg h]
    exact Tr.ret SL.Le.rfl

/-- A factorization, as `spasm_echelonize` returns it. -/
def LuS (N : Ptr) : SL := SL.ex fun v : Ptr × Ptr × Ptr × Ptr =>
  cell N (.lu v.1 v.2.1 v.2.2.1 v.2.2.2 none) * (CsrS v.1 * (arr v.2.1 * (arr v.2.2.1 * CsrQ v.2.2.2)))

theorem lu_free_tr (N : Ptr) : Tr (LuS N) (lu_free N) (fun _ => 1) := by
  refine Tr.exI fun v => ?_
  obtain ⟨U, q, p, L⟩ := v
  show Tr (cell N (.lu U q p L none) * (CsrS U * (arr q * (arr p * CsrQ L)))) _ _
  unfold lu_free
  refine Tr.getLuK U q p L none ?_
  refine Tr.step (free_arr_tr q) fun _ => ?_
  refine Tr.getLuK U q p L none ?_
  refine Tr.step (free_arr_tr p) fun _ => ?_
  refine Tr.getLuK U q p L none ?_
  refine Tr.step (csr_free_tr U) fun _ => ?_
  refine Tr.getLuK U q p L none ?_
  refine Tr.step (csr_freeQ_tr L) fun _ => ?_
  exact Tr.last (free_cell_tr N (.lu U q p L none)) fun _ => by sl_ac

end Heap
end Spasm
