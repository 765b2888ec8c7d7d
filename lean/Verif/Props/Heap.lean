import Verif.Proofs.HeapMain

/-
C63: the memory allocated by the library.  No block is used once it has been freed, no block is freed twice, the blocks
of the caller do not move, and what is allocated is the result or is freed.

All these statements are about arbitrary states: any blocks of the caller (`F`), any sequence of decisions (`s.orc`).
-/

namespace Spasm
namespace Heap

/-! ### A state for the examples: the blocks of a matrix, and those of a factorization without `L`. -/

/-- A matrix at the address 0, a factorization at the address 4. -/
def exState (orc : List Nat) : St where
  mem := [(0, .csr (some 1) (some 2) (some 3)), (1, .arr), (2, .arr), (3, .arr), (4, .lu (some 5) (some 9) none none none),
    (9, .arr), (5, .csr (some 6) (some 7) (some 8)), (6, .arr), (7, .arr), (8, .arr)]
  next := 10
  orc := orc

theorem exState_good (orc : List Nat) : (exState orc).Good :=
  ⟨(by decide : ((exState []).mem.map Prod.fst).Nodup), by
    intro c hc
    have : ∀ c ∈ (exState []).mem, c.1 < 10 := by decide
    exact this c hc⟩

/-- The blocks of the matrix. -/
def exA : Cells := ([(0, .csr (some 1) (some 2) (some 3)), (1, .arr), (2, .arr), (3, .arr)] : List (Nat × Obj))
/-- The blocks of the factorization. -/
def exN : Cells := ([(4, .lu (some 5) (some 9) none none none), (9, .arr),
    (5, .csr (some 6) (some 7) (some 8)), (6, .arr), (7, .arr), (8, .arr)] : List (Nat × Obj))

theorem exA_csr : CsrCells (some 0) exA := ⟨0, some 1, some 2, some 3, rfl, rfl⟩
theorem exN_lu : LuCells (some 4) exN :=
  ⟨4, some 5, some 9, none, none, _, 0, rfl, ⟨5, some 6, some 7, some 8, rfl, rfl⟩, .inl ⟨rfl, rfl⟩, rfl⟩
theorem ex_cells (orc : List Nat) : (exState orc).cells = exA + exN := rfl
theorem ex_cells' (orc : List Nat) : (exState orc).cells = exN + exA := by rw [ex_cells, add_comm]

/-- A sequence of decisions. -/
def again : Nat → List Nat → List Nat
  | 0, _ => []
  | n + 1, l => l ++ again n l

/-- Whether a computation ends normally. -/
def isOk {α : Type} (x : Except Fault α) : Bool := match x with | .ok _ => true | .error _ => false

/-! ### Freeing -/

/-- `spasm_csr_free` frees the blocks of the matrix and only these. -/
theorem C63_csr_free {s : St} {A : Ptr} {B F : Cells} (hg : s.Good) (hA : CsrCells A B) (hs : s.cells = B + F) :
    Ends (csr_free A) s fun _ R => R = F :=
  (csr_free_tr A).ends hg hs hA.owned fun _ R h => by rw [SL.one_iff.mp h, zero_add]

/-- `spasm_triplet_free` -/
theorem C63_triplet_free {s : St} {A : Ptr} {B F : Cells} (hg : s.Good) (hA : TripletCells A B) (hs : s.cells = B + F) :
    Ends (triplet_free A) s fun _ R => R = F :=
  (triplet_free_tr A).ends hg hs hA.owned fun _ R h => by rw [SL.one_iff.mp h, zero_add]

/-- `spasm_lu_free` frees the matrices and the arrays of a factorization. -/
theorem C63_lu_free {s : St} {N : Ptr} {B F : Cells} (hg : s.Good) (hN : LuCells N B) (hs : s.cells = B + F) :
    Ends (lu_free N) s fun _ R => R = F :=
  (lu_free_tr N).ends hg hs hN.owned fun _ R h => by rw [SL.one_iff.mp h, zero_add]

/-- `spasm_dm_free` -/
theorem C63_dm_free {s : St} {P : Ptr} {B F : Cells} (hg : s.Good) (hP : DmCells P B) (hs : s.cells = B + F) :
    Ends (dm_free P) s fun _ R => R = F :=
  (dm_free_tr P).ends hg hs hP.owned fun _ R h => by rw [SL.one_iff.mp h, zero_add]

example : Ends (csr_free (some 0)) (exState []) fun _ R => R = exN :=
  C63_csr_free (exState_good _) exA_csr (ex_cells _)
example : isOk (csr_free (some 0) (exState [])) = true := by decide
example : Ends (lu_free (some 4)) (exState []) fun _ R => R = exA :=
  C63_lu_free (exState_good _) exN_lu (ex_cells' _)
example : isOk (lu_free (some 4) (exState [])) = true := by decide

/-! ### Matrices -/

/-- A function that reads a matrix and returns a structure. -/
theorem makes_csr {s : St} {A : Ptr} {B F : Cells} {x : M Ptr} {Own : Ptr → Cells → Prop} {S : Ptr → SL}
    (hg : s.Good) (hA : CsrCells A B) (hs : s.cells = B + F) (hS : ∀ v R, S v R → Own v R)
    (h : ∀ K, Tr (CsrR K A) x (fun v => CsrR K A * S v)) : Makes x s Own := by
  obtain ⟨K, h1, h2⟩ := hA.exact
  refine (h K).ends hg hs h1 ?_
  rintro v R' ⟨R₁, R₂, rfl, k1, k2⟩
  exact ⟨R₂, hS v R₂ k2, by rw [h2 _ k1, hs]; ac_rfl⟩

/-- `spasm_compress`: the triplets are still there, the result is a new matrix. -/
theorem C63_compress {s : St} {T : Ptr} {B F : Cells} (hg : s.Good) (hT : TripletCells T B) (hs : s.cells = B + F) :
    Makes (compress T) s CsrCells := by
  obtain ⟨K, h1, h2⟩ := hT.exact
  refine (compress_tr (K := K) T).ends hg hs h1 ?_
  rintro v R' ⟨R₁, R₂, rfl, k1, k2⟩
  exact ⟨R₂, CsrS.cells k2, by rw [h2 _ k1, hs]; ac_rfl⟩

example : isOk ((do let T ← triplet_load true; compress T) (exState (again 30 [1, 2]))) = true := by decide +kernel

/-- `spasm_transpose` -/
theorem C63_transpose {s : St} {A : Ptr} {B F : Cells} (keep : Bool) (hg : s.Good) (hA : CsrCells A B)
    (hs : s.cells = B + F) : Makes (transpose A keep) s CsrCells :=
  makes_csr hg hA hs (fun _ _ => CsrS.cells) fun K => transpose_tr (K := K) A keep

/-- `spasm_submatrix` -/
theorem C63_submatrix {s : St} {A : Ptr} {B F : Cells} (vals : Bool) (hg : s.Good) (hA : CsrCells A B)
    (hs : s.cells = B + F) : Makes (submatrix A vals) s CsrCells :=
  makes_csr hg hA hs (fun _ _ => CsrS.cells) fun K => submatrix_tr (K := K) A vals

/-- `spasm_permute`; the permutations may be `NULL`. -/
theorem C63_permute {s : St} {A p q : Ptr} {B F : Cells} (vals : Bool) (hg : s.Good) (hA : CsrCells A B)
    (hs : s.cells = B + arrCells p + arrCells q + F) : Makes (permute A p q vals) s CsrCells := by
  obtain ⟨K, h1, h2⟩ := hA.exact
  refine (permute_tr (K := K) A p q vals).ends (R := B + (arrCells p + arrCells q)) (F := F) hg (by rw [hs]; ac_rfl)
    ⟨_, _, rfl, h1, _, _, rfl, rfl, rfl⟩ ?_
  rintro v R' ⟨_, R₂, rfl, ⟨_, _, rfl, k1, _, _, rfl, rfl, rfl⟩, k2⟩
  exact ⟨R₂, CsrS.cells k2, by rw [h2 _ k1, hs]; ac_rfl⟩

example : isOk (transpose (some 0) true (exState (again 30 [1, 2]))) = true := by decide +kernel
example : isOk (submatrix (some 0) true (exState (again 30 [1, 2]))) = true := by decide +kernel
example : isOk (permute (some 0) none (some 9) true (exState (again 30 [1, 2]))) = true := by decide +kernel

/-! ### Echelonization -/

/-- `spasm_echelonize`: the argument is not modified nor freed, all the temporaries (Schur complements of the successive
rounds, permutations, dense matrices, the triplets of `L`) are freed exactly once, and no pointer to a matrix that has
moved is used.  This holds for all options and all sequences of decisions. -/
theorem C63_echelonize {s : St} {A : Ptr} {B F : Cells} (hasL : Bool) (hg : s.Good) (hA : CsrCells A B)
    (hs : s.cells = B + F) : Makes (echelonize A hasL) s LuCells :=
  makes_csr hg hA hs (fun _ _ => LuS.cells) fun K => echelonize_tr (K := K) A hasL

/-- A matrix can be echelonized and the factorization freed as many times as one wishes. -/
theorem C63_echelonize_free {s : St} {A : Ptr} {B F : Cells} (hasL : Bool) (hg : s.Good) (hA : CsrCells A B)
    (hs : s.cells = B + F) : Keeps (do let N ← echelonize A hasL; lu_free N) s := by
  obtain ⟨K, h1, h2⟩ := hA.exact
  have h : Tr (CsrR K A) (do let N ← echelonize A hasL; lu_free N) (fun _ => CsrR K A) :=
    (echelonize_tr (K := K) A hasL).bind fun N => Tr.last (lu_free_tr N) fun _ => by sl_ac
  exact h.ends hg hs h1 fun _ R hR => by rw [h2 _ hR, hs]

example : isOk (echelonize (some 0) true (exState (again 100 [2, 1, 1]))) = true := by decide +kernel
example : isOk (echelonize (some 0) false (exState (again 10 [2, 1, 1]))) = true := by decide +kernel

/-! ### Functions of a factorization -/

/-- `spasm_kernel` -/
theorem C63_kernel {s : St} {N : Ptr} {B F : Cells} (hg : s.Good) (hN : LuCells N B) (hs : s.cells = B + F) :
    Makes (kernel N) s CsrCells := by
  obtain ⟨KU, KL, U, q, p, L, h1, h2⟩ := hN.exact
  refine (kernel_tr (KU := KU) (KL := KL) N U q p L).ends hg hs h1 ?_
  rintro v R' ⟨R₁, R₂, rfl, k1, k2⟩
  exact ⟨R₂, CsrS.cells k2, by rw [h2 _ k1, hs]; ac_rfl⟩

/-- `spasm_rref`; the array `Rqinv` is the caller's. -/
theorem C63_rref {s : St} {N Rqinv : Ptr} {B F : Cells} (hg : s.Good) (hN : LuCells N B)
    (hs : s.cells = B + arrCells Rqinv + F) : Makes (rref N Rqinv) s CsrCells := by
  obtain ⟨KU, KL, U, q, p, L, h1, h2⟩ := hN.exact
  refine (rref_tr (KU := KU) (KL := KL) N U q p L Rqinv).ends (R := B + arrCells Rqinv) hg hs ⟨_, _, rfl, h1, rfl⟩ ?_
  rintro v R' ⟨_, R₂, rfl, ⟨_, _, rfl, k1, rfl⟩, k2⟩
  exact ⟨R₂, CsrS.cells k2, by rw [h2 _ k1, hs]; ac_rfl⟩

/-- `spasm_kernel_from_rref` -/
theorem C63_kernel_from_rref {s : St} {A qinv : Ptr} {B F : Cells} (hg : s.Good) (hA : CsrCells A B)
    (hs : s.cells = B + arrCells qinv + F) : Makes (kernel_from_rref A qinv) s CsrCells := by
  obtain ⟨K, h1, h2⟩ := hA.exact
  refine (kernel_from_rref_tr (K := K) A qinv).ends (R := B + arrCells qinv) hg hs ⟨_, _, rfl, h1, rfl⟩ ?_
  rintro v R' ⟨_, R₂, rfl, ⟨_, _, rfl, k1, rfl⟩, k2⟩
  exact ⟨R₂, CsrS.cells k2, by rw [h2 _ k1, hs]; ac_rfl⟩

/-- `spasm_solve` -/
theorem C63_solve {s : St} {N b x : Ptr} {B F : Cells} (hg : s.Good) (hN : LuCells N B)
    (hs : s.cells = B + (arrCells b + arrCells x) + F) : Keeps (solve N b x) s := by
  obtain ⟨KU, KL, U, q, p, L, h1, h2⟩ := hN.exact
  refine (solve_tr (KU := KU) (KL := KL) N U q p L b x).ends (R := B + (arrCells b + arrCells x)) hg hs
    ⟨_, _, rfl, h1, _, _, rfl, rfl, rfl⟩ ?_
  rintro v R' ⟨_, R₂, rfl, k1, _, _, rfl, rfl, rfl⟩
  rw [h2 _ k1, hs]

/-- `spasm_gesv`; the array `ok` may be `NULL`. -/
theorem C63_gesv {s : St} {N A ok : Ptr} {B BA F : Cells} (hg : s.Good) (hN : LuCells N B) (hA : CsrCells A BA)
    (hs : s.cells = B + (BA + arrCells ok) + F) : Makes (gesv N A ok) s CsrCells := by
  obtain ⟨KU, KL, U, q, p, L, h1, h2⟩ := hN.exact
  obtain ⟨K, h3, h4⟩ := hA.exact
  refine (gesv_tr (KU := KU) (KL := KL) (KB := K) N U q p L A ok).ends (R := B + (BA + arrCells ok)) hg hs
    ⟨_, _, rfl, h1, _, _, rfl, h3, rfl⟩ ?_
  rintro v R' ⟨_, R₂, rfl, ⟨_, _, rfl, k1, _, _, rfl, k3, rfl⟩, k2⟩
  exact ⟨R₂, CsrS.cells k2, by rw [h2 _ k1, h4 _ k3, hs]; ac_rfl⟩

/-- `spasm_certificate_rank_create` -/
theorem C63_certificate_create {s : St} {N A : Ptr} {B BA F : Cells} (hg : s.Good) (hN : LuCells N B)
    (hA : CsrCells A BA) (hs : s.cells = B + BA + F) : Makes (certificate_rank_create A N) s CertCells := by
  obtain ⟨KU, KL, U, q, p, L, h1, h2⟩ := hN.exact
  obtain ⟨K, h3, h4⟩ := hA.exact
  refine (certificate_rank_create_tr (KU := KU) (KL := KL) (K := K) A N U q p L).ends (R := B + BA) hg hs
    ⟨_, _, rfl, h1, h3⟩ ?_
  rintro v R' ⟨_, R₂, rfl, ⟨_, _, rfl, k1, k3⟩, k2⟩
  exact ⟨R₂, CertS.cells k2, by rw [h2 _ k1, h4 _ k3, hs]; ac_rfl⟩

/-- `spasm_factorization_verify` -/
theorem C63_factorization_verify {s : St} {N A : Ptr} {B BA F : Cells} (hg : s.Good) (hN : LuCells N B)
    (hA : CsrCells A BA) (hs : s.cells = B + BA + F) : Keeps (factorization_verify A N) s := by
  obtain ⟨KU, KL, U, q, p, L, h1, h2⟩ := hN.exact
  obtain ⟨K, h3, h4⟩ := hA.exact
  refine (factorization_verify_tr (KU := KU) (KL := KL) (K := K) A N U q p L).ends (R := B + BA) hg hs
    ⟨_, _, rfl, h1, h3⟩ ?_
  rintro v R' ⟨_, _, rfl, k1, k3⟩
  rw [h2 _ k1, h4 _ k3, hs]

/-- `spasm_certificate_rank_verify`: the certificate and the matrix are unchanged. -/
theorem C63_certificate_verify {s : St} {A P : Ptr} {BA BP F : Cells} (hg : s.Good) (hA : CsrCells A BA)
    (hP : CertCells P BP) (hs : s.cells = BA + BP + F) : Keeps (certificate_rank_verify A P) s := by
  obtain ⟨K, h3, h4⟩ := hA.exact
  obtain ⟨a, i, j, x, y, rfl, rfl⟩ := hP
  refine (certificate_rank_verify_tr (K := K) A (some a) i j x y).ends hg hs ⟨_, _, rfl, h3, certO_iff.mpr ⟨a, rfl, rfl⟩⟩ ?_
  rintro v R' ⟨_, _, rfl, k1, k2⟩
  obtain ⟨a', ha, rfl⟩ := certO_iff.mp k2
  injection ha with ha
  rw [h4 _ k1, hs, ha]

/-- `spasm_maximum_matching` -/
theorem C63_matching {s : St} {A p q : Ptr} {B F : Cells} (hg : s.Good) (hA : CsrCells A B)
    (hs : s.cells = B + (arrCells p + arrCells q) + F) : Keeps (maximum_matching A p q) s := by
  obtain ⟨K, h1, h2⟩ := hA.exact
  refine (maximum_matching_tr (K := K) A p q).ends (R := B + (arrCells p + arrCells q)) hg hs
    ⟨_, _, rfl, h1, _, _, rfl, rfl, rfl⟩ ?_
  rintro v R' ⟨_, _, rfl, k1, _, _, rfl, rfl, rfl⟩
  rw [h2 _ k1, hs]

example : isOk (kernel (some 4) (exState (again 100 [2, 1, 1]))) = true := by decide +kernel
example : isOk (kernel_from_rref (some 0) (some 9) (exState (again 30 [1, 2]))) = true := by decide +kernel
/-- The factorizations that have a matrix `L`. -/
example : isOk ((do
    let N ← echelonize (some 0) true
    let b ← malloc .arr
    let x ← malloc .arr
    solve N b x
    let X ← gesv N (some 0) b
    let Rq ← malloc .arr
    let R ← rref N Rq
    let P ← certificate_rank_create (some 0) N
    factorization_verify (some 0) N
    certificate_rank_verify (some 0) P
    maximum_matching R b x
    csr_free X) (exState (again 100 [2, 1, 1]))) = true := by decide +kernel

/-! ### Decompositions: some blocks are never freed -/

/-- `spasm_strongly_connected_components`: besides the result, one array is left (`prev`, src/spasm_scc.c). -/
theorem C63_scc_partial {s : St} {A : Ptr} {B F : Cells} (hg : s.Good) (hA : CsrCells A B) (hs : s.cells = B + F) :
    Makes (strongly_connected_components A) s
      (fun P R => ∃ B₁ B₂, DmCells P B₁ ∧ ArrayCells 1 B₂ ∧ R = B₁ + B₂) := by
  obtain ⟨K, h1, h2⟩ := hA.exact
  refine (strongly_connected_components_tr (K := K) A).ends hg hs h1 ?_
  rintro v R' ⟨_, R₃, rfl, ⟨R₁, R₂, rfl, k1, k2⟩, k3⟩
  exact ⟨R₂ + R₃, ⟨R₂, R₃, DmS.cells k2, k3, rfl⟩, by rw [h2 _ k1, hs]; ac_rfl⟩

/-- `spasm_dulmage_mendelsohn`: besides the result, two to four arrays are left (`jmatch`, `imatch`, `qinv` and the
`prev` of the strongly connected components). -/
theorem C63_dm_partial {s : St} {A : Ptr} {B F : Cells} (hg : s.Good) (hA : CsrCells A B) (hs : s.cells = B + F) :
    Makes (dulmage_mendelsohn A) s
      (fun P R => ∃ k B₁ B₂, 2 ≤ k ∧ k ≤ 4 ∧ DmCells P B₁ ∧ ArrayCells k B₂ ∧ R = B₁ + B₂) := by
  obtain ⟨K, h1, h2⟩ := hA.exact
  refine (dulmage_mendelsohn_tr (K := K) A).ends hg hs h1 ?_
  rintro v R' ⟨_, R₃, rfl, ⟨R₁, R₂, rfl, k1, k2⟩, ⟨k, hk⟩, k3⟩
  exact ⟨R₂ + R₃, ⟨k, R₂, R₃, hk.1, hk.2, DmS.cells k2, k3, rfl⟩, by rw [h2 _ k1, hs]; ac_rfl⟩

theorem DmCells.card {P : Ptr} {B : Cells} (h : DmCells P B) : B.card ≤ 5 := by
  have ha : ∀ p : Ptr, (arrCells p).card ≤ 1 := by
    intro p
    rcases p with _ | a
    · exact Nat.zero_le _
    · exact Nat.le_refl _
  obtain ⟨a, p, q, r, c, rfl, rfl⟩ := h
  rw [Multiset.card_add, Multiset.card_add, Multiset.card_add, Multiset.card_add, Multiset.card_singleton]
  have := ha p
  have := ha q
  have := ha r
  have := ha c
  omega

/-- The number of blocks at the end. -/
def blocks {α : Type} (x : Except Fault (α × St)) : Nat := match x with | .ok (_, s) => s.mem.length | .error _ => 0

theorem makes_dm_blocks {x : M Ptr} {s : St} (h : Makes x s DmCells) : blocks (x s) ≤ s.mem.length + 5 := by
  unfold Makes Ends at h
  unfold blocks
  revert h
  rcases x s with e | ⟨v, s'⟩
  · intro _; exact Nat.zero_le _
  · rintro ⟨_, B, hB, he⟩
    have h1 := hB.card
    have h2 : s'.cells.card = s'.mem.length := Multiset.coe_card _
    have h3 : s.cells.card = s.mem.length := Multiset.coe_card _
    have h4 := congrArg Multiset.card he
    rw [Multiset.card_add] at h4
    show s'.mem.length ≤ _
    omega

theorem scc_run : blocks (strongly_connected_components (some 0) (exState [])) = 16 := by decide +kernel
theorem dm_run : blocks (dulmage_mendelsohn (some 0) (exState [])) = 19 := by decide +kernel

section
attribute [local irreducible] Makes

/-- The full statement is false for the strongly connected components. -/
theorem C63_scc_leak : ¬ ∀ (s : St) (A : Ptr) (B F : Cells), s.Good → CsrCells A B → s.cells = B + F →
    Makes (strongly_connected_components A) s DmCells := by
  intro h
  have h1 := h (exState []) (some 0) exA exN (exState_good _) exA_csr (ex_cells _)
  have h2 := makes_dm_blocks h1
  rw [scc_run] at h2
  exact absurd h2 (by decide)

/-- The full statement is false for the Dulmage-Mendelsohn decomposition. -/
theorem C63_dm_leak : ¬ ∀ (s : St) (A : Ptr) (B F : Cells), s.Good → CsrCells A B → s.cells = B + F →
    Makes (dulmage_mendelsohn A) s DmCells := by
  intro h
  have h1 := h (exState []) (some 0) exA exN (exState_good _) exA_csr (ex_cells _)
  have h2 := makes_dm_blocks h1
  rw [dm_run] at h2
  exact absurd h2 (by decide)

end

/-! ### Programs -/

theorem keeps_of_tr {α : Type} {x : M α} {s : St} (hg : s.Good) (h : Tr 1 x (fun _ => 1)) : Keeps x s :=
  h.ends (R := 0) hg (zero_add _).symm rfl fun _ R hR => by rw [SL.one_iff.mp hR, zero_add]

/-- The program `rank` frees all that it allocates when it is not asked for a certificate. -/
theorem C63_rank {s : St} (hasL : Bool) (hg : s.Good) : Keeps (main_rank false hasL) s :=
  keeps_of_tr hg (main_rank_tr false hasL)

/-- With `--certificate`, the certificate is not freed. -/
theorem C63_rank_certificate {s : St} (hasL : Bool) (hg : s.Good) :
    Leaves (main_rank true hasL) s fun B => ∃ P, CertCells P B :=
  (main_rank_tr true hasL).ends (R := 0) hg (zero_add _).symm rfl fun _ R ⟨P, hR⟩ => ⟨R, ⟨P, CertS.cells hR⟩, rfl⟩

/-- The program `echelonize` frees all that it allocates, with and without `--rref`. -/
theorem C63_echelonize_tool {s : St} (hasL r : Bool) (hg : s.Good) : Keeps (main_echelonize hasL r) s :=
  keeps_of_tr hg (main_echelonize_tr hasL r)

/-- The programs `transpose`, `bitmap` and `stack` free all that they allocate. -/
theorem C63_transpose_tool {s : St} (hg : s.Good) : Keeps main_transpose s := keeps_of_tr hg main_transpose_tr
theorem C63_bitmap_tool {s : St} (hg : s.Good) : Keeps main_bitmap s := keeps_of_tr hg main_bitmap_tr
theorem C63_stack_tool {s : St} (hg : s.Good) : Keeps main_stack s := keeps_of_tr hg main_stack_tr

/-- The program `kernel` leaves the factorization and the kernel. -/
theorem C63_kernel_tool {s : St} (hasL : Bool) (hg : s.Good) : Leaves (main_kernel hasL) s fun B =>
    ∃ N A B₁ B₂, LuCells N B₁ ∧ CsrCells A B₂ ∧ B = B₁ + B₂ :=
  (main_kernel_tr hasL).ends (R := 0) hg (zero_add _).symm rfl fun _ _ ⟨v, R₁, R₂, he, h1, h2⟩ =>
    ⟨_, ⟨v.1, v.2, R₁, R₂, LuS.cells h1, CsrS.cells h2, he⟩, rfl⟩

/-- The program `solve` leaves the two matrices, the factorization, the array `ok` and the solution. -/
theorem C63_solve_tool {s : St} (hg : s.Good) : Leaves main_solve s fun B =>
    ∃ A A' N ok X B₁ B₂ B₃ B₄, CsrCells A B₁ ∧ CsrCells A' B₂ ∧ LuCells N B₃ ∧ CsrCells X B₄ ∧
      B = B₁ + (B₂ + (B₃ + (arrCells ok + B₄))) :=
  main_solve_tr.ends (R := 0) hg (zero_add _).symm rfl
    fun _ _ ⟨v, R₁, _, he, h1, R₂, _, he2, h2, R₃, _, he3, h3, R₄, R₅, he4, h4, h5⟩ =>
    ⟨_, ⟨v.1, v.2.1, v.2.2.1, v.2.2.2.1, v.2.2.2.2, R₁, R₂, R₃, R₅, CsrS.cells h1, CsrS.cells h2, LuS.cells h3,
      CsrS.cells h5, by rw [he, he2, he3, he4, h4]⟩, rfl⟩

/-- The program `vertical_swap` leaves its matrix. -/
theorem C63_vertical_swap_tool {s : St} (hg : s.Good) :
    Leaves main_vertical_swap s fun B => ∃ T, TripletCells T B :=
  main_vertical_swap_tr.ends (R := 0) hg (zero_add _).symm rfl fun _ R ⟨P, hR⟩ => ⟨R, ⟨P, TripS.cells hR⟩, rfl⟩

/-- The program `dm` leaves its decomposition (if any), the permuted matrix and the arrays that are lost by
`spasm_dulmage_mendelsohn`. -/
theorem C63_dm_tool {s : St} (hg : s.Good) : Leaves main_dm s fun B =>
    ∃ k D A B₁ B₂ B₃, 2 ≤ k ∧ k ≤ 4 ∧ (D = none ∧ B₁ = 0 ∨ DmCells D B₁) ∧ CsrCells A B₂ ∧ ArrayCells k B₃ ∧
      B = B₁ + (B₂ + B₃) :=
  main_dm_tr.ends (R := 0) hg (zero_add _).symm rfl
    fun _ _ ⟨v, R₁, _, he, h1, R₂, R₃, he2, h2, ⟨k, hk⟩, h3⟩ => by
    refine ⟨_, ⟨k, v.1, v.2, R₁, R₂, R₃, hk.1, hk.2, ?_, CsrS.cells h2, h3, by rw [he, he2]⟩, rfl⟩
    unfold DmQ at h1
    split at h1
    · exact .inr (DmS.cells h1)
    · rename_i hn
      exact .inl ⟨by simpa using hn, SL.one_iff.mp h1⟩

example : isOk (main_dm ⟨[], 0, again 100 [2, 1, 1]⟩) = true := by decide +kernel
example : isOk (main_rank true false ⟨[], 0, again 100 [2, 1, 1]⟩) = true := by decide +kernel
example : isOk (main_rank false false ⟨[], 0, again 100 [2, 1, 1]⟩) = true := by decide +kernel
example : isOk (main_echelonize false true ⟨[], 0, again 100 [2, 1, 1]⟩) = true := by decide +kernel
example : isOk (main_transpose ⟨[], 0, again 100 [2, 1, 1]⟩) = true := by decide +kernel
example : isOk (main_bitmap ⟨[], 0, again 100 [2, 1, 1]⟩) = true := by decide +kernel
example : isOk (main_stack ⟨[], 0, again 100 [2, 1, 1]⟩) = true := by decide +kernel
example : isOk (main_kernel false ⟨[], 0, again 100 [2, 1, 1]⟩) = true := by decide +kernel
example : isOk (main_solve ⟨[], 0, again 100 [2, 1, 1]⟩) = true := by decide +kernel
example : isOk (main_vertical_swap ⟨[], 0, again 100 [2, 1, 1]⟩) = true := by decide +kernel

end Heap
end Spasm
