import Verif.Proofs.Bytes
import Verif.Props.IoAny

/-
C75: the sizes given to the allocator, in bytes.

The full claim: whatever the file announces, the blocks obtained have room for all the cells that are written; a file is
either read as in C41 or refused.  It is false (`C75_load_overflow`, `C75_rows_limit`, `C75_rows_negative`); it holds if the
number of entries announced is between `-2^61` and `2^62` and there are less than `2^31 - 1` rows, and not `-1`.
-/

namespace Spasm

open Sha

/-- C75 (entries).  Whatever memory is available (blocks of `2^63` bytes never are), a file that announces less than `2^62` entries
(and no less than `-2^61`) is loaded as in the model where arrays have as many cells as asked for, or the program ends with an
error message. -/
theorem C75_load_partial (grant : Nat → Bool) (hg : ∀ b, 2 ^ 63 ≤ b → grant b = false) (jk : Junk) (jw : Nat → W)
    {vals : Bool} {q : ℕ} {prime : Int} (hp : LoadField vals q prime) (f : List Char) (hf : f.length < 2 ^ 58)
    (hash : Option (Array B))
    (hh : ∀ h f' ctx', load_header jw f prime (hash.map fun _ => SHA256_init) = .ok (h, f', ctx') →
      -2 ^ 61 ≤ h.nnz ∧ h.nnz < 2 ^ 62 ∧ 0 ≤ h.n ∧ 0 ≤ h.m) :
    triplet_load_b grant jk jw f prime hash = .error .exitErr ∨
    (triplet_load_b grant jk jw f prime hash >>= fun r => .ok (r.1.toT, r.2)) = triplet_load jk jw f prime hash := by
  by_cases hneg : ∃ h f' ctx', load_header jw f prime (hash.map fun _ => SHA256_init) = .ok (h, f', ctx') ∧ h.nnz < 0
  · obtain ⟨h, f', ctx', hl, h0⟩ := hneg
    obtain ⟨F, hF⟩ : ∃ F, field_init prime = .ok F := by
      rcases hp with ⟨-, rfl, h1, h2⟩ | ⟨-, rfl⟩
      · unfold field_init cassert
        rw [if_neg (by omega), if_pos (by simpa using h1), if_pos (by simpa using (show (q : Int) ≤ 0xfffffffb by exact_mod_cast h2))]
        exact ⟨_, rfl⟩
      · exact ⟨_, rfl⟩
    exact .inl (load_negative hg jk jw f prime hash hl h0 (hh h f' ctx' hl).1 F hF)
  · have hpos : ∀ h f' ctx', load_header jw f prime (hash.map fun _ => SHA256_init) = .ok (h, f', ctx') → 0 ≤ h.nnz := by
      intro h f' ctx' hl
      by_contra hc
      exact hneg ⟨h, f', ctx', hl, by omega⟩
    have h1 := load_clamped_ref (ex := True) (grant := grant) (.inl trivial) jk jw f prime hash hf
      (fun h f' ctx' hl => ⟨hpos h f' ctx' hl, (hh h f' ctx' hl).2.1, .inl trivial⟩)
    rw [load_clamped_eq jk jw f prime hash fun h f' ctx' hl => ⟨hpos h f' ctx' hl, (hh h f' ctx' hl).2.2⟩] at h1
    rcases h1.eq_map with h | h
    · exact .inl h.2
    · exact .inr h

/-- C75 (entries, enough memory).  If all blocks of less than `2^63` bytes are granted, a file that announces a number of entries
between 0 and `2^61` is loaded exactly as in that model. -/
theorem C75_load_memory_partial (grant : Nat → Bool) (hg : ∀ b, b < 2 ^ 63 → grant b = true) (jk : Junk) (jw : Nat → W)
    (prime : Int) (f : List Char) (hf : f.length < 2 ^ 58) (hash : Option (Array B))
    (hh : ∀ h f' ctx', load_header jw f prime (hash.map fun _ => SHA256_init) = .ok (h, f', ctx') →
      0 ≤ h.nnz ∧ h.nnz < 2 ^ 61 ∧ 0 ≤ h.n ∧ 0 ≤ h.m) :
    (triplet_load_b grant jk jw f prime hash >>= fun r => .ok (r.1.toT, r.2)) = triplet_load jk jw f prime hash := by
  have h1 := load_clamped_ref (ex := False) (grant := grant) (.inr hg) jk jw f prime hash hf
    (fun h f' ctx' hl => ⟨(hh h f' ctx' hl).1, by have := (hh h f' ctx' hl).2.1; omega, .inr (hh h f' ctx' hl).2.1⟩)
  rw [load_clamped_eq jk jw f prime hash fun h f' ctx' hl => ⟨(hh h f' ctx' hl).1, (hh h f' ctx' hl).2.2⟩] at h1
  rcases h1.eq_map with h | h
  · exact h.1.elim
  · exact h

/-- C75 (entries, violated).  The arrays of a matrix for `2^62 k + c` entries only have `c` cells, although `nzmax` is what was
asked for. -/
theorem C75_alloc_wrap (grant : Nat → Bool) (jk : Junk) (n m prime k : Int) (c : Nat) (vals : Bool) (F : Field)
    (hF : field_init prime = .ok F) (hc : c < 2 ^ 62) (hg : grant (c * 4) = true) :
    ∃ T, triplet_alloc_b grant jk n m (2 ^ 62 * k + c) prime vals = .ok T ∧ T.nzmax = 2 ^ 62 * k + c ∧ T.nz = 0 ∧
      T.i.size = c ∧ T.j.size = c ∧ (T.x = none ∨ ∃ a, T.x = some a ∧ a.size = c) := by
  have ha : alloc_cells grant (2 ^ 62 * k + c) 4 = .ok c := by
    have hb : bytes (2 ^ 62 * k + c) 4 = c * 4 := by
      unfold bytes
      rw [show (2 ^ 62 * k + (c : Int)) * ((4 : ℕ) : Int) = c * 4 + 2 ^ 64 * k by push_cast; ring,
        Int.add_mul_emod_self_left, Int.emod_eq_of_lt (by omega) (by omega)]
      omega
    unfold alloc_cells
    rw [hb, hg]
    simp
  unfold triplet_alloc_b
  rw [hF, bok_eq, ha, bok_eq, bok_eq]
  cases vals
  · exact ⟨_, rfl, rfl, rfl, by simp, by simp, .inl rfl⟩
  · exact ⟨_, rfl, rfl, rfl, by simp, by simp, .inr ⟨_, rfl, by simp⟩⟩

/-- C75 (entries, violated).  When the cells are used up but `nzmax` is not reached, the next nonzero entry is written outside. -/
theorem C75_add_overflow (grant : Nat → Bool) (jk : Junk) (T : TripletB) (i j x : Int) (hi : 0 ≤ i) (hj : 0 ≤ j)
    (hs : T.i.size ≤ T.nz) (hn : (T.nz : Int) ≠ T.nzmax)
    (hx : T.x = none ∨ ∃ a xp, T.x = some a ∧ a.size ≤ T.nz ∧ ZZp_init T.F x = .ok xp ∧ xp ≠ 0) :
    add_entry_b grant jk T i j x = .error .ub := by
  unfold add_entry_b add_entry_room cassert
  rw [if_pos (by simp [hi, hj]), if_neg hn, bok_eq, bok_eq]
  rcases hx with hx | ⟨a, xp, hx, ha, hxp, h0⟩
  · simp only [hx]
    unfold add_entry_end wr
    rw [if_neg (by omega)]
    rfl
  · simp only [hx]
    rw [hxp, bok_eq, if_neg h0]
    unfold wr
    rw [if_neg (by omega)]
    rfl

/-- C75 (rows).  A matrix with less than `2^31 - 1` rows is compressed as in that model, or the program ends with an error
message. -/
theorem C75_compress_partial (grant : Nat → Bool) (jk : Junk) (T : TripletB) (hn : 0 ≤ T.n ∧ T.n < 2 ^ 31 - 1)
    (hm : 0 ≤ T.m ∧ T.m < 2 ^ 31) (hz : T.nz < 2 ^ 61) :
    (compress_b grant jk T = .error .exitErr ∨ compress_b grant jk T = compress jk T.toT) ∧
    ((∀ b, b < 2 ^ 63 → grant b = true) → compress_b grant jk T = compress jk T.toT) := by
  have h (ex : Prop) (hm' : Mem ex grant) :
      (ex ∧ compress_b grant jk T = .error .exitErr) ∨ compress_b grant jk T = compress jk T.toT := by
    have := (compress_b_ref hm' jk hn hm hz).eq_map (f := id)
    rcases this with h | h
    · exact .inl h
    · right
      rw [← h]
      cases compress_b grant jk T <;> rfl
  refine ⟨?_, fun hg => ?_⟩
  · rcases h True (.inl trivial) with h | h
    · exact .inl h.2
    · exact .inr h
  · rcases h False (.inr hg) with h | h
    · exact h.1.elim
    · exact h

/-- The hypotheses of `C75_compress_partial` are met by a matrix with `2^31 - 2` rows. -/
example (jk : Junk) : (⟨1, 1, 2147483646, 5, #[2147483645], #[4], some #[3], ⟨7, 3, -3, 0⟩⟩ : TripletB).toT.n = 2147483646 ∧
    compress_b (fun _ => true) jk ⟨1, 1, 2147483646, 5, #[2147483645], #[4], some #[3], ⟨7, 3, -3, 0⟩⟩ =
      compress jk (⟨1, 1, 2147483646, 5, #[2147483645], #[4], some #[3], ⟨7, 3, -3, 0⟩⟩ : TripletB).toT :=
  ⟨rfl, (C75_compress_partial (fun _ => true) jk _ (by constructor <;> simp) (by constructor <;> simp) (by simp)).2
    fun _ _ => rfl⟩

/-- C75 (rows, violated).  With `2^31 - 1` rows, which a file may announce, the number of cells of the row pointers
overflows. -/
theorem C75_rows_limit (grant : Nat → Bool) (jk : Junk) (T : TripletB) (F : Field) (hF : field_init T.F.p = .ok F)
    (hn : T.n = 2 ^ 31 - 1) : compress_b grant jk T = .error .ub := by
  unfold compress_b csr_alloc_b
  rw [hF, hn]
  rfl

/-- C75 (rows, violated).  With `-1` row, which a file may announce, the first row pointer is written in an empty block. -/
theorem C75_rows_negative (grant : Nat → Bool) (jk : Junk) (T : TripletB) (F : Field) (hF : field_init T.F.p = .ok F)
    (hn : T.n = -1) (h0 : grant 0 = true) (hz : T.nz < 2 ^ 61) (h1 : grant (T.nz * 4) = true) :
    compress_b grant jk T = .error .ub := by
  have ha : alloc_cells grant T.nz 4 = .ok T.nz := by
    unfold alloc_cells
    rw [bytes_exact (by omega) (by push_cast; omega), Int.toNat_natCast, h1]
    simp
  have hb : alloc_cells grant 0 8 = .ok 0 := by
    unfold alloc_cells bytes
    simp [h0]
  unfold compress_b csr_alloc_b
  rw [hF, hn, bok_eq, show i32 (-1 + 1) = .ok 0 from rfl, bok_eq, hb, bok_eq, ha, bok_eq]
  cases T.x.isSome <;> simp [wr] <;> rfl

/-! ### Dense blocks -/

/-- C75 (dense blocks).  With at most `715827882` columns (with more, C73_limit), whatever the size of the block given on the command
line: the block of the dense methods has as many cells as asked for (or the program ends with an error message), and all its rows are inside. -/
theorem C75_dense (grant : Nat → Bool) (rows cols : Int) (dt : Datatype) (hr : 0 ≤ rows ∧ rows < 2 ^ 31)
    (hc : 0 ≤ cols ∧ cols ≤ 715827882) :
    (dense_cells grant rows cols dt = .error .exitErr ∨ dense_cells grant rows cols dt = .ok (rows * cols).toNat) ∧
    ∀ i, 0 ≤ i → i < rows → ∃ o, row_pointer cols i = .ok o ∧ o = i * cols ∧ 0 ≤ o ∧ o + cols ≤ rows * cols := by
  have h1 : 0 ≤ rows * cols := Int.mul_nonneg hr.1 hc.1
  have h2 : rows * cols ≤ (2 ^ 31 - 1) * 715827882 :=
    Int.mul_le_mul (by omega) hc.2 hc.1 (by omega)
  refine ⟨?_, fun i hi hir => ?_⟩
  · unfold dense_cells
    rw [show i64 (rows * cols) = .ok (rows * cols) from if_pos (by omega), bok_eq]
    have hs : 0 < datatype_size dt ∧ datatype_size dt ≤ 8 := by cases dt <;> decide
    have hle : rows * cols * (datatype_size dt : Int) ≤ (2 ^ 31 - 1) * 715827882 * 8 :=
      Int.mul_le_mul h2 (by omega) (by omega) (by omega)
    rcases alloc_cells_exact (ex := True) (grant := grant) (.inl trivial) hs.1 h1 (by omega) (.inl trivial) with h | ⟨a, h, rfl⟩
    · exact .inl h.2
    · exact .inr h
  · have h3 : 0 ≤ i * cols := Int.mul_nonneg hi hc.1
    have h4 : (i + 1) * cols ≤ rows * cols := Int.mul_le_mul_of_nonneg_right (by omega) hc.1
    rw [Int.add_mul, Int.one_mul] at h4
    exact ⟨i * cols, if_pos (by omega), rfl, h3, h4⟩

/-- C75 (dense blocks, coefficients of L).  The room made for the coefficients of L by the dense method. -/
theorem C75_dense_L (grant : Nat → Bool) (n un lnz : Int) (hn : 0 ≤ n ∧ n < 2 ^ 31) (hu : 0 ≤ un ∧ un ≤ 715827882)
    (hl : 0 ≤ lnz ∧ lnz < 2 ^ 61) :
    dense_L_cells grant n un lnz = .error .exitErr ∨ dense_L_cells grant n un lnz = .ok (lnz + (1 + n * un)).toNat := by
  have h1 : 0 ≤ n * un := Int.mul_nonneg hn.1 hu.1
  have h2 : n * un ≤ (2 ^ 31 - 1) * 715827882 := Int.mul_le_mul (by omega) hu.2 hu.1 (by omega)
  unfold dense_L_cells
  rw [show i64 (n * un) = .ok (n * un) from if_pos (by omega), bok_eq,
    show i64 (1 + n * un) = .ok (1 + n * un) from if_pos (by omega), bok_eq,
    show i64 (lnz + (1 + n * un)) = .ok (lnz + (1 + n * un)) from if_pos (by omega), bok_eq]
  rcases alloc_cells_exact (ex := True) (grant := grant) (.inl trivial) (k := lnz + (1 + n * un)) (s := 4) (by omega) (by omega)
    (by push_cast; omega) (.inl trivial) with h | ⟨a, h, rfl⟩
  · exact .inl h.2
  · exact .inr h

/-- C75 (dense blocks, limit).  With `2^30 + 1` columns and the largest block, the size wraps around: the block obtained is smaller
than one of its rows. -/
theorem C75_dense_limit (grant : Nat → Bool) (h : grant ((2 ^ 30 - 1) * 8) = true) :
    dense_cells grant (2 ^ 31 - 1) (2 ^ 30 + 1) .i64 = .ok (2 ^ 30 - 1) := by
  unfold dense_cells
  rw [show i64 ((2 ^ 31 - 1) * (2 ^ 30 + 1)) = .ok ((2 ^ 31 - 1) * (2 ^ 30 + 1)) from rfl, bok_eq]
  unfold alloc_cells
  have : bytes ((2 ^ 31 - 1) * (2 ^ 30 + 1)) (datatype_size .i64) = (2 ^ 30 - 1) * 8 := by decide +kernel
  rw [this, h]
  rfl

/-- The hypotheses of `C75_dense` are met by the largest block. -/
example : (0 : Int) ≤ 2 ^ 31 - 1 ∧ (2 ^ 31 - 1 : Int) < 2 ^ 31 ∧ (0 : Int) ≤ 715827882 := by decide

/-! ### Files -/

/-- An allocator for the examples: it grants less than 128 TB. -/
def grant47 (b : Nat) : Bool := decide (b < 2 ^ 47)

/-- How a load ends. -/
def loadEndsB (x : C (TripletB × Option (Array B))) : Option Err :=
  match x with
  | .ok _ => none
  | .error e => some e

/-- How the input of a matrix ends. -/
def inputEndsB (x : C (Csr × Option (Array B))) : Option Err :=
  match x with
  | .ok _ => none
  | .error e => some e

def mmFile (nnz body : String) : List Char :=
  ("%%MatrixMarket matrix coordinate integer general\n2 2 " ++ nnz ++ "\n" ++ body).toList

/-- The header of a file is within the limits of `C75_load_partial` and `C75_load_memory_partial`. -/
def headerFits (x : C (Header × List Char × Option Ctx)) : Bool :=
  match x with
  | .ok (h, _, _) => decide (0 ≤ h.nnz ∧ h.nnz < 2 ^ 61 ∧ 0 ≤ h.n ∧ 0 ≤ h.m)
  | .error _ => true

/-- The hypotheses of `C75_load_partial` and `C75_load_memory_partial` are met by this file. -/
example (jk : Junk) : triplet_load_b grant47 jk exJw (mmFile "2" "1 1 1\n2 2 1\n") 7 none = .error .exitErr ∨
    (triplet_load_b grant47 jk exJw (mmFile "2" "1 1 1\n2 2 1\n") 7 none >>= fun r => .ok (r.1.toT, r.2)) =
      triplet_load jk exJw (mmFile "2" "1 1 1\n2 2 1\n") 7 none := by
  have hc : headerFits (load_header exJw (mmFile "2" "1 1 1\n2 2 1\n") 7 none) = true := by decide +kernel
  refine C75_load_partial grant47 (fun b hb => by simp [grant47]; omega) jk exJw (vals := true) (q := 7) (prime := 7)
    (.inl ⟨rfl, rfl, by decide, by decide⟩) _ (by decide +kernel) none fun h f' ctx' hl => ?_
  rw [show (Option.map (fun _ => SHA256_init) (none : Option (Array B))) = none from rfl] at hl
  rw [hl] at hc
  have := of_decide_eq_true hc
  omega

/-- C75 (entries, violated).  A MatrixMarket file that announces `2^62 + 1` entries gets arrays of one cell; the second entry is
written outside.  The same with `-2^62 + 1`. -/
theorem C75_load_overflow :
    loadEndsB (triplet_load_b grant47 default exJw (mmFile "4611686018427387905" "1 1 1\n2 2 1\n") 7 none) = some .ub ∧
    loadEndsB (triplet_load_b grant47 default exJw (mmFile "-4611686018427387903" "1 1 1\n2 2 1\n") 7 none) = some .ub := by
  decide +kernel

/-- Files within the limits: the announced number of entries is right, too large for the memory, or negative. -/
example : loadEndsB (triplet_load_b grant47 default exJw (mmFile "2" "1 1 1\n2 2 1\n") 7 none) = none ∧
    loadEndsB (triplet_load_b grant47 default exJw (mmFile "4611686018427387903" "1 1 1\n2 2 1\n") 7 none) = some .exitErr ∧
    loadEndsB (triplet_load_b grant47 default exJw (mmFile "-1" "1 1 1\n2 2 1\n") 7 none) = some .exitErr := by
  decide +kernel

/-- Files with `-1` row, `2^31 - 1` rows, or negative dimensions that do not matter. -/
example : inputEndsB (input_b grant47 default exJw "-1 3 M\n0 0 0\n".toList 7 none) = some .ub ∧
    inputEndsB (input_b grant47 default exJw "2147483647 3 M\n0 0 0\n".toList 7 none) = some .ub ∧
    inputEndsB (input_b grant47 default exJw "-9 -9 M\n0 0 0\n".toList 7 none) = some .exitErr ∧
    inputEndsB (input_b grant47 default exJw "-9 -9 M\n1 2 3\n0 0 0\n".toList 7 none) = none := by
  decide +kernel

end Spasm
