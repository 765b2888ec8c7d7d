import Verif.Proofs.FfpackGlue
import Verif.Props.Echelonize

/-
C65. The calls to the dense linear algebra library: with the type selected for the modulus, memory for the permutations
and the conversion of permutations out of the format of LAPACK, what the rest of the code receives is a reduced echelon
form or a factorization of the dense matrix.  The only assumption is the documentation of the library
(`Spec/FfpackLib.lean`).
-/

namespace Spasm

open Finset

/-- C65. The selected type can be used, for every modulus that the library accepts. -/
theorem C65_type (q : ℕ) (hq : q ≤ 0xfffffffb) : (datatype_choose q).Holds q := by
  unfold datatype_choose Datatype.Holds
  have h2 : ∀ k, (q - 1) / 2 ≤ k → ((q - 1) / 2) ^ 2 ≤ k ^ 2 := fun k h => Nat.pow_le_pow_left h 2
  split_ifs with h h'
  · exact (h2 4095 (by omega)).trans (by norm_num)
  · exact (h2 94906265 (by omega)).trans (by norm_num)
  · exact (h2 2147483645 (by omega)).trans (by norm_num)

/-- C65. It is the narrowest one: for an odd modulus beyond the thresholds (and 8193, which is not prime), a narrower type
cannot be used. -/
theorem C65_type_max (q : ℕ) (ho : q % 2 = 1) : (8193 < q → ¬ Datatype.float.Holds q) ∧
    (189812531 < q → ¬ Datatype.double.Holds q) := by
  unfold Datatype.Holds
  have h2 : ∀ k, k ≤ (q - 1) / 2 → k ^ 2 ≤ ((q - 1) / 2) ^ 2 := fun k h => Nat.pow_le_pow_left h 2
  refine ⟨fun h => ?_, fun h => ?_⟩
  · have := h2 4097 (by omega)
    norm_num at this ⊢
    omega
  · have := h2 94906266 (by omega)
    norm_num at this ⊢
    omega

example : datatype_choose 8191 = .float ∧ datatype_choose 42013 = .double ∧ datatype_choose 0xfffffffb = .i64 := by
  decide +kernel

/-- C65. The conversion of permutations: item `i` of the result is the item that the successive exchanges bring to
position `i`; nothing is written beyond the first `N` cells. -/
theorem C65_permutation {α : Type} (M P : Array Nat) (N : Nat) (hM : N ≤ M.size) (hP : IsLapack P N) :
    Ok (lapack_to_math M P N) fun M' => M'.size = M.size ∧ IsPerm M'.g N ∧
      (∀ (f : Nat → α) i, i < N → exchanged P.g N f i = f (M'.g i)) ∧ ∀ i, N ≤ i → M'.g i = M.g i := by
  refine (lapack_to_math_ok hM hP).mono fun M' ⟨h1, h2, h3⟩ => ⟨h1, ?_, fun f i hi => ?_, h3⟩
  · have hp0 := exchanged_perm (fun i hi => (hP.2 i hi).2)
    exact ⟨fun i hi => by rw [h2 i hi]; exact hp0.1 i hi, fun i k hi hk e => by
      rw [h2 i hi, h2 k hk] at e
      exact hp0.2 i k hi hk e⟩
  · rw [exchanged_comp, h2 i hi]

example : lapack_to_math #[9, 9, 9, 9] #[2, 2, 2] 3 = .ok #[2, 0, 1, 9] ∧ IsLapack #[2, 2, 2] 3 ∧
    (List.range 3).map (exchanged #[2, 2, 2].g 3 fun i => #['a', 'b', 'c'].g i) = ['c', 'a', 'b'] := by
  refine ⟨by decide +kernel, ⟨rfl, ?_⟩, by decide +kernel⟩
  decide +kernel

section

variable (jk : Junk) (lib : FfLib) {q : ℕ} (hq : q ≤ 0xfffffffb) (h : lib.Documented q)
include hq h

/-- C65. The reduced row echelon form. -/
theorem C65_rref (n m : Nat) (S : Array ℚ) (ld : Nat) (hld : m ≤ ld) (w : Nat → Nat → Int) (hS : CellsLd n m ld S w)
    (hw : ∀ i j, i < n → j < m → Bal q (w i j)) (qinv : Array Nat) (hv : qinv.size = m) :
    Ok (ffpack_rref jk lib (datatype_choose q) q n m S ld qinv) fun r =>
      ∃ w', CellsLd n m ld r.2.1 w' ∧ DenseRref q n m w r.1 w' r.2.2 ∧ r.2.1.size = S.size := by
  unfold ffpack_rref
  rw [Ok_bind]
  refine (ff_zeros_ok jk n).mono fun P hP => ?_
  rw [Ok_bind]
  refine (ff_zeros_ok jk m).mono fun Q hQ => ?_
  obtain ⟨w', h1, h2, h3⟩ := h.rref _ n m S ld w P Q (C65_type q hq) hld hP hQ hS hw
  simp only [Ok_bind, Ok_ok]
  refine (lapack_to_math_ok (by omega) h2.lapack).mono fun M ⟨g1, g2, _⟩ => ⟨w', h1, h2.math (by omega) g2, h3⟩

/-- C65. The factorization. -/
theorem C65_LU (n m : Nat) (S : Array ℚ) (ld : Nat) (hld : m ≤ ld) (w : Nat → Nat → Int) (hS : CellsLd n m ld S w)
    (hw : ∀ i j, i < n → j < m → Bal q (w i j)) (p qinv : Array Nat) (hp : p.size = n) (hv : qinv.size = m) :
    Ok (ffpack_LU jk lib (datatype_choose q) q n m S ld p qinv) fun r =>
      ∃ w', CellsLd n m ld r.2.1 w' ∧ IsPluq q n m w r.1 w' r.2.2.1 r.2.2.2 ∧ r.2.1.size = S.size := by
  unfold ffpack_LU
  rw [Ok_bind]
  refine (ff_zeros_ok jk n).mono fun P hP => ?_
  rw [Ok_bind]
  refine (ff_zeros_ok jk m).mono fun Q hQ => ?_
  obtain ⟨w', h1, h2, h3⟩ := h.pluq _ n m S ld w P Q (C65_type q hq) hld hP hQ hS hw
  simp only [Ok_bind, Ok_ok]
  refine (lapack_to_math_ok (by omega) h2.p_lapack).mono fun M ⟨g1, g2, _⟩ =>
    (lapack_to_math_ok (by omega) h2.q_lapack).mono fun M' ⟨f1, f2, _⟩ =>
      ⟨w', h1, h2.math (by omega) (by omega) g2 f2, h3⟩

/-- C65. What the echelonization assumes of the dense library is a consequence of its documentation. -/
theorem C65_library : (lib.glue jk).Correct q := by
  have hc : ∀ {n m S w}, Cells n m S w → CellsLd n m m S w := fun {n m S w} hC i j hi hj =>
    ⟨lt_of_lt_of_le (cell_lt hi hj) hC.1, hC.2 i j hi hj⟩
  have hc' : ∀ {n m : Nat} {S S' : Array ℚ} {w w'}, Cells n m S w → S'.size = S.size → CellsLd n m m S' w' →
      Cells n m S' w' := fun hC hs h => ⟨hs ▸ hC.1, fun i j hi hj => (h i j hi hj).2⟩
  constructor
  · intro n m S w hC hw
    obtain ⟨r, e, w', h1, h2, h3⟩ := Ok_iff.mp
      (C65_rref jk lib hq h n m S m le_rfl w (hc hC) hw (mkArr m jk.nat) (size_mkArr ..))
    have : (lib.glue jk).rref q n m S = r := by simp only [FfLib.glue, e]
    rw [this]
    exact ⟨w', hc' hC h3 h1, h2, h3⟩
  · intro n m S w hC hw
    obtain ⟨r, e, w', h1, h2, h3⟩ := Ok_iff.mp (C65_LU jk lib hq h n m S m le_rfl w (hc hC) hw (mkArr n jk.nat)
      (mkArr m jk.nat) (size_mkArr ..) (size_mkArr ..))
    have : (lib.glue jk).lu q n m S = r := by simp only [FfLib.glue, e]
    rw [this]
    exact ⟨w', hc' hC h3 h1, h2, h3⟩

/-- C65. So are the assumptions of the theorems about the echelonization (C27, C28, C58, C60) on its environment, besides
those on the schedules and the random numbers. -/
theorem C65_env (e : Env) (hd : ∀ k i, Small q (e.draw k i)) : (e.pick jk (lib.glue jk)).Possible q :=
  C27_env jk q e hd _ (C65_library jk lib hq h)

end

/-- The library can do what is documented, on all matrices, for each prime. -/
theorem C65_documented (q : ℕ) (hq : q.Prime) : ∃ lib : FfLib, lib.Documented q :=
  have : Fact q.Prime := ⟨hq⟩
  FfLib.exists_documented q

/-- The matrix `[0 1; 1 2]` modulo 7 is `P L U Q` with an exchange of rows. -/
example : LibPluq 7 2 2 (fun i j => #[#[0, 1], #[1, 2]].g i |>.g j) 2 (fun i j => #[#[1, 2], #[0, 1]].g i |>.g j)
    #[1, 1] #[0, 1] := by
  refine ⟨le_rfl, le_rfl, ⟨rfl, by decide +kernel⟩, ⟨rfl, by decide +kernel⟩, ?_, by decide +kernel, ?_⟩
  · unfold Bal
    intro i j hi
    revert j
    revert i
    decide +kernel
  · intro i j hi
    revert j
    revert i
    decide +kernel

example (jk : Junk) : ∃ ff : Ffpack, ff.Correct 42013 ∧ ∃ lib : FfLib, ff = lib.glue jk := by
  obtain ⟨lib, h⟩ := C65_documented 42013 (by norm_num)
  exact ⟨_, C65_library jk lib (by norm_num) h, lib, rfl⟩

end Spasm
