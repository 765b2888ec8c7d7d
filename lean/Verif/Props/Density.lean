import Verif.Proofs.Density
import Verif.Props.Schur
import Mathlib.Algebra.BigOperators.Field

/-
C56: the estimated density of a Schur complement.
-/

namespace Spasm

open Finset

section
variable (jk : Junk) (q : ℕ) (A : Csr) (p : Array Nat) (n : Nat) (U : Csr) (qinv : Array Int) (hA : A.WFV q)
  (hE : Echelon q U qinv) (hm : U.m = A.m) (hps : n ≤ p.size) (hp : ∀ k, k < n → p.g k < A.n)

include hA hE hm hps hp

/-- C56 (no failure). Whatever the random numbers and the distribution of the iterations, the threads compute
their counts without error. -/
theorem C56_safe (hn : 0 < n) (rand : Nat → Nat) (is : List Nat) :
    ∃ k, density_thread jk A U qinv p n rand is = .ok k := by
  choose V hV using fun (k : Nat) (hk : k < n) => exists_reduced hA hE hm (hp k hk)
  have := density_thread_spec hA hE hm jk hn hps hp rand (fun k => if hk : k < n then V k hk else fun _ => 0)
    (fun k hk => by simp only [dif_pos hk]; exact hV k hk) is
  rw [Ok_iff] at this
  obtain ⟨k, h, -⟩ := this
  exact ⟨k, h⟩

/-- C56 (count). Whatever the number of threads and the distribution of the iterations, the total is the number
of nonzero coordinates of the rows that were drawn, after elimination of the pivotal columns; it is at most the
number of samples times the number of non-pivotal columns. -/
theorem C56_count (hn : 0 < n) (R : Nat) (rand : Nat → Nat) (nnz : Nat)
    (hrun : DensityRun jk A p n U qinv R rand nnz) (V : Nat → Nat → ZMod q)
    (hV : ∀ k, k < n → RedRow q A U qinv (p.g k) (V k)) :
    nnz = ∑ i ∈ range R, nnzVec A.m (V (rand i % n)) ∧ nnz ≤ (A.m - U.n) * R := by
  obtain ⟨T, its, counts, h1, h2, rfl⟩ := hrun
  have hc : ∀ t, counts t = ((its t : Multiset Nat).map fun i => nnzVec A.m (V (rand i % n))).sum := by
    intro t
    have := density_thread_spec hA hE hm jk hn hps hp rand V hV (its t)
    rw [h2 t, Ok_ok] at this
    rw [this, Multiset.map_coe, Multiset.sum_coe]
  have he : ∑ t, counts t = ∑ i ∈ range R, nnzVec A.m (V (rand i % n)) := by
    rw [Finset.sum_congr rfl fun t _ => hc t]
    have := congrArg (fun s : Multiset Nat => (s.map fun i => nnzVec A.m (V (rand i % n))).sum) h1
    rw [← Multiset.coe_mapAddMonoidHom, map_sum, Multiset.sum_sum] at this
    exact this
  refine ⟨he, ?_⟩
  rw [he]
  calc ∑ i ∈ range R, nnzVec A.m (V (rand i % n)) ≤ ∑ _i ∈ range R, (A.m - U.n) :=
        Finset.sum_le_sum fun i _ => (hV _ (Nat.mod_lt _ hn)).nnz_le hE hm
    _ = (A.m - U.n) * R := by simp [mul_comm]

/-- C56 (value). If some column is not pivotal, the result is a number between 0 and 1: the average over the
sampled rows of their proportion of nonzero coordinates (up to rounding); it is 0 if and only if all the sampled
rows are zero.

Missing from the full statement: the case when all the columns are pivotal and rows remain, where it is false
(`C56_nan`). -/
theorem C56_estimate_partial (hn : 0 < n) (hu : U.n < A.m) (hm31 : A.m < 2 ^ 31) (R : Nat) (hR : 0 < R) (hR2 : R < 2 ^ 22)
    (rand : Nat → Nat) (V : Nat → Nat → ZMod q) (hV : ∀ k, k < n → RedRow q A U qinv (p.g k) (V k)) :
    ∃ d : ℚ, estimate_density jk A p n U qinv R rand = .ok (.fin d) ∧ 0 ≤ d ∧ d ≤ 1 ∧
      (d = 0 ↔ ∀ i, i < R → ∀ c, c < A.m → V (rand i % n) c = 0) ∧
      |d - (∑ i ∈ range R, (nnzVec A.m (V (rand i % n)) : ℚ) / ((A.m - U.n : Nat) : ℚ)) / R| ≤
        (∑ i ∈ range R, (nnzVec A.m (V (rand i % n)) : ℚ) / ((A.m - U.n : Nat) : ℚ)) / R / 2 ^ 51 := by
  obtain ⟨k, hk⟩ := C56_safe jk q A p n U qinv hA hE hm hps hp hn rand (List.range R)
  obtain ⟨h1, h2⟩ := C56_count jk q A p n U qinv hA hE hm hps hp hn R rand k
    ⟨1, fun _ => List.range R, fun _ => k, by simp; rfl, fun _ => hk, by simp⟩ V hV
  obtain ⟨d, d1, d2, d3, d4, d5⟩ := density_ratio_spec hu hm31 hR hR2 h2
  refine ⟨d, ?_, d2, d3, ?_, ?_⟩
  · unfold estimate_density
    rw [if_neg (by omega), hk]
    simp only [bind, Except.bind, d1]
  · rw [d4, h1, Finset.sum_eq_zero_iff]
    simp only [mem_range]
    refine forall₂_congr fun i hi => ?_
    rw [nnzVec, Finset.card_eq_zero, Finset.filter_eq_empty_iff]
    simp
  · have e : (k : ℚ) / ((A.m - U.n : Nat) : ℚ) =
        ∑ i ∈ range R, (nnzVec A.m (V (rand i % n)) : ℚ) / ((A.m - U.n : Nat) : ℚ) := by
      rw [h1, Nat.cast_sum, Finset.sum_div]
    rw [← e]
    exact d5

/-- C56 (room). `spasm_schur` computes a valid initial size, at most the number of cells of the Schur complement
(up to rounding), from an estimate between 0 and 1 or if it has to make the estimate itself, provided that some
column is not pivotal or that no row remains.  (Otherwise it is false: `C56_nan`.) -/
theorem C56_size_partial (hu : U.n < A.m ∨ n = 0) (hm31 : A.m < 2 ^ 31) (hn31 : n < 2 ^ 31) (rand : Nat → Nat)
    (est : Dbl) (hest : est.lt (.fin 0) = true ∨ ∃ d : ℚ, est = .fin d ∧ 0 ≤ d ∧ d ≤ 1) :
    Ok (schur_size jk A p n U qinv rand est) (fun size => (size : ℚ) ≤ (n * A.m : ℚ) * (1 + 1 / 2 ^ 53)) := by
  have hd : Ok (schur_density jk A p n U qinv rand est)
      (fun d => ∃ x : ℚ, d = .fin x ∧ 0 ≤ x ∧ x ≤ 1) := by
    unfold schur_density
    by_cases hl : est.lt (.fin 0) = true
    · rw [if_pos hl]
      by_cases h0 : n = 0
      · unfold estimate_density
        rw [if_pos h0, Ok_ok]
        exact ⟨0, rfl, le_refl _, by norm_num⟩
      · choose V hV using fun (k : Nat) (hk : k < n) => exists_reduced hA hE hm (hp k hk)
        obtain ⟨d, d1, d2, d3, -⟩ := C56_estimate_partial jk q A p n U qinv hA hE hm hps hp (by omega)
          (hu.resolve_right h0) hm31 100 (by norm_num) (by norm_num) rand
          (fun k => if hk : k < n then V k hk else fun _ => 0)
          (fun k hk => by simp only [dif_pos hk]; exact hV k hk)
        rw [d1, Ok_ok]
        exact ⟨d, rfl, d2, d3⟩
    · rw [if_neg hl, Ok_ok]
      exact hest.resolve_left hl
  unfold schur_size
  rw [Ok_bind]
  refine hd.mono ?_
  rintro _ ⟨x, rfl, x0, x1⟩
  have hnq : (0 : ℚ) ≤ n := by positivity
  have hmq : (0 : ℚ) ≤ A.m := by positivity
  rw [Dbl.ofInt_nat (by omega), Dbl.ofInt_nat (by omega), Dbl.mul_fin, Dbl.mul_fin]
  have y0 : 0 ≤ rnd 53 (x * n) := rnd_nonneg 53 (by positivity)
  have y1 : rnd 53 (x * n) ≤ n := by
    refine rnd_le_int 53 (k := (n : Int)) (by positivity) ?_ (by exact_mod_cast (by omega : n < 2 ^ 53))
    push_cast
    nlinarith
  set y := rnd 53 (x * n) with hy
  have z0 : 0 ≤ rnd 53 (y * A.m) := rnd_nonneg 53 (by positivity)
  have z1 : rnd 53 (y * A.m) ≤ (n * A.m : ℚ) * (1 + 1 / 2 ^ 53) := by
    have e := rnd_err 53 (y * A.m)
    rw [abs_of_nonneg (by positivity : 0 ≤ y * (A.m : ℚ)), abs_le] at e
    have e2 : y * A.m ≤ n * A.m := mul_le_mul_of_nonneg_right y1 hmq
    have := e.2
    have : y * A.m / 2 ^ 53 ≤ n * A.m / 2 ^ 53 := div_le_div_of_nonneg_right e2 (by positivity)
    linarith
  set z := rnd 53 (y * A.m) with hz
  have z2 : z < 2 ^ 63 := by
    have : (n * A.m : ℚ) ≤ 2 ^ 31 * 2 ^ 31 := by
      have a : (n : ℚ) ≤ 2 ^ 31 := by exact_mod_cast hn31.le
      have b : (A.m : ℚ) ≤ 2 ^ 31 := by exact_mod_cast hm31.le
      exact mul_le_mul a b hmq (by positivity)
    calc z ≤ _ := z1
      _ ≤ 2 ^ 31 * 2 ^ 31 * (1 + 1 / 2 ^ 53) := mul_le_mul_of_nonneg_right this (by norm_num)
      _ < 2 ^ 63 := by norm_num
  have f0 : 0 ≤ ⌊z⌋ := Int.floor_nonneg.mpr z0
  have f1 : (⌊z⌋ : ℚ) ≤ z := Int.floor_le z
  have f2 : ⌊z⌋ < 2 ^ 63 := by
    have : (⌊z⌋ : ℚ) < 2 ^ 63 := lt_of_le_of_lt f1 z2
    exact_mod_cast this
  unfold Dbl.toI64 truncQ
  simp only [if_pos z0, Ok_bind, Ok_i64]
  refine ⟨⟨by omega, f2⟩, ?_⟩
  rw [if_neg (by omega), Ok_ok]
  have : ((⌊z⌋.toNat : Nat) : ℚ) = (⌊z⌋ : ℚ) := by
    exact_mod_cast Int.toNat_of_nonneg f0
  rw [this]
  linarith

/-- C56 (negation). When all the columns are pivotal and rows remain, the result is NaN, and `spasm_schur`
converts it to an integer, which is undefined, whether it gets it from its caller or computes it. -/
theorem C56_nan (hn : 0 < n) (hu : U.n = A.m) (R : Nat) (rand : Nat → Nat) :
    estimate_density jk A p n U qinv R rand = .ok .nan ∧
    schur_size jk A p n U qinv rand (.fin (-1)) = .error .ub ∧
    schur_size jk A p n U qinv rand .nan = .error .ub := by
  have key : ∀ R, estimate_density jk A p n U qinv R rand = .ok .nan := by
    intro R
    choose V hV using fun (k : Nat) (hk : k < n) => exists_reduced hA hE hm (hp k hk)
    obtain ⟨k, hk⟩ := C56_safe jk q A p n U qinv hA hE hm hps hp hn rand (List.range R)
    obtain ⟨-, h2⟩ := C56_count jk q A p n U qinv hA hE hm hps hp hn R rand k
      ⟨1, fun _ => List.range R, fun _ => k, by simp; rfl, fun _ => hk, by simp⟩
      (fun k => if hk : k < n then V k hk else fun _ => 0)
      (fun k hk => by simp only [dif_pos hk]; exact hV k hk)
    rw [hu, Nat.sub_self, Nat.zero_mul] at h2
    obtain rfl : k = 0 := by omega
    unfold estimate_density
    rw [if_neg (by omega), hk]
    simp only [bind, Except.bind, hu, density_ratio_nan]
  refine ⟨key R, ?_, ?_⟩
  · unfold schur_size schur_density
    rw [if_pos (by simp [Dbl.lt]), key]
    rfl
  · rfl

omit hA hps hp in
/-- C56 (link with the Schur complement). The number of coordinates counted for a row is the length of the
corresponding row of what `spasm_schur` computes. -/
theorem C56_row (r : Nat → Nat) (S : Csr) (ℓ : Nat → Nat → ZMod q) (hS : IsSchur q A U qinv n r S ℓ)
    (k : Nat) (hk : k < n) (v : Nat → ZMod q) (hv : RedRow q A U qinv (r k) v) :
    nnzVec A.m v = S.p.g (k + 1) - S.p.g k := by
  have hS' : RedRow q A U qinv (r k) (S.entry q k) := by
    refine ⟨fun c hc hq => Csr.entry_eq_zero_of_not_inRow fun hin => ?_, ℓ k, hS.eq k hk⟩
    have := hS.elim k hk c hin
    omega
  rw [nnzVec_congr (hv.unique hE hm hS')]
  have hk' : k < S.n := by rw [hS.n_eq]; exact hk
  rw [← Nat.card_Ico, nnzVec]
  symm
  refine Finset.card_bij (fun t _ => S.j.g t) ?_ ?_ ?_
  · intro t ht
    obtain ⟨t1, t2⟩ := Finset.mem_Ico.mp ht
    have hl := hS.wfv.toWF.row_lt hk' t2
    rw [Finset.mem_filter, mem_range, ← hS.m_eq]
    refine ⟨hS.wfv.toWF.j_lt t hl, ?_⟩
    rw [Csr.entry_of_nodup hS.nodup hk' t1 t2]
    exact (hS.wfv.small t hl).cast_ne_zero (hS.nozero t hl)
  · intro a ha b hb hab
    obtain ⟨a1, a2⟩ := Finset.mem_Ico.mp ha
    obtain ⟨b1, b2⟩ := Finset.mem_Ico.mp hb
    exact hS.nodup k hk' a b a1 a2 b1 b2 hab
  · intro c hc
    obtain ⟨-, hne⟩ := Finset.mem_filter.mp hc
    by_contra hcon
    refine hne (Csr.entry_eq_zero_of_not_inRow ?_)
    rintro ⟨t, t1, t2, rfl⟩
    exact hcon ⟨t, Finset.mem_Ico.mpr ⟨t1, t2⟩, rfl⟩

end

/-- A concrete case: three rows, two pivots, two other columns. -/
example : exFA.WFV 7 ∧ Echelon 7 exU exUqinv ∧ exU.m = exFA.m ∧ (∀ k, k < 2 → (#[2, 0] : Array Nat).g k < exFA.n) ∧
    exU.n < exFA.m ∧ exFA.m < 2 ^ 31 :=
  ⟨exFA_wfv, exU_echelon, rfl, by decide, by decide, by decide⟩

end Spasm
