import Verif.Spec.Density
import Verif.Proofs.Schur
import Verif.Proofs.Kernel
import Verif.Proofs.ZZp
import Verif.Proofs.Entry

namespace Spasm

open Finset

theorem Bal.cast_ne_zero {q : ℕ} {r : Int} (h : Bal q r) (hr : r ≠ 0) (h2 : 2 ≤ q) : (r : ZMod q) ≠ 0 := by
  intro e
  refine hr (bal_unique (q := q) h (b := 0) ?_ (by rw [e]; simp))
  unfold Bal
  constructor <;> omega

/-- The part of a row on the non-pivotal columns is the reduced row. -/
theorem SchurParts.reduced {q : ℕ} {A U : Csr} {qinv : Array Int} {r : Nat} {es ts : List (Nat × Int)}
    (h : SchurParts q A U qinv r es ts) : RedRow q A U qinv r (lsum q es) := by
  refine ⟨fun c hc hq => ?_, lsum q ts, h.eq⟩
  refine lsum_map_fst_not_mem fun hm => ?_
  obtain ⟨e, he, rfl⟩ := List.mem_map.mp hm
  have := (h.es_ok e he).2.1
  omega

theorem SchurParts.nnz {q : ℕ} (h2 : 2 ≤ q) {A U : Csr} {qinv : Array Int} {r : Nat} {es ts : List (Nat × Int)}
    (h : SchurParts q A U qinv r es ts) : nnzVec A.m (lsum q es) = es.length := by
  rw [← List.length_map (f := Prod.fst) (as := es), ← List.toFinset_card_of_nodup h.es_nodup, nnzVec]
  congr 1
  ext c
  rw [Finset.mem_filter, List.mem_toFinset, mem_range]
  constructor
  · rintro ⟨-, hne⟩
    by_contra hm
    exact hne (lsum_map_fst_not_mem hm)
  · intro hm
    obtain ⟨e, he, rfl⟩ := List.mem_map.mp hm
    obtain ⟨h3, -, h4, h5⟩ := h.es_ok e he
    exact ⟨h3, by rw [lsum_of_mem_nodup h.es_nodup he]; exact h4.cast_ne_zero h5 h2⟩

/-- The reduced row is unique. -/
theorem RedRow.unique {q : ℕ} {A U : Csr} {qinv : Array Int} (hE : Echelon q U qinv) (hm : U.m = A.m) {r : Nat}
    {v w : Nat → ZMod q} (hv : RedRow q A U qinv r v) (hw : RedRow q A U qinv r w) :
    ∀ c, c < A.m → v c = w c := by
  obtain ⟨v1, ℓ, v2⟩ := hv
  obtain ⟨w1, ℓ', w2⟩ := hw
  have hy : ∀ i, i < U.n → ℓ i - ℓ' i = 0 := by
    refine hE.coeff_zero (fun i => ℓ i - ℓ' i) ?_
    intro i hi
    have hp : U.pivot i < A.m := by rw [← hm]; exact hE.pivot_lt hi
    have hq : 0 ≤ qinv.g (U.pivot i) := by rw [hE.piv i hi]; omega
    have e1 := v2 _ hp
    have e2 := w2 _ hp
    rw [v1 _ hp hq, zero_add] at e1
    rw [w1 _ hp hq, zero_add, e1] at e2
    simp only [sub_mul]
    rw [Finset.sum_sub_distrib, e2, sub_self]
  intro c hc
  have e1 := v2 c hc
  have e2 := w2 c hc
  rw [e1] at e2
  have : ∑ i ∈ range U.n, ℓ i * U.entry q i c = ∑ i ∈ range U.n, ℓ' i * U.entry q i c :=
    Finset.sum_congr rfl fun i hi => by rw [sub_eq_zero.mp (hy i (mem_range.mp hi))]
  rw [this] at e2
  exact add_right_cancel e2

theorem nnzVec_congr {q : ℕ} {m : Nat} {v w : Nat → ZMod q} (h : ∀ c, c < m → v c = w c) :
    nnzVec m v = nnzVec m w := by
  unfold nnzVec
  congr 1
  refine Finset.filter_congr fun c hc => ?_
  rw [h c (mem_range.mp hc)]

/-- At most one coordinate for each non-pivotal column. -/
theorem RedRow.nnz_le {q : ℕ} {A U : Csr} {qinv : Array Int} (hE : Echelon q U qinv) (hm : U.m = A.m) {r : Nat}
    {v : Nat → ZMod q} (hv : RedRow q A U qinv r v) : nnzVec A.m v ≤ A.m - U.n := by
  have h := hE.card_nonpiv
  rw [hm] at h
  have : nnzVec A.m v ≤ ((range A.m).filter fun j => ¬ 0 ≤ qinv.g j).card := by
    unfold nnzVec
    refine Finset.card_le_card fun c hc => ?_
    rw [Finset.mem_filter] at hc ⊢
    exact ⟨hc.1, fun hq => hc.2 (hv.1 c (mem_range.mp hc.1) hq)⟩
  omega

section
variable {q : ℕ} {A U : Csr} {qinv : Array Int} (hA : A.WFV q) (hE : Echelon q U qinv) (hm : U.m = A.m)
include hA hE hm

theorem density_row_spec {r : Nat} (hr : r < A.n) {w : Dfs} (hw : w.Ready A.m)
    {x : Array Int} (hx : A.m ≤ x.size) :
    Ok (density_row A U qinv r w x) (fun o => o.1.Ready A.m ∧ A.m ≤ o.2.1.size ∧
      (∃ v, RedRow q A U qinv r v) ∧ ∀ v, RedRow q A U qinv r v → o.2.2 = nnzVec A.m v) := by
  unfold density_row
  rw [Ok_bind]
  refine (sparse_solve_parts hA hE hm hr hw hx).mono ?_
  rintro ⟨w', x'⟩ ⟨a1, a2, a3, a4, -, a12⟩
  simp only at a1 a2 a3 a4 a12
  have hq := hE.size
  rw [hm] at hq
  have hxs := a1.xs
  simp only [Ok_bind]
  refine Ok_forRange_cols w' a2 (fun l s => s = (solveE qinv x' l).length) rfl ?_ ?_
  · rintro px l s h1 h2 rfl
    have := a4 px h1 h2
    simp only [Ok_bind, Ok_rd]
    refine ⟨by omega, by omega, ?_⟩
    unfold solveE
    rw [List.filter_append, List.map_append, List.length_append]
    by_cases h4 : qinv.g (w'.xj.g px) < 0
    · rw [if_pos h4]
      simp only [Ok_bind, Ok_rd]
      refine ⟨by omega, ?_⟩
      by_cases h3 : x'.g (w'.xj.g px) = 0
      · rw [if_neg (by simpa using h3), Ok_ok]; simp [h3]
      · rw [if_pos h3, Ok_ok]; simp [h3, h4]
    · rw [if_neg h4, Ok_ok]; simp [h4]
  rintro s rfl
  rw [Ok_ok]
  refine ⟨a1, by show A.m ≤ x'.size; omega, ⟨_, a12.reduced⟩, fun v hv => ?_⟩
  rw [nnzVec_congr (hv.unique hE hm a12.reduced), a12.nnz hA.good.two_le]

theorem density_rows_spec {p : Array Nat} {n : Nat} (hn : 0 < n) (hps : n ≤ p.size)
    (hp : ∀ k, k < n → p.g k < A.n) (rand : Nat → Nat) (V : Nat → Nat → ZMod q)
    (hV : ∀ k, k < n → RedRow q A U qinv (p.g k) (V k)) (is : List Nat) :
    ∀ {w : Dfs} (_ : w.Ready A.m) {x : Array Int} (_ : A.m ≤ x.size),
    Ok (density_rows A U qinv p n rand is w x) (fun k =>
      k = (is.map fun i => nnzVec A.m (V (rand i % n))).sum) := by
  induction is with
  | nil => intro w hw x hx; simp [density_rows]
  | cons i is ih =>
    intro w hw x hx
    have hlt : rand i % n < n := Nat.mod_lt _ hn
    unfold density_rows
    simp only [Ok_bind, Ok_rd]
    refine ⟨by omega, (density_row_spec hA hE hm (hp _ hlt) hw hx).mono ?_⟩
    rintro ⟨w', x', k⟩ ⟨b1, b2, -, b3⟩
    refine (ih b1 b2).mono ?_
    rintro k' rfl
    rw [Ok_ok, b3 _ (hV _ hlt)]
    simp

theorem density_thread_spec (jk : Junk) {p : Array Nat} {n : Nat} (hn : 0 < n) (hps : n ≤ p.size)
    (hp : ∀ k, k < n → p.g k < A.n) (rand : Nat → Nat) (V : Nat → Nat → ZMod q)
    (hV : ∀ k, k < n → RedRow q A U qinv (p.g k) (V k)) (is : List Nat) :
    Ok (density_thread jk A U qinv p n rand is) (fun k =>
      k = (is.map fun i => nnzVec A.m (V (rand i % n))).sum) := by
  unfold density_thread
  refine density_rows_spec hA hE hm hn hps hp rand V hV is ⟨?_, ?_, ?_, ?_⟩ ?_
  · simp
  · simp
  · simp
  · intro j hj; exact g_mkArr _ _ _ hj
  · simp

/-- RedRow rows exist. -/
theorem exists_reduced {r : Nat} (hr : r < A.n) : ∃ v, RedRow q A U qinv r v := by
  have h := density_row_spec hA hE hm hr (w := ⟨0, 0, mkArr A.m fun _ => 0, mkArr A.m fun _ => 0,
    mkArr A.m fun _ => 0⟩) ⟨by simp, by simp, by simp, fun j hj => g_mkArr _ _ _ hj⟩
    (x := mkArr A.m fun _ => 0) (by simp)
  rw [Ok_iff] at h
  obtain ⟨o, -, -, -, h, -⟩ := h
  exact h

end

/-! ### Rounding -/

theorem nearestEven_le (x : ℚ) (k : Int) (h : x ≤ k) : nearestEven x ≤ k := by
  have h1 := Int.floor_le x
  have h2 : ⌊x⌋ ≤ k := by exact_mod_cast (h1.trans h)
  have h3 : ¬ x - ⌊x⌋ < 1 / 2 → ⌊x⌋ + 1 ≤ k := by
    intro hn
    by_contra hc
    have : k = ⌊x⌋ := by omega
    rw [this] at h
    apply hn; linarith
  unfold nearestEven
  simp only
  split
  · exact h2
  · next hh =>
    have := h3 hh
    split
    · exact this
    · split
      · exact h2
      · exact this

theorem nearestEven_nonneg (x : ℚ) (h : 0 ≤ x) : 0 ≤ nearestEven x := by
  have h1 : 0 ≤ ⌊x⌋ := Int.floor_nonneg.mpr h
  unfold nearestEven
  simp only
  split_ifs <;> omega

theorem rnd_nonneg (b : Nat) {x : ℚ} (h : 0 ≤ x) : 0 ≤ rnd b x := by
  unfold rnd
  split
  · exact le_refl _
  · have := pow2_pos (binade x - b + 1)
    have := nearestEven_nonneg (x / pow2 (binade x - b + 1)) (by positivity)
    simp only
    have : (0 : ℚ) ≤ nearestEven (x / pow2 (binade x - b + 1)) := by exact_mod_cast this
    positivity

/-- Rounding does not cross an integer. -/
theorem rnd_le_int (b : Nat) {x : ℚ} {k : Int} (h0 : 0 ≤ x) (h : x ≤ k) (hk : k < 2 ^ b) : rnd b x ≤ k := by
  unfold rnd
  by_cases hx : x = 0
  · rw [if_pos hx, ← hx]; exact h
  · simp only [hx, if_false]
    have hb := pow2_binade_le x hx
    rw [abs_of_nonneg h0] at hb
    have hlt : binade x - b + 1 ≤ 0 := by
      by_contra hcon
      have hge : (b : Int) ≤ binade x := by omega
      have h1 : (2 : ℚ) ^ (b : Int) ≤ 2 ^ binade x := zpow_le_zpow_right₀ (by norm_num) hge
      rw [pow2_eq] at hb
      have h2 : (k : ℚ) < 2 ^ b := by exact_mod_cast hk
      rw [zpow_natCast] at h1
      linarith
    obtain ⟨n, hn⟩ := Int.eq_ofNat_of_zero_le (show 0 ≤ -(binade x - b + 1) by omega)
    have he : binade x - b + 1 = -(n : Int) := by omega
    have hne : (0 : ℚ) < 2 ^ n := by positivity
    rw [he, pow2_eq, zpow_neg, zpow_natCast, div_inv_eq_mul, ← div_eq_mul_inv, div_le_iff₀ hne]
    have := nearestEven_le (x * 2 ^ n) (k * 2 ^ n) (by
      push_cast
      exact mul_le_mul_of_nonneg_right h hne.le)
    exact_mod_cast this

theorem rnd_eq_zero (b : Nat) (hb : 0 < b) {x : ℚ} : rnd b x = 0 ↔ x = 0 := by
  constructor
  · intro h
    have := rnd_err b x
    rw [h, zero_sub, abs_neg, le_div_iff₀ (by positivity)] at this
    have h2 : (2 : ℚ) ≤ 2 ^ b := by
      calc (2 : ℚ) = 2 ^ 1 := by norm_num
        _ ≤ 2 ^ b := pow_le_pow_right₀ (by norm_num) hb
    have h3 := abs_nonneg x
    have : |x| = 0 := by nlinarith
    simpa using this
  · rintro rfl; simp [rnd]

namespace Dbl

theorem ofInt_eq {k : Int} (h : |k| < 2 ^ 53) : ofInt k = .fin k := by
  unfold ofInt
  rw [rnd_int_exact 53 k h]

theorem ofInt_nat {k : Nat} (h : k < 2 ^ 53) : ofInt k = .fin k := by
  rw [ofInt_eq]
  · simp
  · rw [abs_of_nonneg (by omega)]; exact_mod_cast h

theorem div_fin {x y : ℚ} (h : y ≠ 0) : (Dbl.fin x).div (.fin y) = .fin (rnd 53 (x / y)) := by
  simp [div, h]

theorem mul_fin (x y : ℚ) : (Dbl.fin x).mul (.fin y) = .fin (rnd 53 (x * y)) := rfl

end Dbl

/-- The average is between 0 and 1, and rounding changes it by less than one part out of `2 ^ 51`. -/
theorem density_ratio_spec {m Un R nnz : Nat} (hu : Un < m) (hm : m < 2 ^ 31) (hR : 0 < R) (hR2 : R < 2 ^ 22)
    (hn : nnz ≤ (m - Un) * R) : ∃ d : ℚ, density_ratio m Un R nnz = .fin d ∧ 0 ≤ d ∧ d ≤ 1 ∧
      (d = 0 ↔ nnz = 0) ∧
      |d - (nnz : ℚ) / ((m - Un : Nat) : ℚ) / R| ≤ (nnz : ℚ) / ((m - Un : Nat) : ℚ) / R / 2 ^ 51 := by
  have h1 : nnz < 2 ^ 53 := by
    calc nnz ≤ (m - Un) * R := hn
      _ ≤ 2 ^ 31 * R := Nat.mul_le_mul_right _ (by omega)
      _ < 2 ^ 31 * 2 ^ 22 := Nat.mul_lt_mul_of_pos_left hR2 (by norm_num)
      _ = 2 ^ 53 := by norm_num
  have e : ((m : Int) - Un) = ((m - Un : Nat) : Int) := by omega
  have hk : (0 : ℚ) < ((m - Un : Nat) : ℚ) := by
    have : 0 < m - Un := by omega
    exact_mod_cast this
  have hRq : (0 : ℚ) < R := by exact_mod_cast hR
  have hnn : (0 : ℚ) ≤ nnz := by positivity
  unfold density_ratio
  rw [e, Dbl.ofInt_nat h1, Dbl.ofInt_nat (by omega), Dbl.ofInt_nat (by omega)]
  rw [Dbl.div_fin hk.ne', Dbl.div_fin hRq.ne']
  set k : ℚ := ((m - Un : Nat) : ℚ) with hkd
  set y := rnd 53 ((nnz : ℚ) / k) with hy
  have hx0 : 0 ≤ (nnz : ℚ) / k := by positivity
  have hy0 : 0 ≤ y := rnd_nonneg 53 hx0
  have hy1 : y ≤ R := by
    refine rnd_le_int 53 (k := (R : Int)) hx0 ?_ (by exact_mod_cast (by omega : R < 2 ^ 53))
    rw [div_le_iff₀ hk]
    have : (nnz : ℚ) ≤ ((m - Un : Nat) : ℚ) * R := by exact_mod_cast hn
    push_cast
    linarith
  have hz : y = 0 ↔ nnz = 0 := by
    rw [hy, rnd_eq_zero 53 (by norm_num), div_eq_zero_iff]
    constructor
    · rintro (h | h)
      · exact_mod_cast h
      · exact absurd h hk.ne'
    · intro h; left; exact_mod_cast h
  refine ⟨_, rfl, rnd_nonneg 53 (by positivity), ?_, ?_, ?_⟩
  · have := rnd_le_int 53 (x := y / R) (k := 1) (by positivity) (by
      rw [div_le_iff₀ hRq]; push_cast; linarith) (by norm_num)
    simpa using this
  · rw [rnd_eq_zero 53 (by norm_num), div_eq_zero_iff, ← hz]
    constructor
    · rintro (h | h)
      · exact h
      · exact absurd h hRq.ne'
    · exact .inl
  · have e1 := rnd_err 53 (y / R)
    have e2 := rnd_err 53 ((nnz : ℚ) / k)
    rw [← hy, abs_of_nonneg hx0] at e2
    rw [abs_of_nonneg (by positivity : 0 ≤ y / (R : ℚ))] at e1
    set x := (nnz : ℚ) / k with hxd
    have e3 : |y / R - x / R| ≤ x / R / 2 ^ 53 := by
      rw [← sub_div, abs_div, abs_of_pos hRq]
      calc |y - x| / R ≤ x / 2 ^ 53 / R := div_le_div_of_nonneg_right e2 hRq.le
        _ = x / R / 2 ^ 53 := by ring
    have e4 : 0 ≤ x / R := by positivity
    set a := x / R with ha
    set b := y / R with hb
    rw [abs_le] at e1 e3 ⊢
    constructor
    · have := e1.1; have := e3.1; have := e3.2
      linarith
    · have := e1.2; have := e3.2
      linarith

/-- All the columns are pivotal: 0 / 0. -/
theorem density_ratio_nan {m R : Nat} : density_ratio m m R 0 = .nan := by
  unfold density_ratio
  rw [sub_self]
  have h0 : Dbl.ofInt ((0 : Nat) : Int) = .fin 0 := by
    rw [Dbl.ofInt_nat (by norm_num)]; simp
  have h1 : Dbl.ofInt (0 : Int) = .fin 0 := h0
  rw [h0, h1]
  simp [Dbl.div, Dbl.ofInt]

theorem Small.cast_ne_zero {q : ℕ} {r : Int} (h : Small q r) (hr : r ≠ 0) : (r : ZMod q) ≠ 0 := by
  intro e
  rw [ZMod.intCast_zmod_eq_zero_iff_dvd] at e
  have h1 := Int.natAbs_le_of_dvd_ne_zero e hr
  obtain ⟨h2, h3⟩ := h
  simp only [Int.natAbs_natCast] at h1
  omega

end Spasm
