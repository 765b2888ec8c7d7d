import Verif.Proofs.Dense

/-
Random combinations.
-/

namespace Spasm

open Finset

/-- Repeated `spasm_scatter`. -/
theorem scatter_loop_sum {q : ℕ} {A : Csr} (hA : A.WFV q) {n : Nat} {row : Nat → C Nat} {r : Nat → Nat}
    (hrow : ∀ i, i < n → row i = .ok (r i)) (hr : ∀ i, i < n → r i < A.n) {β : Nat → Int}
    (hβ : ∀ i, i < n → Small q (β i)) {y0 : Array Int} (hy : A.m ≤ y0.size)
    (hb : ∀ c, c < A.m → Bal q (y0.g c)) :
    Ok (forRange 0 n y0 fun i y => do
      let j ← row i
      scatter A j (β i) y) (fun y => y.size = y0.size ∧ (∀ c, c < A.m → Bal q (y.g c)) ∧
      ∀ c, (y.g c : ZMod q) = y0.g c + ∑ i ∈ range n, (β i : ZMod q) * A.entry q (r i) c) := by
  refine Ok_forRange_imp (I := fun k (y : Array Int) => y.size = y0.size ∧
      (∀ c, c < A.m → Bal q (y.g c)) ∧
      ∀ c, (y.g c : ZMod q) = y0.g c + ∑ i ∈ range k, (β i : ZMod q) * A.entry q (r i) c)
    (Nat.zero_le _) ⟨rfl, hb, fun c => by simp⟩ ?_ (fun y h => h)
  rintro k y - hk ⟨h1, h2, h3⟩
  rw [hrow k hk]
  simp only [Ok_bind, Ok_ok]
  refine (scatter_spec hA (hr k hk) (hβ k hk) y (by omega) (fun c hc =>
    (h2 c (hA.toWF.inRow_lt (hr k hk) hc)).small)).mono ?_
  rintro z ⟨z1, z2, z3, z4⟩
  refine ⟨by omega, ?_, ?_⟩
  · intro c hc
    by_cases hin : A.InRow (r k) c
    · exact z3 c hin
    · rw [z4 c hin]; exact h2 c hc
  · intro c
    rw [z2, h3, Finset.sum_range_succ]
    ring

theorem random_comb_spec {q : ℕ} {A : Csr} (hA : A.WFV q) {p : Array Nat} {n : Nat} (hn : 0 < n)
    (hp : n ≤ p.size) (hpn : ∀ i, i < n → p.g i < A.n) (w : Int) {draw : Nat → Int}
    (hd : ∀ i, Small q (draw i)) (rnd : Nat → Nat) {y0 : Array Int} (hy : A.m ≤ y0.size)
    (h0 : ∀ c, c < A.m → y0.g c = 0) :
    Ok (random_comb A p n w draw rnd y0) (fun y => y.size = y0.size ∧
      (∀ c, c < A.m → Bal q (y.g c)) ∧
      ∀ c, c < A.m → (y.g c : ZMod q) = randComb q A p n w draw rnd c) := by
  have h2 := hA.good.two_le
  have hb : ∀ c, c < A.m → Bal q (y0.g c) := by
    intro c hc; rw [h0 c hc]; exact bal_zero (by omega)
  have hβ : ∀ i, Small q (randCoeff w draw i) := by
    intro i
    unfold randCoeff
    split
    · exact hd i
    · split
      · exact small_one h2
      · exact hd _
  unfold random_comb randComb
  by_cases hw : w ≤ 0
  · simp only [if_pos hw]
    have e : ∀ i, randCoeff w draw i = draw i := by intro i; unfold randCoeff; rw [if_pos hw]
    refine (scatter_loop_sum hA (row := fun i => rd p i) (r := fun i => p.g i)
      (fun i hi => rd_eq (by omega)) (fun i hi => hpn i hi) (fun i _ => hd i) hy hb).mono ?_
    rintro y ⟨y1, y2, y3⟩
    refine ⟨y1, y2, fun c hc => ?_⟩
    rw [y3, h0 c hc, Int.cast_zero, zero_add]
    exact Finset.sum_congr rfl fun i _ => by rw [e]
  · simp only [if_neg hw]
    have e : ∀ i, randCoeff w draw i = if i = 0 then 1 else draw (i - 1) := by
      intro i; unfold randCoeff; rw [if_neg hw]
    refine (scatter_loop_sum hA (row := fun i => rd p (rnd i % n)) (r := fun i => p.g (rnd i % n))
      (fun i hi => rd_eq (by have := Nat.mod_lt (rnd i) hn; omega))
      (fun i hi => hpn _ (Nat.mod_lt _ hn)) (fun i _ => by rw [← e]; exact hβ i) hy hb).mono ?_
    rintro y ⟨y1, y2, y3⟩
    refine ⟨y1, y2, fun c hc => ?_⟩
    rw [y3, h0 c hc, Int.cast_zero, zero_add]
    exact Finset.sum_congr rfl fun i _ => by rw [e]

/-- Elimination of the pivots in order. -/
theorem random_elim_spec {q : ℕ} {U : Csr} {qinv : Array Int} (hE : Echelon q U qinv) {y0 : Array Int}
    (hy : U.m ≤ y0.size) (hb : ∀ c, c < U.m → Bal q (y0.g c)) :
    Ok (random_elim U y0) (fun y => y.size = y0.size ∧ (∀ c, c < U.m → Bal q (y.g c)) ∧
      (∀ i, i < U.n → (y.g (U.pivot i) : ZMod q) = 0) ∧
      ∃ μ : Nat → ZMod q, ∀ c, (y0.g c : ZMod q) = y.g c + ∑ i ∈ range U.n, μ i * U.entry q i c) := by
  have hU := hE.wfv
  have h2 := hU.good.two_le
  unfold random_elim
  refine Ok_forRange_imp (I := fun k (y : Array Int) => y.size = y0.size ∧
      (∀ c, c < U.m → Bal q (y.g c)) ∧ (∀ i, i < k → (y.g (U.pivot i) : ZMod q) = 0) ∧
      ∃ μ : Nat → ZMod q, ∀ c, (y0.g c : ZMod q) = y.g c + ∑ i ∈ range k, μ i * U.entry q i c)
    (Nat.zero_le _) ⟨rfl, hb, fun i hi => by omega, fun _ => 0, fun c => by simp⟩ ?_ (fun y h => h)
  rintro k y - hk ⟨h1, h3, h4, μ, h5⟩
  have hps := hU.p_size
  have hlt := hE.ne k hk
  have hrow := hU.toWF.row_le hk
  have hjs := hU.p_nnz
  have hpl := hE.pivot_lt hk
  rw [Ok_bind, Ok_rd]
  refine ⟨by omega, ?_⟩
  rw [Ok_bind, Ok_rd]
  refine ⟨by omega, ?_⟩
  have hpv : U.j.g (U.p.g k) = U.pivot k := rfl
  rw [hpv]
  rw [Ok_bind, Ok_rd]
  refine ⟨by omega, ?_⟩
  by_cases hz : y.g (U.pivot k) = 0
  · rw [if_pos hz, Ok_ok]
    refine ⟨h1, h3, ?_, fun i => if i < k then μ i else 0, ?_⟩
    · intro i hi
      by_cases e : i = k
      · subst e; rw [hz]; simp
      · exact h4 i (by omega)
    · intro c
      rw [h5 c, Finset.sum_range_succ]
      simp only [lt_irrefl, if_false, zero_mul, add_zero]
      congr 1
      exact Finset.sum_congr rfl fun i hi => by rw [if_pos (mem_range.mp hi)]
  · rw [if_neg hz, Ok_bind]
    refine Ok_neg hU.good.le_max (h3 _ hpl).small ?_
    intro hs
    refine (scatter_spec hU hk hs y (by omega) (fun c hc =>
      (h3 c (hU.toWF.inRow_lt hk hc)).small)).mono ?_
    rintro z ⟨z1, z2, z3, z4⟩
    refine ⟨by omega, ?_, ?_, fun i => if i = k then (y.g (U.pivot k) : ZMod q) else μ i, ?_⟩
    · intro c hc
      by_cases hin : U.InRow k c
      · exact z3 c hin
      · rw [z4 c hin]; exact h3 c hc
    · intro i hi
      by_cases e : i = k
      · subst e
        rw [z2, hE.entry_pivot hk]
        push_cast
        ring
      · rw [z4 _ (hE.tri i k (by omega) hk)]
        exact h4 i (by omega)
    · intro c
      rw [h5 c, Finset.sum_range_succ, z2]
      simp only [if_true]
      have : ∑ i ∈ range k, (if i = k then (y.g (U.pivot k) : ZMod q) else μ i) * U.entry q i c =
          ∑ i ∈ range k, μ i * U.entry q i c := by
        refine Finset.sum_congr rfl fun i hi => ?_
        rw [mem_range] at hi
        rw [if_neg (by omega)]
      rw [this]
      push_cast
      ring

/-- The gathering of a row of `S`. -/
theorem random_gather_spec {n : Nat} {qa : Array Nat} {y : Array Int} (hn : n ≤ qa.size)
    (hq : ∀ t, t < n → qa.g t < y.size) (dt : Datatype) (off : Nat) {S : Array ℚ}
    (hS : off + n ≤ S.size) :
    Ok (forRange 0 n S fun t S => do
      let j ← rd qa t
      let v ← rd y j
      wr S (off + t) (dt.conv v)) (fun S' => S'.size = S.size ∧
      (∀ t, t < n → S'.g (off + t) = dt.conv (y.g (qa.g t))) ∧
      ∀ i, i < off ∨ off + n ≤ i → S'.g i = S.g i) := by
  refine Ok_forRange_imp (I := fun k (S' : Array ℚ) => S'.size = S.size ∧
      (∀ t, t < k → S'.g (off + t) = dt.conv (y.g (qa.g t))) ∧
      ∀ i, i < off ∨ off + k ≤ i → S'.g i = S.g i) (Nat.zero_le _)
    ⟨rfl, fun t ht => by omega, fun _ _ => rfl⟩ ?_ (fun S h => h)
  rintro k S' - hk ⟨h1, h2, h3⟩
  rw [Ok_bind, Ok_rd]
  refine ⟨by omega, ?_⟩
  rw [Ok_bind, Ok_rd]
  refine ⟨hq k hk, ?_⟩
  rw [Ok_wr]
  refine ⟨by omega, by simpa using h1, ?_, ?_⟩
  · intro t ht
    by_cases e : t = k
    · subst e; rw [g_upd_eq _ _ _ (by omega)]
    · rw [g_upd_ne _ _ _ _ (by omega)]; exact h2 t (by omega)
  · intro i hi
    rw [g_upd_ne _ _ _ _ (by omega)]; exact h3 i (by omega)

theorem onCols_q {q : ℕ} {qinv : Array Int} {m k : Nat} {qa : Array Nat} (h : IsQ qinv m k qa)
    (f : Nat → ZMod q) {t : Nat} (ht : t < k) : onCols qa k f (qa.g t) = f t := by
  unfold onCols
  rw [Finset.sum_eq_single t]
  · rw [if_pos rfl]
  · intro s hs hne
    rw [if_neg]
    intro e
    exact hne (h.inj (mem_range.mp hs) ht e)
  · intro hn; exact absurd (mem_range.mpr ht) hn

theorem onCols_zero {q : ℕ} {qa : Array Nat} {k : Nat} (f : Nat → ZMod q) {c : Nat}
    (h : ∀ t, t < k → qa.g t ≠ c) : onCols qa k f c = 0 :=
  Finset.sum_eq_zero fun t ht => if_neg (h t (mem_range.mp ht))

/-- A vector that vanishes on the pivotal columns and outside of the matrix. -/
theorem onCols_eq {q : ℕ} {qinv : Array Int} {m k : Nat} {qa : Array Nat} (h : IsQ qinv m k qa)
    {f w : Nat → ZMod q} (h1 : ∀ t, t < k → f t = w (qa.g t))
    (h2 : ∀ c, c < m → ¬ qinv.g c < 0 → w c = 0) (h3 : ∀ c, m ≤ c → w c = 0) : onCols qa k f = w := by
  ext c
  by_cases hc : c < m
  · by_cases hn : qinv.g c < 0
    · obtain ⟨t, ht, rfl⟩ := h.surj c hc hn
      rw [onCols_q h f ht, h1 t ht]
    · rw [h2 c hc hn]
      refine onCols_zero f fun t ht e => hn ?_
      rw [← e]; exact h.neg t ht
  · rw [h3 c (by omega)]
    refine onCols_zero f fun t ht e => ?_
    have := h.lt t ht
    omega

/-- One row. -/
theorem random_row_spec (jk : Junk) {q : ℕ} {A U : Csr} {qinv : Array Int} (hA : A.WFV q)
    (hE : Echelon q U qinv) (hm : U.m = A.m) {p : Array Nat} {n : Nat} (hn : 0 < n)
    (hp : n ≤ p.size) (hpn : ∀ i, i < n → p.g i < A.n) (w : Int) {draw : Nat → Int}
    (hd : ∀ i, Small q (draw i)) (rnd : Nat → Nat) {qa : Array Nat}
    (hqa : IsQ qinv A.m (A.m - U.n) qa) (dt : Datatype) {S : Array ℚ} {N k : Nat} (hk : k < N)
    (hS : N * (A.m - U.n) ≤ S.size) :
    Ok (random_row jk A p n U S dt qa w draw rnd k) (fun S' => S'.size = S.size ∧
      (∀ i, i < k * (A.m - U.n) ∨ (k + 1) * (A.m - U.n) ≤ i → S'.g i = S.g i) ∧
      ∃ (v : Nat → Int) (ℓ : Nat → ZMod q), (∀ t, t < A.m - U.n → Bal q (v t)) ∧
        (∀ t, t < A.m - U.n → S'.g (k * (A.m - U.n) + t) = dt.conv (v t)) ∧
        Reduced q U (randComb q A p n w draw rnd) ℓ
          (onCols qa (A.m - U.n) fun t => (v t : ZMod q))) := by
  have hmul : (k + 1) * (A.m - U.n) = k * (A.m - U.n) + (A.m - U.n) := by rw [Nat.add_mul, Nat.one_mul]
  have hle : (k + 1) * (A.m - U.n) ≤ N * (A.m - U.n) := Nat.mul_le_mul_right _ hk
  unfold random_row
  rw [Ok_bind]
  refine (zero_fill (x := mkArr A.m jk.int) (n := A.m) (by simp)).mono ?_
  rintro y0 ⟨z1, z2, -⟩
  rw [size_mkArr] at z1
  rw [Ok_bind]
  refine (random_comb_spec hA hn hp hpn w hd rnd (by omega) z2).mono ?_
  rintro y1 ⟨a1, a2, a3⟩
  rw [Ok_bind]
  refine (random_elim_spec hE (y0 := y1) (by omega) (by rw [hm]; exact a2)).mono ?_
  rintro y ⟨b1, b2, b3, μ, b4⟩
  rw [hm] at b2
  refine (random_gather_spec hqa.size (fun t ht => by have := hqa.lt t ht; omega) dt
    (k * (A.m - U.n)) (by omega)).mono ?_
  rintro S' ⟨c1, c2, c3⟩
  refine ⟨c1, fun i hi => c3 i (by omega), fun t => y.g (qa.g t), μ,
    fun t ht => b2 _ (hqa.lt t ht), c2, ?_⟩
  have hon : onCols qa (A.m - U.n) (fun t => (y.g (qa.g t) : ZMod q)) =
      fun c => if c < A.m then (y.g c : ZMod q) else 0 := by
    refine onCols_eq hqa ?_ ?_ ?_
    · intro t ht; rw [if_pos (hqa.lt t ht)]
    · intro c hc hcn
      rw [if_pos hc]
      have hq : 0 ≤ qinv.g c := by omega
      have := b3 (qinv.g c).toNat (by have := hE.lt c (by omega); omega)
      rwa [hE.loc c (by omega) hq] at this
    · intro c hc; rw [if_neg (by omega)]
  rw [hon]
  refine ⟨?_, ?_⟩
  · intro i hi
    rw [if_pos (by rw [← hm]; exact hE.pivot_lt hi)]
    exact b3 i hi
  · intro c
    by_cases hc : c < A.m
    · rw [if_pos hc, ← a3 c hc, b4 c]
    · rw [if_neg hc, zero_add, Finset.sum_eq_zero]
      · unfold randComb
        refine Finset.sum_eq_zero fun i hi => ?_
        rw [hA.toWF.entry_ge _ (by omega), mul_zero]
        rw [mem_range] at hi
        split
        · rename_i hw; rw [if_pos hw] at hi; exact hpn i hi
        · exact hpn _ (Nat.mod_lt _ hn)
      · intro i hi
        rw [hE.wfv.toWF.entry_ge (mem_range.mp hi) (by omega), mul_zero]

/-- `spasm_schur_dense_randomized`. -/
theorem schur_dense_randomized_spec (jk : Junk) {q : ℕ} {A U : Csr} {qinv : Array Int} (hA : A.WFV q)
    (hE : Echelon q U qinv) (hm : U.m = A.m) {p : Array Nat} {n : Nat} (hn : 0 < n)
    (hp : n ≤ p.size) (hpn : ∀ i, i < n → p.g i < A.n) (w : Int) {draw : Nat → Nat → Int}
    (hd : ∀ k i, Small q (draw k i)) (rnd : Nat → Nat → Nat) {qa : Array Nat}
    (hqa : A.m - U.n ≤ qa.size) (dt : Datatype) {S : Array ℚ} {N : Nat}
    (hS : N * (A.m - U.n) ≤ S.size) :
    Ok (schur_dense_randomized jk A p n U qinv S dt qa N w draw rnd) (fun o =>
      IsQ qinv A.m (A.m - U.n) o.2 ∧ o.2.size = qa.size ∧ o.1.size = S.size ∧
      (∀ i, N * (A.m - U.n) ≤ i → o.1.g i = S.g i) ∧
      ∃ (v : Nat → Nat → Int) (ℓ : Nat → Nat → ZMod q), ∀ k, k < N →
        (∀ t, t < A.m - U.n → Bal q (v k t)) ∧
        (∀ t, t < A.m - U.n → o.1.g (k * (A.m - U.n) + t) = dt.conv (v k t)) ∧
        Reduced q U (randComb q A p n w (draw k) (rnd k)) (ℓ k)
          (onCols o.2 (A.m - U.n) fun t => (v k t : ZMod q))) := by
  have hsz := hE.size
  have hcnt := hE.count_neg
  rw [hm] at hsz hcnt
  unfold schur_dense_randomized
  rw [Ok_bind, Ok_cassert]
  refine ⟨by simpa using hn, ?_⟩
  rw [Ok_bind]
  refine (prepare_q_spec hsz hcnt hqa).mono ?_
  rintro qb ⟨q1, q2⟩
  rw [Ok_bind]
  refine Ok_forRange_imp (I := fun K (S' : Array ℚ) => S'.size = S.size ∧
      (∀ i, K * (A.m - U.n) ≤ i → S'.g i = S.g i) ∧
      ∃ (v : Nat → Nat → Int) (ℓ : Nat → Nat → ZMod q), ∀ k, k < K →
        (∀ t, t < A.m - U.n → Bal q (v k t)) ∧
        (∀ t, t < A.m - U.n → S'.g (k * (A.m - U.n) + t) = dt.conv (v k t)) ∧
        Reduced q U (randComb q A p n w (draw k) (rnd k)) (ℓ k)
          (onCols qb (A.m - U.n) fun t => (v k t : ZMod q))) (Nat.zero_le _) ?_ ?_ ?_
  · exact ⟨rfl, fun _ _ => rfl, fun _ _ => 0, fun _ _ => 0, fun k hk => by omega⟩
  · rintro K S' - hK ⟨h1, h2, v, ℓ, h3⟩
    refine (random_row_spec jk hA hE hm hn hp hpn w (hd K) (rnd K) q1 dt (N := N) hK (by omega)).mono ?_
    rintro S'' ⟨g1, g2, v', ℓ', g3, g4, g5⟩
    refine ⟨by omega, ?_, fun k => if k = K then v' else v k, fun k => if k = K then ℓ' else ℓ k, ?_⟩
    · intro i hi
      rw [g2 i (Or.inr hi)]
      refine h2 i ?_
      rw [Nat.add_mul] at hi
      omega
    · intro k hk
      by_cases e : k = K
      · subst e
        simp only [if_true]
        exact ⟨g3, g4, g5⟩
      · simp only [if_neg e]
        obtain ⟨e1, e2, e3⟩ := h3 k (by omega)
        refine ⟨e1, ?_, e3⟩
        intro t ht
        rw [← e2 t ht]
        refine g2 _ (Or.inl (cell_lt (by omega) ht))
  · rintro S' ⟨h1, h2, v, ℓ, h3⟩
    rw [Ok_ok]
    exact ⟨q1, q2, h1, h2, v, ℓ, h3⟩

/-! ### The outcome of `spasm_schur_dense` in terms of vectors -/

theorem DenseRes.reduced {q : ℕ} {a : DenseIn} {o : DenseOut} {f : Nat → DRow} (h : DensePre q a)
    (hr : DenseRes q a o f) {k : Nat} (hk : k < a.n) :
    Reduced q a.U (a.A.entry q (a.p.g k)) (lsum q (f k).2)
      (onCols o.q (a.A.m - a.U.n) fun t => ((f k).1 (o.q.g t) : ZMod q)) := by
  have hE := h.pre.ech
  have hm := h.pre.m_eq
  have hon : onCols o.q (a.A.m - a.U.n) (fun t => ((f k).1 (o.q.g t) : ZMod q)) =
      fun c => if c < a.A.m ∧ a.qinv.g c < 0 then ((f k).1 c : ZMod q) else 0 := by
    refine onCols_eq hr.q_ok ?_ ?_ ?_
    · intro t ht; rw [if_pos ⟨hr.q_ok.lt t ht, hr.q_ok.neg t ht⟩]
    · intro c hc hcn; rw [if_neg (by tauto)]
    · intro c hc; rw [if_neg (by omega)]
  rw [hon]
  refine ⟨?_, ?_⟩
  · intro i hi
    rw [if_neg]
    rintro ⟨-, h1⟩
    have := hE.piv i hi
    omega
  · intro c
    by_cases hc : c < a.A.m
    · rw [(hr.rows k hk).eq c hc]
      simp only [hc, true_and]
    · rw [if_neg (by tauto), zero_add, Finset.sum_eq_zero]
      · exact h.pre.A_wfv.toWF.entry_ge (h.pre.p_lt k hk) (by omega)
      · intro i hi
        rw [hE.wfv.toWF.entry_ge (mem_range.mp hi) (by omega), mul_zero]

theorem tsum_flatMap (q : ℕ) (F : Nat → List (Nat × Nat × Int)) (n i j : Nat) :
    tsum q ((List.range n).flatMap F) i j = ∑ k ∈ range n, tsum q (F k) i j := by
  induction n with
  | zero => rfl
  | succ n ih =>
    rw [List.range_succ, List.flatMap_append, tsum_append, ih, Finset.sum_range_succ]
    simp

theorem DenseRes.sum {q : ℕ} {a : DenseIn} {o : DenseOut} {f : Nat → DRow} (hr : DenseRes q a o f)
    {l : List (Nat × Nat × Int)}
    (hl : l.Perm ((List.range a.n).flatMap fun k => (f k).apps true (permFun a.p_in (a.p.g k))))
    (i c : Nat) : tsum q l i c =
      ∑ k ∈ range a.n, if o.p_out.g k = i then lsum q (f k).2 c else 0 := by
  rw [tsum_perm hl, tsum_flatMap]
  refine Finset.sum_congr rfl fun k hk => ?_
  rw [hr.out k (mem_range.mp hk)]
  unfold DRow.apps
  rw [if_pos rfl, tsum_row]

theorem DenseRes.mem {q : ℕ} {a : DenseIn} {o : DenseOut} {f : Nat → DRow} (hr : DenseRes q a o f)
    {l : List (Nat × Nat × Int)}
    (hl : l.Perm ((List.range a.n).flatMap fun k => (f k).apps true (permFun a.p_in (a.p.g k))))
    {e : Nat × Nat × Int} (he : e ∈ l) : ∃ k, k < a.n ∧ o.p_out.g k = e.1 ∧ e.2.1 < a.U.n ∧
      Bal q e.2.2 ∧ e.2.2 ≠ 0 ∧ lsum q (f k).2 e.2.1 = e.2.2 := by
  rw [hl.mem_iff, List.mem_flatMap] at he
  obtain ⟨k, hk, he⟩ := he
  rw [List.mem_range] at hk
  unfold DRow.apps at he
  rw [if_pos rfl, List.mem_map] at he
  obtain ⟨d, hd, rfl⟩ := he
  have hk' := hr.rows k hk
  obtain ⟨h1, h2, h3⟩ := hk'.ts_ok d hd
  exact ⟨k, hk, hr.out k hk, h1, h2, h3, lsum_of_mem_nodup hk'.ts_nodup hd⟩

theorem Reduced.zero_of_mem {q : ℕ} {U : Csr} {qinv : Array Int} (hE : Echelon q U qinv)
    {v ℓ w : Nat → ZMod q} (h : Reduced q U v ℓ w) (hv : v ∈ U.rowSpace q) : w = 0 := by
  obtain ⟨y, hy⟩ := mem_spanOf_iff.1 hv
  have hw : ∀ c, w c = ∑ i ∈ range U.n, (y i - ℓ i) * U.entry q i c := by
    intro c
    have := h.eq c
    rw [hy c] at this
    simp only [sub_mul, Finset.sum_sub_distrib]
    rw [this]; ring
  have h0 := hE.coeff_zero (fun i => y i - ℓ i) (fun i hi => by rw [← hw, h.zero i hi])
  ext c
  rw [hw c]
  exact Finset.sum_eq_zero fun i hi => by rw [h0 i (mem_range.mp hi), zero_mul]

theorem randComb_mem {q : ℕ} {A : Csr} {p : Array Nat} {n : Nat} (hn : 0 < n) (w : Int)
    (draw : Nat → Int) (rnd : Nat → Nat) {V : Submodule (ZMod q) (Nat → ZMod q)}
    (h : ∀ i, i < n → A.entry q (p.g i) ∈ V) : randComb q A p n w draw rnd ∈ V := by
  have : randComb q A p n w draw rnd = ∑ i ∈ range (if w ≤ 0 then n else w.toNat),
      (randCoeff w draw i : ZMod q) • A.entry q (p.g (if w ≤ 0 then i else rnd i % n)) := by
    ext c
    rw [Finset.sum_apply]
    rfl
  rw [this]
  refine Submodule.sum_mem _ fun i hi => Submodule.smul_mem _ _ ?_
  rw [mem_range] at hi
  split
  · rename_i hw; rw [if_pos hw] at hi; exact h i hi
  · exact h _ (Nat.mod_lt _ hn)

end Spasm
