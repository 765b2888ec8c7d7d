import Verif.Proofs.TransferLU

/-
Chunks of rows join a factorization in progress.
-/

namespace Spasm

open Finset

/-! ### Lists of entries -/

theorem tsum_filter {q : ℕ} (b : Nat → Bool) (l : List (Nat × Nat × Int)) (i j : Nat) :
    tsum q (l.filter fun e => b e.1) i j = if b i then tsum q l i j else 0 := by
  induction l with
  | nil => simp [tsum_nil]
  | cons e l ih =>
    rw [tsum_cons]
    by_cases h : b e.1 = true
    · rw [List.filter_cons_of_pos (by simpa using h), tsum_cons, ih]
      by_cases h' : e.1 = i
      · rw [h'] at h; simp [h]
      · simp [h']
    · rw [List.filter_cons_of_neg (by simpa using h), ih]
      by_cases h' : e.1 = i
      · rw [h'] at h; simp [h]
      · simp [h']

theorem lsum_luCoeffs (q : ℕ) (r : Nat) (w : Nat → Nat → Int) (i c : Nat) :
    lsum q (luCoeffs r w i) c = if c < r then luL q w i c else 0 := by
  unfold luCoeffs
  rw [lsum_map_self _ _ _ ((List.nodup_range).filter _)]
  simp only [List.mem_filter, List.mem_range, decide_eq_true_eq]
  unfold luL
  by_cases h1 : c < r
  · rw [if_pos h1]
    by_cases h2 : c ≤ i
    · rw [if_pos h2]
      by_cases h3 : w i c = 0
      · simp [h3]
      · rw [if_pos ⟨by omega, h3⟩]
    · rw [if_neg h2, if_neg (by omega)]
  · rw [if_neg h1, if_neg (by omega)]

theorem tsum_luEnts (q : ℕ) (r un a : Nat) (w : Nat → Nat → Int) (i b c : Nat) :
    tsum q (luEnts r un a w i) b c =
      if a = b then (if un ≤ c ∧ c < un + r then luL q w i (c - un) else 0) else 0 := by
  unfold luEnts
  have : ((luCoeffs r w i).map fun e => (a, un + e.1, e.2)) =
      ((luCoeffs r w i).map fun e => ((un + e.1, e.2) : Nat × Int)).map fun e => (a, e.1, e.2) := by
    rw [List.map_map]; rfl
  rw [this, tsum_row]
  congr 1
  by_cases h : un ≤ c
  · have e := lsum_map_inj (q := q) (fun k => un + k) (luCoeffs r w i) (c - un) (fun e _ h => by omega)
    rw [show un + (c - un) = c by omega] at e
    rw [e, lsum_luCoeffs]
    by_cases h1 : c < un + r
    · rw [if_pos (by omega), if_pos ⟨h, h1⟩]
    · rw [if_neg (by omega), if_neg (by omega)]
  · rw [if_neg (by omega)]
    refine lsum_map_fst_not_mem ?_
    intro hm
    simp only [List.map_map, List.mem_map, Function.comp] at hm
    obtain ⟨e, -, he⟩ := hm
    omega

theorem mem_luEnts {r un a : Nat} {w : Nat → Nat → Int} {i : Nat} {e : Nat × Nat × Int}
    (h : e ∈ luEnts r un a w i) : e.1 = a ∧ ∃ j, j < r ∧ j ≤ i ∧ e.2.1 = un + j ∧ e.2.2 = w i j ∧ w i j ≠ 0 := by
  unfold luEnts luCoeffs at h
  simp only [List.mem_map, List.mem_filter, List.mem_range, decide_eq_true_eq] at h
  obtain ⟨d, ⟨j, ⟨h1, h2⟩, rfl⟩, rfl⟩ := h
  exact ⟨rfl, j, by omega, by omega, rfl, rfl, h2⟩

/-- `L` after the transfer of a chunk. -/
structure LChunk (q : ℕ) (Z0 Z' : Triplet) (un n r : Nat) (o : Nat → Nat) (P : Nat → Nat)
    (w : Nat → Nat → Int) (complete : Bool) (l l' : List (Nat × Nat × Int)) : Prop where
  buf : Z'.Buf
  nz : Z'.nz ≤ Z'.i.size
  n_eq : Z'.n = Z0.n
  m_eq : Z'.m = Z0.m
  F_eq : Z'.F = Z0.F
  lst : Z'.lst = Z0.lst ++ l' ++
    ((List.range (if complete then n else r)).flatMap fun i => luEnts r un (o (P i)) w i)
  l_mem : ∀ e ∈ l', e ∈ l ∧ (complete = true ∨ ∃ i, i < r ∧ o (P i) = e.1)
  l_sum : ∀ i c, tsum q l' i c = if complete = true ∨ ∃ t, t < r ∧ o (P t) = i then tsum q l i c else 0

/-- The coefficients of a row of the chunk. -/
def chunkCoeff (q : ℕ) (un : Nat) (ℓ : Nat → Nat → ZMod q) (P : Nat → Nat) (w : Nat → Nat → Int)
    (t k : Nat) : ZMod q :=
  if k < un then ℓ (P t) k else luL q w t (k - un)

theorem LChunk.adds {q : ℕ} {Z0 Z' : Triplet} {un n r m : Nat} {o P : Nat → Nat} {w w0 : Nat → Nat → Int}
    {complete : Bool} {l l' : List (Nat × Nat × Int)} (h : LChunk q Z0 Z' un n r o P w complete l l')
    (hZ0 : Z0.WFV q) {Pa Qa : Array Nat} (hR : IsPluq q n m w0 r w Pa Qa) (hP : P = Pa.g)
    {ℓ : Nat → Nat → ZMod q} (ho : ∀ t, t < n → o t < Z0.n)
    (hoi : ∀ s t, s < n → t < n → o s = o t → s = t) (hm : un + r ≤ Z0.m)
    (hl : ∀ e ∈ l, ∃ t, t < n ∧ o t = e.1 ∧ e.2.1 < un ∧ Bal q e.2.2 ∧ e.2.2 ≠ 0 ∧
      ℓ t e.2.1 = (e.2.2 : ZMod q))
    (hls : ∀ t, t < n → ∀ c, c < un → tsum q l (o t) c = ℓ t c) :
    AddsBlock q Z0 Z' (fun t => o (P t)) n (un + r) (fun t => complete = true ∨ t < r)
      (chunkCoeff q un ℓ P w) := by
  have hrn := hR.r_n
  have hG := hZ0.good
  have hPlt : ∀ t, t < n → P t < n := by rw [hP]; exact hR.p_perm.1
  have hPinj : ∀ s t, s < n → t < n → o (P s) = o (P t) → s = t := by
    intro s t hs ht e
    have := hoi _ _ (hPlt s hs) (hPlt t ht) e
    rw [hP] at this
    exact hR.p_perm.2 s t hs ht this
  have hPsurj : ∀ t, t < n → ∃ s, s < n ∧ P s = t := by
    intro t ht; rw [hP]; exact hR.p_perm.surj ht
  have hzl : ∀ i c, un ≤ c → tsum q l i c = 0 := by
    intro i c hc
    refine tsum_eq_zero fun e he hh => ?_
    obtain ⟨t, -, -, h3, -⟩ := hl e he
    omega
  have hN : ∀ i, i < (if complete = true then n else r) → i < n := by
    intro i hi; split at hi <;> omega
  -- entries
  have hmem : ∀ e ∈ Z'.lst, e ∈ Z0.lst ∨ ∃ t, t < n ∧ (complete = true ∨ t < r) ∧ o (P t) = e.1 ∧
      e.2.1 < un + r ∧ Bal q e.2.2 ∧ e.2.2 ≠ 0 ∧ chunkCoeff q un ℓ P w t e.2.1 = (e.2.2 : ZMod q) := by
    intro e he
    rw [h.lst, List.mem_append, List.mem_append] at he
    rcases he with (he | he) | he
    · exact Or.inl he
    · obtain ⟨h1, h2⟩ := h.l_mem e he
      obtain ⟨t0, f1, f2, f3, f4, f5, f6⟩ := hl e h1
      obtain ⟨t, ht, rfl⟩ := hPsurj t0 f1
      refine Or.inr ⟨t, ht, ?_, f2, by omega, f4, f5, ?_⟩
      · rcases h2 with h2 | ⟨i, hi, h2⟩
        · exact Or.inl h2
        · rw [← f2] at h2
          have := hPinj i t (by omega) ht h2
          exact Or.inr (by omega)
      · unfold chunkCoeff; rw [if_pos f3, f6]
    · rw [List.mem_flatMap] at he
      obtain ⟨i, hi, he⟩ := he
      rw [List.mem_range] at hi
      obtain ⟨f1, j, f2, f3, f4, f5, f6⟩ := mem_luEnts he
      have hin := hN i hi
      refine Or.inr ⟨i, hin, ?_, f1.symm, by omega, ?_, by rw [f5]; exact f6, ?_⟩
      · by_cases hc : complete = true
        · exact Or.inl hc
        · rw [if_neg hc] at hi; exact Or.inr hi
      · rw [f5]; exact hR.bal i j hin (by have := hR.r_m; omega)
      · unfold chunkCoeff luL
        rw [if_neg (by omega), f4, show un + j - un = j by omega, if_pos f3, f5]
  -- sums
  have hsum : ∀ a c, Z'.sum q a c = Z0.sum q a c +
      (if complete = true ∨ ∃ t, t < r ∧ o (P t) = a then tsum q l a c else 0) +
      ∑ i ∈ range (if complete = true then n else r), if o (P i) = a then
        (if un ≤ c ∧ c < un + r then luL q w i (c - un) else 0) else 0 := by
    intro a c
    rw [Triplet.sum_eq, h.lst, tsum_append, tsum_append, ← Triplet.sum_eq, h.l_sum, tsum_flatMap]
    congr 1
    exact Finset.sum_congr rfl fun i _ => tsum_luEnts ..
  refine ⟨?_, h.n_eq, h.m_eq, ?_, ?_, ?_⟩
  · refine Triplet.wfv_of_lst h.buf h.nz (by rw [h.F_eq]; exact hG) (by rw [h.F_eq]; exact hZ0.field_ok) ?_
    intro e he
    rw [h.n_eq, h.m_eq]
    rcases hmem e he with he | ⟨t, f1, -, f2, f3, f4, f5, -⟩
    · exact hZ0.lst_ok e he
    · exact ⟨by rw [← f2]; exact ho _ (hPlt t f1), by omega, f4, f5⟩
  · intro t ht hk c
    rw [hsum, add_assoc]
    congr 1
    have hcond : complete = true ∨ ∃ t', t' < r ∧ o (P t') = o (P t) :=
      hk.imp id fun hk => ⟨t, hk, rfl⟩
    rw [if_pos hcond]
    have htN : t < (if complete = true then n else r) := by
      split
      · exact ht
      · rename_i hc; exact hk.resolve_left hc
    rw [Finset.sum_eq_single t]
    · rw [if_pos rfl]
      unfold chunkCoeff
      by_cases hc : c < un
      · rw [if_neg (by omega), add_zero, if_pos (by omega), if_pos hc, hls _ (hPlt t ht) c hc]
      · rw [hzl _ c (by omega), zero_add]
        by_cases hc' : c < un + r
        · rw [if_pos ⟨by omega, hc'⟩, if_pos hc', if_neg hc]
        · rw [if_neg (by omega), if_neg hc']
    · intro i hi hne
      rw [if_neg]
      intro e
      exact hne (hPinj i t (hN i (mem_range.mp hi)) ht e)
    · intro hn; exact absurd (mem_range.mpr htN) hn
  · intro a c hno
    rw [hsum]
    have h1 : ∀ i ∈ range (if complete = true then n else r), (if o (P i) = a then
        (if un ≤ c ∧ c < un + r then luL q w i (c - un) else 0) else 0) = 0 := by
      intro i hi
      rw [mem_range] at hi
      rw [if_neg]
      refine hno i (hN i hi) ?_
      by_cases hc : complete = true
      · exact Or.inl hc
      · rw [if_neg hc] at hi; exact Or.inr hi
    rw [Finset.sum_eq_zero h1, add_zero]
    by_cases hcond : complete = true ∨ ∃ t, t < r ∧ o (P t) = a
    · rw [if_pos hcond]
      rcases hcond with hc | ⟨t, ht, e⟩
      · rw [tsum_eq_zero, add_zero]
        rintro e he ⟨h2, -⟩
        obtain ⟨t0, f1, f2, -⟩ := hl e he
        obtain ⟨t, ht, rfl⟩ := hPsurj t0 f1
        exact hno t ht (Or.inl hc) (by rw [f2, h2])
      · exact absurd e (hno t (by omega) (Or.inr ht))
    · rw [if_neg hcond, add_zero]
  · intro a c hh
    obtain ⟨e, he, rfl, rfl⟩ := (Triplet.has_iff _ _ _).1 hh
    rcases hmem e he with he | ⟨t, f1, f2, f3, f4, f5, f6, f7⟩
    · exact Or.inl ((Triplet.has_iff _ _ _).2 ⟨e, he, rfl, rfl⟩)
    · refine Or.inr ⟨t, f1, f2, f3, f4, ?_⟩
      rw [f7]
      intro h0
      exact f6 ((small_eq_zero_iff hG.two_le f5.small).1 h0)

/-! ### Vectors of the chunk -/

theorem onCols_reindex {q : ℕ} {Sm : Nat} {qa Q : Array Nat} (hQ : IsPerm Q.g Sm) (f : Nat → ZMod q)
    (c : Nat) : onCols qa Sm f c = ∑ j ∈ range Sm, if qa.g (Q.g j) = c then f (Q.g j) else 0 := by
  unfold onCols
  exact (hQ.sum_comp fun t => if qa.g t = c then f t else 0).symm

theorem IsPluq.vector {q : ℕ} {n Sm : Nat} {w0 w : Nat → Nat → Int} {r : Nat} {P Q qa : Array Nat}
    (h : IsPluq q n Sm w0 r w P Q) {t : Nat} (ht : t < n) (c : Nat) :
    onCols qa Sm (fun j => (w0 (P.g t) j : ZMod q)) c = ∑ k ∈ range r, luL q w t k * luRow q Sm qa Q w k c := by
  rw [onCols_reindex h.q_perm]
  unfold luRow
  simp only [onCols_perm h.q_perm]
  have : ∀ j ∈ range Sm, (if qa.g (Q.g j) = c then (w0 (P.g t) (Q.g j) : ZMod q) else 0) =
      ∑ k ∈ range r, luL q w t k * if qa.g (Q.g j) = c then luU q w k j else 0 := by
    intro j hj
    by_cases e : qa.g (Q.g j) = c
    · simp only [if_pos e]; exact h.prod t j ht (mem_range.mp hj)
    · simp [if_neg e]
  rw [Finset.sum_congr rfl this, Finset.sum_comm]
  exact Finset.sum_congr rfl fun k _ => (Finset.mul_sum _ _ _).symm

/-- The remaining rows of the chunk in terms of the rows of `U` after the transfer. -/
theorem chunk_vector {q : ℕ} {U U' : Csr} {qinv qinv' : Array Int} {v ℓ : Nat → Nat → ZMod q}
    {n Sm r unz : Nat} {w0 w : Nat → Nat → Int} {P Q qa : Array Nat} {cols : Nat → Nat}
    (hR : IsPluq q n Sm w0 r w P Q)
    (hG : DenseGrow q U qinv cols (luRow q Sm qa Q w) r U' unz qinv')
    (hred : ∀ t, t < n → Reduced q U (v t) (ℓ t) (onCols qa Sm fun j => (w0 t j : ZMod q)))
    {t : Nat} (ht : t < n) (c : Nat) :
    v (P.g t) c = ∑ k ∈ range U'.n, chunkCoeff q U.n ℓ P.g w t k * U'.entry q k c := by
  rw [hG.n_eq, Finset.sum_range_add, (hred _ (hR.p_perm.1 t ht)).eq c, hR.vector ht c, add_comm]
  congr 1
  · refine Finset.sum_congr rfl fun k hk => ?_
    have hk := mem_range.mp hk
    unfold chunkCoeff
    rw [if_pos hk, hG.old k hk]
  · refine Finset.sum_congr rfl fun k hk => ?_
    have hk := mem_range.mp hk
    unfold chunkCoeff
    rw [if_neg (by omega), show U.n + k - U.n = k by omega, hG.new k hk]

theorem Partial.block_lu {q : ℕ} [Fact q.Prime] {A U U' : Csr} {qinv qinv' : Array Int} {Z0 Z' : Triplet}
    {Lp Lp' : Array Nat} {v : Nat → Nat → ZMod q} {s nr : Nat} {o : Nat → Nat} {old : Nat}
    {complete : Bool} (h : Partial q A U qinv (some Z0) (some Lp) v (s + nr) o old complete)
    {ℓ : Nat → Nat → ZMod q} {Sm r unz : Nat} {w0 w : Nat → Nat → Int} {P Q qa : Array Nat}
    {cols : Nat → Nat} (hR : IsPluq q s Sm w0 r w P Q)
    (hG : DenseGrow q U qinv cols (luRow q Sm qa Q w) r U' unz qinv')
    (hred : ∀ t, t < s → Reduced q U (v t) (ℓ t) (onCols qa Sm fun j => (w0 t j : ZMod q)))
    {l l' : List (Nat × Nat × Int)} (hZ : LChunk q Z0 Z' U.n s r o P.g w complete l l')
    (hl : ∀ e ∈ l, ∃ t, t < s ∧ o t = e.1 ∧ e.2.1 < U.n ∧ Bal q e.2.2 ∧ e.2.2 ≠ 0 ∧
      ℓ t e.2.1 = (e.2.2 : ZMod q))
    (hls : ∀ t, t < s → ∀ c, c < U.n → tsum q l (o t) c = ℓ t c)
    (hLs : Lp'.size = Lp.size) (hL1 : ∀ i, i < r → Lp'.g (U.n + i) = o (P.g i))
    (hL2 : ∀ k, k < U.n → Lp'.g k = Lp.g k) :
    Partial q A U' qinv' (some Z') (some Lp') (fun t => v (s + t)) nr (fun t => o (s + t)) old
      complete := by
  have hroom := h.room
  have hrs := hR.r_n
  have hn := hG.n_eq
  have hv := fun t (ht : t < s) c => chunk_vector hR hG hred ht c
  have hL := h.L Z0 rfl
  have hprime : q.Prime := Fact.out
  have hd : ∀ t, t < r → chunkCoeff q U.n ℓ P.g w t (U.n + t) ≠ 0 := by
    intro t ht
    unfold chunkCoeff luL
    rw [if_neg (by omega), show U.n + t - U.n = t by omega, if_pos (le_refl _)]
    intro h0
    exact hR.diag t ht ((small_eq_zero_iff hprime.two_le
      (hR.bal t t (by omega) (by have := hR.r_m; omega)).small).1 h0)
  have hup : ∀ t k, t < r → t < k → chunkCoeff q U.n ℓ P.g w t (U.n + k) = 0 := by
    intro t k ht htk
    unfold chunkCoeff luL
    rw [if_neg (by omega), if_neg (by omega)]
  have holdle := h.old_le
  have hold : ∀ t, t < s → ∀ k, k < old → chunkCoeff q U.n ℓ P.g w t k = 0 := by
    intro t ht k hk
    have hPt := hR.p_perm.1 t ht
    unfold chunkCoeff
    rw [if_pos (by omega)]
    exact h.coeff_old (t := P.g t) (by omega) (w := _) (hred _ hPt).eq
      (fun i hi => (hred _ hPt).zero i (by omega)) k hk
  have hUU : U.rowSpace q ≤ U'.rowSpace q := by
    refine spanOf_le fun i hi => ?_
    rw [← hG.old i hi]
    exact mem_spanOf (by omega)
  refine ⟨hG.ech, by rw [hG.m_eq]; exact h.m_eq, by rw [hG.psize]; exact h.psize, by omega,
    hG.grow.x_some, hG.grow.x_size, by omega, ?_, ?_, ?_, hG.nodup h.nodup, (fun hL => nomatch hL), ?_⟩
  · intro t ht i hi
    rw [hG.pold i (by omega)]
    exact h.zero (s + t) (by omega) i hi
  · rw [span_block hUU ?_ (rows_of_block hn hG.old hR.p_perm.1 hrs hv hd hup)]
    · exact h.span
    · refine spanOf_le fun i hi => ?_
      obtain ⟨t, ht, rfl⟩ := hR.p_perm.surj hi
      have : v (P.g t) = fun c => ∑ k ∈ range U'.n, chunkCoeff q U.n ℓ P.g w t k * U'.entry q k c :=
        funext fun c => hv t ht c
      rw [this]
      exact sum_mem_spanOf _
  · intro _
    obtain ⟨a, e, ha⟩ := h.p_size rfl
    cases e
    exact ⟨Lp', rfl, by omega⟩
  · intro Z'' e
    cases e
    have hZm := hL.m_ge
    refine hL.block hn hG.old hR.p_perm hrs hv hd hup hold (keep := fun t => complete = true ∨ t < r)
      (fun t ht => Or.inr ht) (fun hc t _ => Or.inl hc) ?_ hL2 hL1
    rw [hn]
    exact hZ.adds hL.wfv hR rfl (fun t ht => by rw [hL.n_eq]; exact hL.rem_lt t (by omega))
      (fun a b ha hb => hL.rem_inj a b (by omega) (by omega)) (by omega) hl hls

/-! ### Reduced echelon form -/

/-- Renaming the columns, as a linear map. -/
def onColsL (q : ℕ) (qa : Array Nat) (k : Nat) : (Nat → ZMod q) →ₗ[ZMod q] (Nat → ZMod q) where
  toFun := onCols qa k
  map_add' f g := by
    ext c
    simp only [onCols, Pi.add_apply, ← Finset.sum_add_distrib]
    exact Finset.sum_congr rfl fun t _ => by split <;> simp
  map_smul' a f := by
    ext c
    simp only [onCols, Pi.smul_apply, smul_eq_mul, RingHom.id_apply, Finset.mul_sum]
    exact Finset.sum_congr rfl fun t _ => by split <;> simp

theorem map_spanOf {q : ℕ} (qa : Array Nat) (k : Nat) (f : Nat → Nat → ZMod q) (n : Nat) :
    (spanOf f n).map (onColsL q qa k) = spanOf (fun i => onCols qa k (f i)) n := by
  unfold spanOf
  rw [Submodule.map_span, ← Set.image_comp]
  rfl

theorem DenseGrow.rowSpace {q : ℕ} {U U' : Csr} {qinv qinv' : Array Int} {cols : Nat → Nat}
    {row : Nat → Nat → ZMod q} {r unz : Nat} (h : DenseGrow q U qinv cols row r U' unz qinv') :
    U'.rowSpace q = U.rowSpace q ⊔ spanOf row r := by
  have hn := h.n_eq
  refine le_antisymm (spanOf_le fun i hi => ?_) (sup_le (spanOf_le fun i hi => ?_)
    (spanOf_le fun i hi => ?_))
  · by_cases hi' : i < U.n
    · rw [h.old i hi']
      exact Submodule.mem_sup_left (mem_spanOf hi')
    · obtain ⟨t, rfl⟩ : ∃ t, i = U.n + t := ⟨i - U.n, by omega⟩
      rw [h.new t (by omega)]
      exact Submodule.mem_sup_right (mem_spanOf (by omega))
  · rw [← h.old i hi]
    exact mem_spanOf (by omega)
  · rw [← h.new i hi]
    exact mem_spanOf (by omega)

/-- `U` after the transfer of a reduced echelon form. -/
theorem DenseGrow.rref {q : ℕ} {U U' : Csr} {qinv qinv' : Array Int} {cols : Nat → Nat}
    {n Sm r unz : Nat} {w0 w : Nat → Nat → Int} {Q qa : Array Nat} (hR : DenseRref q n Sm w0 r w Q)
    (h : DenseGrow q U qinv cols (fun t => onCols qa Sm (denseRrefRow q Sm r Q w t)) r U' unz qinv') :
    U'.rowSpace q = U.rowSpace q ⊔ spanOf (fun i => onCols qa Sm (denseRow q Sm w0 i)) n := by
  rw [h.rowSpace, ← map_spanOf, hR.span, map_spanOf]

end Spasm
