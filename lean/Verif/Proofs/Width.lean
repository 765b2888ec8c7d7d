import Verif.Model.Width
import Verif.Model.Tools
import Verif.Proofs.Compress
import Verif.Proofs.Transpose

/-!
Rules for undefined behaviours, and the functions of Model/Width.lean.
-/

namespace Spasm

section
variable {α β σ : Type}

theorem ok_bind_eq (a : α) (f : α → C β) : ((.ok a : C α) >>= f) = f a := rfl

theorem err_bind_eq (e : Err) (f : α → C β) : ((.error e : C α) >>= f) = .error e := rfl

theorem ub_bind {x : C α} (h : x = .error .ub) (f : α → C β) : (x >>= f) = .error .ub := by
  rw [h]; rfl

theorem ub_bind_ok {x : C α} {R : α → Prop} (h : Ok x R) {f : α → C β} (hf : ∀ a, R a → f a = .error .ub) :
    (x >>= f) = .error .ub := by
  obtain ⟨a, rfl, ha⟩ := Ok_iff.mp h
  exact hf a ha

/-- A loop with an undefined iteration. -/
theorem ub_forN {I : Nat → σ → Prop} {f : Nat → σ → C σ} (k : Nat) : ∀ (lo t : Nat) (s : σ), I lo s → lo ≤ t →
    t < lo + k → (∀ i s, lo ≤ i → i < t → I i s → Ok (f i s) (I (i + 1))) → (∀ s, I t s → f t s = .error .ub) →
    forN lo k s f = .error .ub := by
  induction k with
  | zero => intro lo t s _ h1 h2; omega
  | succ k ih =>
    intro lo t s h0 h1 h2 hs hu
    rw [forN]
    by_cases he : lo = t
    · subst he; exact ub_bind (hu s h0) _
    · exact ub_bind_ok (hs lo s le_rfl (by omega) h0) fun s' hs' =>
        ih (lo + 1) t s' hs' (by omega) (by omega) (fun i s a b c => hs i s (by omega) b c) hu

theorem ub_forRange {I : Nat → σ → Prop} {f : Nat → σ → C σ} {lo hi : Nat} {s : σ} (t : Nat) (h0 : I lo s)
    (h1 : lo ≤ t) (h2 : t < hi) (hs : ∀ i s, lo ≤ i → i < t → I i s → Ok (f i s) (I (i + 1)))
    (hu : ∀ s, I t s → f t s = .error .ub) : forRange lo hi s f = .error .ub :=
  ub_forN (hi - lo) lo t s h0 h1 (by omega) hs hu

theorem forN_congr {f g : Nat → σ → C σ} (k : Nat) : ∀ (lo : Nat) (s : σ),
    (∀ i s, lo ≤ i → i < lo + k → f i s = g i s) → forN lo k s f = forN lo k s g := by
  induction k with
  | zero => intros; rfl
  | succ k ih =>
    intro lo s h
    rw [forN, forN, h lo s le_rfl (by omega)]
    congr 1
    funext s'
    exact ih _ _ fun i s a b => h i s (by omega) (by omega)

theorem forRange_congr' {f g : Nat → σ → C σ} {lo hi : Nat} {s : σ} (h : ∀ i s, lo ≤ i → i < hi → f i s = g i s) :
    forRange lo hi s f = forRange lo hi s g :=
  forN_congr _ _ _ fun i s a b => h i s a (by omega)

theorem forBrkN_congr {f g : Nat → σ → C (Step σ)} (k : Nat) : ∀ (lo : Nat) (s : σ),
    (∀ i s, lo ≤ i → i < lo + k → f i s = g i s) → forBrkN lo k s f = forBrkN lo k s g := by
  induction k with
  | zero => intros; rfl
  | succ k ih =>
    intro lo s h
    rw [forBrkN, forBrkN, h lo s le_rfl (by omega)]
    congr 1
    funext s'
    cases s' with
    | cont s' => exact ih _ _ fun i s a b => h i s (by omega) (by omega)
    | brk s' => rfl

theorem forBrk_congr {f g : Nat → σ → C (Step σ)} {lo hi : Nat} {s : σ}
    (h : ∀ i s, lo ≤ i → i < hi → f i s = g i s) : forBrk lo hi s f = forBrk lo hi s g := by
  unfold forBrk
  rw [forBrkN_congr _ _ _ fun i s a b => h i s a (by omega)]

theorem bind_ok {x : C α} {f : α → C β} {b : β} (h : (x >>= f) = .ok b) : ∃ a, x = .ok a ∧ f a = .ok b := by
  cases x with
  | ok a => exact ⟨a, rfl, h⟩
  | error e => cases h

theorem forBrkN_brk {P : σ → Prop} {f : Nat → σ → C (Step σ)} (hf : ∀ i s s', f i s = .ok (.cont s') → ¬ P s')
    (k : Nat) : ∀ (lo : Nat) (s : σ), ¬ P s → ∀ r, forBrkN lo k s f = .ok r → P r.2 → r.1 < lo + k := by
  induction k with
  | zero => intro lo s h r hr hp; cases hr; exact absurd hp h
  | succ k ih =>
    intro lo s h r hr hp
    rw [forBrkN] at hr
    obtain ⟨st, h1, h2⟩ := bind_ok hr
    cases st with
    | cont s' => have := ih (lo + 1) s' (hf _ _ _ h1) r h2 hp; omega
    | brk s' => cases h2; show lo < _; omega

/-- The counter of a loop that was left by `break`, when the states after `break` are those that satisfy `P`. -/
theorem forBrk_brk {P : σ → Prop} {f : Nat → σ → C (Step σ)} (hf : ∀ i s s', f i s = .ok (.cont s') → ¬ P s')
    {lo hi : Nat} {s : σ} (hs : ¬ P s) {r : Nat × σ} (h : forBrk lo hi s f = .ok r) (hp : P r.2) : r.1 < hi := by
  unfold forBrk at h
  obtain ⟨⟨k, s'⟩, h1, h2⟩ := bind_ok h
  cases h2
  have := forBrkN_brk hf _ _ _ hs _ h1 hp
  by_cases hl : lo ≤ hi
  · have : k < lo + (hi - lo) := this
    show k < hi
    omega
  · rw [Nat.sub_eq_zero_of_le (by omega)] at h1
    cases h1
    exact absurd hp hs

theorem forIntN_small {f : Nat → σ → C σ} (k : Nat) : ∀ (lo : Nat) (s : σ), lo + k < 2 ^ 31 →
    forIntN lo k s f = forN lo k s f := by
  induction k with
  | zero => intros; rfl
  | succ k ih =>
    intro lo s h
    rw [forIntN, forN]
    refine congrArg _ (funext fun s' => ?_)
    have : i32 ((lo : Int) + 1) = .ok ((lo : Int) + 1) := by unfold i32; rw [if_pos]; omega
    rw [this, ok_bind_eq]
    exact ih _ _ (by omega)

theorem forInt_small {f : Nat → σ → C σ} {nz : Nat} {s : σ} (h : nz < 2 ^ 31) :
    forInt nz s f = forRange 0 nz s f := by
  unfold forInt forRange
  rw [forIntN_small _ _ _ (by omega), Nat.sub_zero]

theorem forIntN_big {I : σ → Prop} {f : Nat → σ → C σ} (k : Nat) : ∀ (lo : Nat) (s : σ), I s → lo < 2 ^ 31 →
    2 ^ 31 ≤ lo + k → (∀ i s, lo ≤ i → i < lo + k → I s → Ok (f i s) I) → forIntN lo k s f = .error .ub := by
  induction k with
  | zero => intros; omega
  | succ k ih =>
    intro lo s h0 h1 h2 hs
    rw [forIntN]
    refine ub_bind_ok (hs lo s le_rfl (by omega) h0) fun s' hs' => ?_
    by_cases he : lo + 1 < 2 ^ 31
    · have : i32 ((lo : Int) + 1) = .ok ((lo : Int) + 1) := by unfold i32; rw [if_pos]; omega
      rw [this, ok_bind_eq]
      exact ih (lo + 1) s' hs' he (by omega) fun i s a b c => hs i s (by omega) (by omega) c
    · refine ub_bind ?_ _
      unfold i32; rw [if_neg]; omega

theorem forInt_big {I : σ → Prop} {f : Nat → σ → C σ} {nz : Nat} {s : σ} (h : 2 ^ 31 ≤ nz) (h0 : I s)
    (hs : ∀ i s, i < nz → I s → Ok (f i s) I) : forInt nz s f = .error .ub :=
  forIntN_big nz 0 s h0 (by omega) (by omega) fun i s _ b c => hs i s (by omega) c

end

theorem toI32_below {x : Int} (h0 : 0 ≤ x) (h : x < 2 ^ 31) : toI32 x = x := by
  unfold toI32; rw [Int.bmod_eq_emod, if_neg (by omega)]; omega

theorem toI32_neg {x : Int} (h0 : 2 ^ 31 ≤ x) (h : x < 2 ^ 32) : toI32 x < 0 := by
  unfold toI32; rw [Int.bmod_eq_emod, if_pos (by omega)]; omega

theorem rdI_small {α : Type} (a : Array α) {x : Nat} (h : x < 2 ^ 31) : rdI a (toI32 x) = rd a x := by
  rw [toI32_below (by omega) (by exact_mod_cast h)]
  unfold rdI idx
  rw [if_pos (by omega)]
  rfl

theorem rdI_ub {α : Type} (a : Array α) {x : Nat} (h : 2 ^ 31 ≤ x) (h2 : x < 2 ^ 32) : rdI a (toI32 x) = .error .ub := by
  have := toI32_neg (x := (x : Int)) (by exact_mod_cast h) (by exact_mod_cast h2)
  unfold rdI idx
  rw [if_neg (by omega)]
  rfl

theorem rd_in {α : Type} [Inhabited α] {a : Array α} {i : Nat} (h : i < a.size) : rd a i = .ok (a.g i) := by
  obtain ⟨v, h1, h2⟩ := Ok_iff.mp ((Ok_rd a i (fun v => v = a.g i)).mpr ⟨h, rfl⟩)
  rw [h1, h2]

theorem rd_out {α : Type} {a : Array α} {i : Nat} (h : a.size ≤ i) : rd a i = .error .ub := by
  unfold rd
  rw [Array.getElem?_eq_none h]

/-! ### Compression -/

theorem compress_int_small (jk : Junk) {T : Triplet} (h : T.nz < 2 ^ 31) : compress_int jk T = compress jk T := by
  unfold compress_int compress compress_sort_int compress_sort
  simp only [forInt_small h]

theorem compress_int_big (jk : Junk) {T : Triplet} (hT : T.WF) (h : 2 ^ 31 ≤ T.nz) :
    compress_int jk T = .error .ub := by
  unfold compress_int compress_sort_int
  refine ub_bind ?_ _
  refine ub_bind_ok (csr_alloc_spec jk T.n T.m T.nz T.x.isSome hT.field_ok) fun A _ => ?_
  refine ub_bind ?_ _
  refine forInt_big (I := fun w => w.size = T.n) h (by simp) ?_
  intro it w hit hw
  have h1 := hT.i_size
  have h2 := hT.i_lt it hit
  simp only [Ok_bind, Ok_rd, Ok_cassert, Ok_wr]
  exact ⟨by omega, by simpa using h2, by omega, by omega, by simpa using hw⟩

/-! ### Row pointers -/

theorem kernel_from_rref_int_small (jk : Junk) {R : Csr} (qinv : Array Int) (h : ∀ i, i < R.n → R.p.g i < 2 ^ 31) :
    kernel_from_rref_int jk R qinv = kernel_from_rref jk R qinv := by
  unfold kernel_from_rref_int kernel_from_rref
  have key : ∀ s, forRange 0 R.n s (fun i p => (do
      let px ← rd R.p i
      let j ← rdI R.j (toI32 px)
      wr p i j : C (Array Nat))) = forRange 0 R.n s (fun i p => (do
      let px ← rd R.p i
      let j ← rd R.j px
      wr p i j : C (Array Nat))) := by
    intro s
    refine forRange_congr' fun i p _ hi => ?_
    by_cases hs : i < R.p.size
    · have : rd R.p i = .ok (R.p.g i) := rd_in hs
      rw [this, ok_bind_eq, ok_bind_eq, rdI_small _ (h i hi)]
    · have : rd R.p i = .error .ub := rd_out (by omega)
      rw [ub_bind this, ub_bind this]
  simp only [key]

theorem rref_qinv_int_small {R : Csr} (rq : Array Int) (h : ∀ i, i < R.n → R.p.g i < 2 ^ 31) :
    rref_qinv_int R rq = rref_qinv R rq := by
  unfold rref_qinv_int rref_qinv
  refine congrArg _ (funext fun a => ?_)
  refine forRange_congr' fun i p _ hi => ?_
  by_cases hs : i < R.p.size
  · have : rd R.p i = .ok (R.p.g i) := rd_in hs
    rw [this, ok_bind_eq, ok_bind_eq, rdI_small _ (h i hi)]
  · have : rd R.p i = .error .ub := rd_out (by omega)
    rw [ub_bind this, ub_bind this]

/-- A row without repeated entry is not longer than the number of columns. -/
theorem Csr.NoDup.weight_le {R : Csr} (hR : R.WF) (hd : R.NoDup) {i : Nat} (hi : i < R.n) :
    R.p.g (i + 1) ≤ R.p.g i + R.m := by
  have hn : ∀ d i, i + d = R.n → R.p.g i ≤ R.p.g R.n := by
    intro d
    induction d with
    | zero => intro i h; rw [← h]; exact le_rfl
    | succ d ih => intro i h; exact le_trans (hR.p_mono i (by omega)) (ih (i + 1) (by omega))
  have h1 := hn (R.n - (i + 1)) (i + 1) (by omega)
  have h := Finset.card_le_card_of_injOn (s := Finset.Ico (R.p.g i) (R.p.g (i + 1))) (t := Finset.range R.m)
    (fun k => R.j.g k) (by
      intro k hk
      have := Finset.mem_Ico.mp hk
      exact Finset.mem_coe.mpr (Finset.mem_range.mpr (hR.j_lt k (by omega)))) (by
      intro k hk l hl hkl
      have hk := Finset.mem_Ico.mp hk
      have hl := Finset.mem_Ico.mp hl
      exact hd i hi k l hk.1 hk.2 hl.1 hl.2 hkl)
  rw [Nat.card_Ico, Finset.card_range] at h
  omega

/-- The first row that starts at a position that is not an `int`. -/
theorem first_far {R : Csr} (hR : R.WF) (hd : R.NoDup) (hm : R.m < 2 ^ 31) (h : ∃ i, i < R.n ∧ 2 ^ 31 ≤ R.p.g i) :
    ∃ t, t < R.n ∧ 2 ^ 31 ≤ R.p.g t ∧ R.p.g t < 2 ^ 32 ∧ ∀ i, i < t → R.p.g i < 2 ^ 31 := by
  classical
  obtain ⟨h1, h2⟩ := Nat.find_spec h
  have hmin : ∀ i, i < Nat.find h → R.p.g i < 2 ^ 31 := by
    intro i hi
    have := Nat.find_min h hi
    by_contra hc
    exact this ⟨by omega, by omega⟩
  refine ⟨Nat.find h, h1, h2, ?_, hmin⟩
  generalize Nat.find h = t at h1 h2 hmin
  cases t with
  | zero => have := hR.p_zero; omega
  | succ t =>
    have := hd.weight_le hR (i := t) (by omega)
    have := hmin t (by omega)
    omega

theorem row_start_lt {R : Csr} (hR : R.WF) (hx : ∀ i, i < R.n → R.p.g i < R.p.g (i + 1)) {i : Nat} (hi : i < R.n) :
    R.p.g i < R.p.g R.n := by
  have hn : ∀ d i, i + d = R.n → R.p.g i ≤ R.p.g R.n := by
    intro d
    induction d with
    | zero => intro i h; rw [← h]; exact le_rfl
    | succ d ih => intro i h; exact le_trans (hR.p_mono i (by omega)) (ih (i + 1) (by omega))
  exact lt_of_lt_of_le (hx i hi) (hn (R.n - (i + 1)) (i + 1) (by omega))

theorem kernel_from_rref_int_big (jk : Junk) {R : Csr} (qinv : Array Int) (hR : R.WF) (hd : R.NoDup)
    (hne : ∀ i, i < R.n → R.p.g i < R.p.g (i + 1)) (hnm : R.n ≤ R.m) (hm : R.m < 2 ^ 31)
    (h : ∃ i, i < R.n ∧ 2 ^ 31 ≤ R.p.g i) : kernel_from_rref_int jk R qinv = .error .ub := by
  obtain ⟨t, h1, h2, h3, h4⟩ := first_far hR hd hm h
  have hps := hR.p_size
  have hpj := hR.p_nnz
  unfold kernel_from_rref_int
  refine ub_bind_ok (R := fun _ => True) (by simp [hnm]) fun _ _ => ?_
  refine ub_bind_ok (transpose_spec jk hR true) fun Rt _ => ?_
  refine ub_bind ?_ _
  refine ub_forRange (I := fun _ p => p.size = R.n) t (by simp) (by omega) h1 ?_ ?_
  · intro i p _ hi hp
    have := row_start_lt hR hne (i := i) (by omega)
    rw [Ok_bind, Ok_rd]
    refine ⟨by omega, ?_⟩
    rw [rdI_small _ (h4 i hi)]
    simp only [Ok_bind, Ok_rd, Ok_wr]
    exact ⟨by omega, by omega, by simpa using hp⟩
  · intro p hp
    rw [rd_in (by omega), ok_bind_eq]
    exact ub_bind (rdI_ub _ h2 h3) _

theorem rref_qinv_int_big {R : Csr} {rq : Array Int} (hR : R.WF) (hd : R.NoDup)
    (hne : ∀ i, i < R.n → R.p.g i < R.p.g (i + 1)) (hs : R.m ≤ rq.size) (hm : R.m < 2 ^ 31)
    (h : ∃ i, i < R.n ∧ 2 ^ 31 ≤ R.p.g i) : rref_qinv_int R rq = .error .ub := by
  obtain ⟨t, h1, h2, h3, h4⟩ := first_far hR hd hm h
  have hps := hR.p_size
  have hpj := hR.p_nnz
  unfold rref_qinv_int
  have hfill : Ok (forRange 0 R.m rq fun j a => wr a j (-1)) (fun a => a.size = rq.size) := by
    refine Ok_forRange (I := fun _ (a : Array Int) => a.size = rq.size) (Nat.zero_le _) rfl ?_
    intro j a _ hj ha
    rw [Ok_wr]
    exact ⟨by omega, by simpa using ha⟩
  refine ub_bind_ok hfill fun a ha => ?_
  refine ub_forRange (I := fun _ p => p.size = rq.size) t ha (by omega) h1 ?_ ?_
  · intro i p _ hi hp
    have hlt := row_start_lt hR hne (i := i) (by omega)
    have := hR.j_lt _ hlt
    rw [Ok_bind, Ok_rd]
    refine ⟨by omega, ?_⟩
    rw [rdI_small _ (h4 i hi)]
    simp only [Ok_bind, Ok_rd, Ok_wr]
    exact ⟨by omega, by omega, by simpa using hp⟩
  · intro p hp
    rw [rd_in (by omega), ok_bind_eq]
    exact ub_bind (rdI_ub _ h2 h3) _

/-! ### Strongly connected components -/

theorem scc_step_int_small {A : Csr} (h : ∀ i, i < A.p.size → A.p.g i < 2 ^ 31) (j : Nat) (s : Scc) :
    scc_step_int A j s = scc_step A j s := by
  unfold scc_step_int scc_step
  refine congrArg _ (funext fun s => ?_)
  by_cases hj : j + 1 < A.p.size
  · rw [rd_in hj, rd_in (show j < A.p.size by omega), ok_bind_eq, ok_bind_eq, ok_bind_eq, ok_bind_eq]
    have hh := h _ hj
    have hscan : scc_scan_int A j (A.p.g j) (A.p.g (j + 1) - A.p.g j) s =
        scc_scan A j (A.p.g j) (A.p.g (j + 1) - A.p.g j) s := by
      unfold scc_scan_int scc_scan
      refine congrArg _ (funext fun ps => ?_)
      rw [forBrk_congr fun px t _ hpx => ?_]
      rw [← Nat.cast_add, rdI_small _ (by omega)]
    rw [hscan]
    have hpx : Ok (scc_scan A j (A.p.g j) (A.p.g (j + 1) - A.p.g j) s)
        (fun r => r.2.1 = true → r.1 < A.p.g (j + 1) - A.p.g j) ∨ ∃ e,
        scc_scan A j (A.p.g j) (A.p.g (j + 1) - A.p.g j) s = .error e := by
      cases hsc : scc_scan A j (A.p.g j) (A.p.g (j + 1) - A.p.g j) s with
      | error e => exact .inr ⟨e, rfl⟩
      | ok r =>
        left
        rw [Ok_ok]
        unfold scc_scan at hsc
        obtain ⟨ps, -, h2⟩ := bind_ok hsc
        obtain ⟨⟨px, b, low⟩, h3, h4⟩ := bind_ok h2
        injection h4 with h4
        subst h4
        intro hb
        refine forBrk_brk (P := fun t : Bool × Array Int => t.1 = true) ?_ (by simp) h3 hb
        intro px t t' ht
        obtain ⟨k, -, ht⟩ := bind_ok ht
        obtain ⟨mk, -, ht⟩ := bind_ok ht
        split at ht
        · obtain ⟨_, -, ht⟩ := bind_ok ht
          obtain ⟨_, -, ht⟩ := bind_ok ht
          obtain ⟨_, -, ht⟩ := bind_ok ht
          cases ht
          simp
        · cases ht
    rcases hpx with hpx | ⟨e, he⟩
    · obtain ⟨⟨px, b, low⟩, e1, e2⟩ := Ok_iff.mp hpx
      rw [e1, ok_bind_eq, ok_bind_eq]
      cases b with
      | false => simp only [Bool.false_eq_true, if_false]
      | true =>
        have := e2 rfl
        show scc_push_int _ _ _ _ _ = scc_push _ _ _ _ _
        unfold scc_push_int scc_push
        rw [← Nat.cast_add, rdI_small _ (by omega)]
    · rw [he, err_bind_eq, err_bind_eq]
  · have e : rd A.p (j + 1) = .error .ub := rd_out (by omega)
    refine congrArg _ (funext fun lo => ?_)
    rw [ub_bind e, ub_bind e]

theorem scc_int_small (jk : Junk) {A : Csr} (h : ∀ i, i < A.p.size → A.p.g i < 2 ^ 31) :
    strongly_connected_components_int jk A = strongly_connected_components jk A := by
  have hd : scc_dfs_int A = scc_dfs A := by
    funext i s
    unfold scc_dfs_int scc_dfs
    simp only [scc_step_int_small h]
  unfold strongly_connected_components_int strongly_connected_components
  rw [hd]

end Spasm
