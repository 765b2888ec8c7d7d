import Verif.Model.Gplu
import Verif.Proofs.SolveParts
import Verif.Proofs.Schur
import Verif.Proofs.Steps
import Verif.Proofs.Triplet
import Verif.Proofs.Kernel

/-
Proofs about the GPLU elimination.
-/

namespace Spasm

open Finset

/-- A loop over `xj[top .. m)`, with an invariant on the prefix of the list. -/
theorem Ok_forRange_cols' {σ : Type} (w : Dfs) {m : Nat} (htop : w.top ≤ m)
    (I : List Nat → σ → Prop) {f : Nat → σ → C σ} {s0 : σ} {Q : σ → Prop} (h0 : I [] s0)
    (hstep : ∀ px l s, w.top ≤ px → px < m → l ++ [w.xj.g px] <+: w.list m → I l s →
      Ok (f px s) (I (l ++ [w.xj.g px])))
    (hfin : ∀ s, I (w.list m) s → Q s) : Ok (forRange w.top m s0 f) Q := by
  refine Ok_forRange_imp
    (I := fun px s => I ((List.range' w.top (px - w.top)).map (w.xj.g ·)) s) htop
    (by simpa using h0) ?_ hfin
  intro px s h1 h2 hI
  have e : px + 1 - w.top = (px - w.top) + 1 := by omega
  have e2 : w.top + (px - w.top) = px := by omega
  have e3 : (List.range' w.top (px + 1 - w.top)).map (w.xj.g ·) =
      (List.range' w.top (px - w.top)).map (w.xj.g ·) ++ [w.xj.g px] := by
    rw [e, List.range'_1_concat, List.map_append]; simp [e2]
  refine (hstep px _ s h1 h2 ?_ hI).mono ?_
  · rw [← e3]
    unfold Dfs.list
    refine List.IsPrefix.map _ ?_
    refine ⟨List.range' (px + 1) (m - (px + 1)), ?_⟩
    have e4 : w.top + (px + 1 - w.top) = px + 1 := by omega
    have := List.range'_append_1 (s := w.top) (m := px + 1 - w.top) (n := m - (px + 1))
    rw [e4] at this
    rw [this]
    congr 1
    omega
  · intro s' h
    rw [e3]; exact h

/-- The arrays of `Z` contain the entries of `Z0`, then those of a row `i` being added. -/
structure TGrow (Z0 Z : Triplet) (lnz i : Nat) (l : List (Nat × Int)) : Prop where
  n_eq : Z.n = Z0.n
  m_eq : Z.m = Z0.m
  F_eq : Z.F = Z0.F
  jsz : Z.j.size = Z.i.size
  x_some : Z.x.isSome = true
  xsz : ∀ a, Z.x = some a → a.size = Z.i.size
  lnz_eq : lnz = Z0.nz + l.length
  cap : lnz ≤ Z.i.size
  old : ∀ t, t < Z0.nz → Z.i.g t = Z0.i.g t ∧ Z.j.g t = Z0.j.g t ∧ Z.val t = Z0.val t
  new : ∀ t e, l[t]? = some e → Z.i.g (Z0.nz + t) = i ∧ Z.j.g (Z0.nz + t) = e.1 ∧
    Z.val (Z0.nz + t) = e.2

theorem TGrow.refl {q : ℕ} {Z : Triplet} {lnz : Nat} (h : ({ Z with nz := lnz } : Triplet).WFV q)
    (i : Nat) : TGrow { Z with nz := lnz } Z lnz i [] := by
  refine ⟨rfl, rfl, rfl, h.j_size, h.has_x, h.x_size, rfl, h.i_size, fun t _ => ⟨rfl, rfl, rfl⟩, ?_⟩
  intro t e he; simp at he

theorem TGrow.realloc {Z0 Z : Triplet} {lnz i : Nat} {l : List (Nat × Int)}
    (h : TGrow Z0 Z lnz i l) (jk : Junk) {k : Nat} (hk : lnz ≤ k)
    (hk0 : 0 < k ∨ jk.null0 = false) :
    Ok (triplet_realloc jk Z (k : Int)) (fun Z' => TGrow Z0 Z' lnz i l ∧ Z'.i.size = k) := by
  obtain ⟨b, hb⟩ := Option.isSome_iff_exists.mp h.x_some
  have hbs := h.xsz b hb
  have hj := h.jsz
  have hu := h.lnz_eq
  have hc := h.cap
  unfold triplet_realloc
  rw [if_neg (by omega)]
  simp only [Int.toNat_natCast]
  have hno : ¬ (k = 0 ∧ jk.null0 = true) := by
    rintro ⟨h1, h2⟩; rcases hk0 with h | h
    · omega
    · rw [h] at h2; cases h2
  rw [if_neg hno, Ok_ok]
  have hs : ∀ t, t < lnz → (reallocArr Z.i k jk.nat).g t = Z.i.g t ∧
      (reallocArr Z.j k jk.nat).g t = Z.j.g t ∧
      ({ Z with
        i := reallocArr Z.i k jk.nat, j := reallocArr Z.j k jk.nat,
        x := Z.x.map (fun a => reallocArr a k jk.int) } : Triplet).val t = Z.val t := by
    intro t ht
    refine ⟨g_reallocArr _ _ _ _ (by omega) (by omega), g_reallocArr _ _ _ _ (by omega) (by omega), ?_⟩
    simp only [Triplet.val, hb, Option.map_some]
    exact g_reallocArr _ _ _ _ (by omega) (by omega)
  refine ⟨⟨h.n_eq, h.m_eq, h.F_eq, by simp, by simpa using h.x_some, ?_, hu, by simpa using hk, ?_, ?_⟩,
    by simp⟩
  · intro a ha
    simp only [Option.map_eq_some_iff] at ha
    obtain ⟨c, -, rfl⟩ := ha
    simp
  · intro t ht
    obtain ⟨e1, e2, e3⟩ := hs t (by omega)
    obtain ⟨f1, f2, f3⟩ := h.old t ht
    exact ⟨e1.trans f1, e2.trans f2, e3.trans f3⟩
  · intro t e he
    have hlt : t < l.length := by
      rw [List.getElem?_eq_some_iff] at he; exact he.1
    obtain ⟨e1, e2, e3⟩ := hs (Z0.nz + t) (by omega)
    obtain ⟨f1, f2, f3⟩ := h.new t e he
    exact ⟨e1.trans f1, e2.trans f2, e3.trans f3⟩

theorem TGrow.store {Z0 Z : Triplet} {lnz i : Nat} {l : List (Nat × Int)} (h : TGrow Z0 Z lnz i l)
    (hk : lnz < Z.i.size) (c : Nat) (v : Int) :
    Ok (Z.store lnz i c v) (fun Z' => TGrow Z0 Z' (lnz + 1) i (l ++ [(c, v)]) ∧
      Z'.i.size = Z.i.size) := by
  obtain ⟨b, hb⟩ := Option.isSome_iff_exists.mp h.x_some
  have hbs := h.xsz b hb
  have hj := h.jsz
  have hu := h.lnz_eq
  unfold Triplet.store
  simp only [Ok_bind, Ok_wr, hb, Ok_deref_some, Ok_ok]
  refine ⟨hk, by omega, by omega, ⟨h.n_eq, h.m_eq, h.F_eq, by simpa using hj, rfl, ?_, ?_, ?_, ?_, ?_⟩,
    by simp⟩
  · intro a ha
    simp only [Option.some.injEq] at ha
    rw [← ha]; simpa using hbs
  · rw [List.length_append, List.length_singleton]; omega
  · simp only [size_upd]; omega
  · intro t ht
    obtain ⟨f1, f2, f3⟩ := h.old t ht
    simp only [Triplet.val]
    rw [g_upd_ne _ _ _ _ (by omega), g_upd_ne _ _ _ _ (by omega), g_upd_ne _ _ _ _ (by omega)]
    simp only [Triplet.val, hb] at f3
    exact ⟨f1, f2, f3⟩
  · intro t e he
    by_cases ht : t < l.length
    · rw [List.getElem?_append_left ht] at he
      obtain ⟨f1, f2, f3⟩ := h.new t e he
      simp only [Triplet.val]
      rw [g_upd_ne _ _ _ _ (by omega), g_upd_ne _ _ _ _ (by omega), g_upd_ne _ _ _ _ (by omega)]
      simp only [Triplet.val, hb] at f3
      exact ⟨f1, f2, f3⟩
    · have hlt : t < (l ++ [(c, v)]).length := by
        rw [List.getElem?_eq_some_iff] at he; exact he.1
      rw [List.length_append, List.length_singleton] at hlt
      have ht' : t = l.length := by omega
      subst ht'
      rw [List.getElem?_append_right (le_refl _), Nat.sub_self] at he
      simp only [List.getElem?_cons_zero, Option.some.injEq] at he
      subst he
      simp only [Triplet.val]
      rw [← hu, g_upd_eq _ _ _ hk, g_upd_eq _ _ _ (by omega), g_upd_eq _ _ _ (by omega)]
      exact ⟨rfl, rfl, rfl⟩

/-- The sum of the entries of a list of entries of a triplet. -/
theorem TGrow.sum {q : ℕ} {Z0 Z : Triplet} {lnz i : Nat} {l : List (Nat × Int)}
    (h : TGrow Z0 Z lnz i l) (a c : Nat) :
    ({ Z with nz := lnz } : Triplet).sum q a c = Z0.sum q a c + if a = i then lsum q l c else 0 := by
  have e1 : ∀ k, k ≤ l.length → ∑ t ∈ range k, (if Z.i.g (Z0.nz + t) = a ∧ Z.j.g (Z0.nz + t) = c then
      (Z.val (Z0.nz + t) : ZMod q) else 0) = if a = i then lsum q (l.take k) c else 0 := by
    intro k
    induction k with
    | zero => intro _; simp
    | succ k ih =>
      intro hk
      obtain ⟨f1, f2, f3⟩ := h.new k l[k] (List.getElem?_eq_getElem (by omega))
      rw [Finset.sum_range_succ, ih (by omega), List.take_succ_eq_append_getElem (by omega), lsum_append,
        lsum_cons, lsum_nil, f1, f2, f3]
      by_cases h1 : a = i
      · subst h1; simp
      · rw [if_neg h1, if_neg h1, if_neg (fun hh => h1 hh.1.symm), add_zero]
  have e2 := e1 l.length (le_refl _)
  rw [List.take_length] at e2
  unfold Triplet.sum
  simp only
  rw [h.lnz_eq, Finset.sum_range_add, ← e2]
  congr 1
  refine Finset.sum_congr rfl fun t ht => ?_
  obtain ⟨f1, f2, f3⟩ := h.old t (mem_range.mp ht)
  have f3' : ({ Z with nz := Z0.nz + l.length } : Triplet).val t = Z0.val t := f3
  rw [f1, f2, f3']

theorem TGrow.adds {q : ℕ} {Z0 Z : Triplet} {lnz i n : Nat} {l : List (Nat × Int)}
    (h : TGrow Z0 Z lnz i l) (h0 : Z0.WFV q) (hi : i < Z0.n) (hn : n ≤ Z0.m)
    (hl : ∀ e ∈ l, e.1 < n ∧ Bal q e.2 ∧ e.2 ≠ 0) (hnd : (l.map Prod.fst).Nodup) :
    AddsRow q Z0 { Z with nz := lnz } i n (lsum q l) := by
  have hu := h.lnz_eq
  have hcase : ∀ k, k < lnz → k < Z0.nz ∨ ∃ t e, k = Z0.nz + t ∧ l[t]? = some e ∧ e ∈ l := by
    intro k hk
    by_cases hk' : k < Z0.nz
    · exact Or.inl hk'
    · right
      have hlt : k - Z0.nz < l.length := by omega
      exact ⟨k - Z0.nz, l[k - Z0.nz], by omega, List.getElem?_eq_getElem hlt, List.getElem_mem hlt⟩
  refine ⟨⟨⟨h.cap, h.jsz, h.xsz, ?_, ?_, ?_⟩, ?_, h.x_some, ?_⟩, h.n_eq, ?_, ?_, ?_, ?_⟩
  · intro k hk
    simp only
    rcases hcase k hk with h1 | ⟨t, e, rfl, he, -⟩
    · rw [(h.old k h1).1, h.n_eq]; exact h0.i_lt k h1
    · rw [(h.new t e he).1, h.n_eq]; exact hi
  · intro k hk
    simp only
    rcases hcase k hk with h1 | ⟨t, e, rfl, he, hel⟩
    · rw [(h.old k h1).2.1, h.m_eq]; exact h0.j_lt k h1
    · rw [(h.new t e he).2.1, h.m_eq]
      have := (hl e hel).1
      omega
  · simp only [h.F_eq]; exact h0.field_ok
  · simp only [h.F_eq]; exact h0.good
  · intro k hk
    have hv : ({ Z with nz := lnz } : Triplet).val k = Z.val k := rfl
    rw [hv]
    rcases hcase k hk with h1 | ⟨t, e, rfl, he, hel⟩
    · rw [(h.old k h1).2.2]; exact h0.bal k h1
    · rw [(h.new t e he).2.2]; exact (hl e hel).2
  · simp only [h.m_eq]; exact le_refl _
  · rintro a c ⟨k, hk, e1, e2⟩
    simp only at e1 e2
    rcases hcase k hk with h1 | ⟨t, e, rfl, he, hel⟩
    · obtain ⟨f1, f2, -⟩ := h.old k h1
      exact Or.inl ⟨k, h1, by rw [← f1]; exact e1, by rw [← f2]; exact e2⟩
    · obtain ⟨f1, f2, -⟩ := h.new t e he
      obtain ⟨g1, g2, g3⟩ := hl e hel
      rw [f1] at e1
      rw [f2] at e2
      refine Or.inr ⟨e1.symm, by omega, ?_⟩
      rw [← e2, lsum_of_mem_nodup hnd hel]
      exact fun hz => g3 ((small_eq_zero_iff h0.good.two_le g2.small).mp hz)
  · intro a c _; exact h.sum a c
  · intro a c hc
    rw [h.sum a c, lsum_map_fst_not_mem, ite_self, add_zero]
    intro hm
    obtain ⟨e, he, rfl⟩ := List.mem_map.mp hm
    have := (hl e he).1
    omega

theorem filter_le_of_prefix {l l' : List Nat} (h : l <+: l') (f : Nat → Bool) :
    (l.filter f).length ≤ (l'.filter f).length := (h.sublist.filter f).length_le

theorem filter_split (x qinv : Array Int) (l : List Nat) :
    (solveE qinv x l).length + (solveT qinv x l).length ≤ l.length := by
  unfold solveE solveT
  rw [List.length_map, List.length_map]
  induction l with
  | nil => simp
  | cons a l ih =>
    by_cases h1 : x.g a ≠ 0 ∧ qinv.g a < 0
    · rw [List.filter_cons_of_pos (by simpa using h1), List.filter_cons_of_neg (by simp; omega)]
      simp only [List.length_cons]; omega
    · rw [List.filter_cons_of_neg (by simpa using h1)]
      by_cases h2 : x.g a ≠ 0 ∧ 0 ≤ qinv.g a
      · rw [List.filter_cons_of_pos (by simpa using h2)]
        simp only [List.length_cons]; omega
      · rw [List.filter_cons_of_neg (by simpa using h2)]
        simp only [List.length_cons]; omega

theorem solveE_append (qinv x : Array Int) (l : List Nat) (j : Nat) : solveE qinv x (l ++ [j]) =
    solveE qinv x l ++ if x.g j ≠ 0 ∧ qinv.g j < 0 then [(j, x.g j)] else [] := by
  unfold solveE
  rw [List.filter_append, List.map_append]
  congr 1
  by_cases h : x.g j ≠ 0 ∧ qinv.g j < 0
  · rw [if_pos h, List.filter_cons_of_pos (by simpa using h)]; rfl
  · rw [if_neg h, List.filter_cons_of_neg (by simpa using h)]; rfl

theorem solveT_append (qinv x : Array Int) (l : List Nat) (j : Nat) : solveT qinv x (l ++ [j]) =
    solveT qinv x l ++ if x.g j ≠ 0 ∧ 0 ≤ qinv.g j then [((qinv.g j).toNat, x.g j)] else [] := by
  unfold solveT
  rw [List.filter_append, List.map_append]
  congr 1
  by_cases h : x.g j ≠ 0 ∧ 0 ≤ qinv.g j
  · rw [if_pos h, List.filter_cons_of_pos (by simpa using h)]; rfl
  · rw [if_neg h, List.filter_cons_of_neg (by simpa using h)]; rfl

/-- The search for a pivot. -/
theorem gplu_scan_spec {m : Nat} {w : Dfs} {x qinv : Array Int} (htop : w.top ≤ m)
    (hxj : m ≤ w.xj.size) (hlt : ∀ t, w.top ≤ t → t < m → w.xj.g t < m) (hx : m ≤ x.size)
    (hq : m ≤ qinv.size) (i_orig : Nat) (L : Option Triplet) (lnz : Nat)
    (Z0 : Triplet) (hL : ∀ Z, L = some Z → TGrow Z0 Z lnz i_orig [] ∧ lnz + m ≤ Z.i.size) :
    Ok (gplu_scan m w x qinv i_orig L lnz) (fun s =>
      (∀ e ∈ solveE qinv x (w.list m), s.1 ≤ e.1) ∧
      (s.1 = m ∨ ∃ e ∈ solveE qinv x (w.list m), e.1 = s.1) ∧
      (L = none → s.2.1 = none) ∧
      ∀ Z, L = some Z → ∃ Z', s.2.1 = some Z' ∧
        TGrow Z0 Z' s.2.2 i_orig (solveT qinv x (w.list m)) ∧ Z'.i.size = Z.i.size) := by
  unfold gplu_scan
  refine Ok_forRange_cols' w htop (fun l (s : Nat × Option Triplet × Nat) =>
      (∀ e ∈ solveE qinv x l, s.1 ≤ e.1) ∧
      (s.1 = m ∨ ∃ e ∈ solveE qinv x l, e.1 = s.1) ∧
      (L = none → s.2.1 = none) ∧
      ∀ Z, L = some Z → ∃ Z', s.2.1 = some Z' ∧
        TGrow Z0 Z' s.2.2 i_orig (solveT qinv x l) ∧ Z'.i.size = Z.i.size) ?_ ?_ (fun s h => h)
  · refine ⟨by simp [solveE], Or.inl rfl, fun h => h, ?_⟩
    intro Z hZ
    exact ⟨Z, hZ, (hL Z hZ).1, rfl⟩
  · rintro px l ⟨jp, L', ln⟩ h1 h2 hpre ⟨i1, i2, i3, i4⟩
    simp only at i1 i2 i3 i4
    have hj := hlt px h1 h2
    rw [Ok_bind, Ok_rd]
    refine ⟨by omega, ?_⟩
    rw [Ok_bind, Ok_rd]
    refine ⟨by omega, ?_⟩
    by_cases h3 : x.g (w.xj.g px) = 0
    · rw [if_pos h3, Ok_ok, solveE_append, solveT_append, if_neg (fun h => h.1 h3),
        if_neg (fun h => h.1 h3), List.append_nil, List.append_nil]
      exact ⟨i1, i2, i3, i4⟩
    rw [if_neg h3, Ok_bind, Ok_rd]
    refine ⟨by omega, ?_⟩
    by_cases h4 : qinv.g (w.xj.g px) < 0
    · have h5 : ¬ (x.g (w.xj.g px) ≠ 0 ∧ 0 ≤ qinv.g (w.xj.g px)) := by omega
      rw [if_pos h4, Ok_ok, solveE_append, solveT_append, if_pos ⟨h3, h4⟩, if_neg h5, List.append_nil]
      refine ⟨?_, ?_, i3, i4⟩
      · intro e he
        rw [List.mem_append, List.mem_singleton] at he
        simp only
        rcases he with he | rfl
        · have := i1 e he
          split <;> omega
        · split <;> omega
      · simp only
        split
        · exact Or.inr ⟨_, List.mem_append_right _ (List.mem_singleton.mpr rfl), rfl⟩
        · rcases i2 with i2 | ⟨e, he, he'⟩
          · exact Or.inl i2
          · exact Or.inr ⟨e, List.mem_append_left _ he, he'⟩
    · rw [if_neg h4]
      have h5 : 0 ≤ qinv.g (w.xj.g px) := by omega
      have hE : solveE qinv x (l ++ [w.xj.g px]) = solveE qinv x l := by
        rw [solveE_append, if_neg (fun h => h4 h.2), List.append_nil]
      have hT : solveT qinv x (l ++ [w.xj.g px]) =
          solveT qinv x l ++ [((qinv.g (w.xj.g px)).toNat, x.g (w.xj.g px))] := by
        rw [solveT_append, if_pos ⟨h3, h5⟩]
      cases hL' : L with
      | none =>
        have := i3 hL'
        subst this
        simp only
        rw [Ok_ok, hE]
        exact ⟨i1, i2, fun _ => rfl, fun Z hZ => by cases hZ⟩
      | some Z =>
        obtain ⟨Z', z1, z2, z3⟩ := i4 Z hL'
        subst z1
        simp only
        obtain ⟨z4, z5⟩ := hL Z hL'
        have hlen : (solveT qinv x l).length < m := by
          have e1 := filter_split x qinv (l ++ [w.xj.g px])
          rw [hE, hT, List.length_append, List.length_singleton] at e1
          have e2 := hpre.length_le
          rw [Dfs.length_list] at e2
          omega
        have e3 := z2.lnz_eq
        have e4 := z4.lnz_eq
        rw [List.length_nil] at e4
        rw [Ok_bind, Ok_idx]
        refine ⟨h5, ?_⟩
        rw [Ok_bind]
        refine (z2.store (by omega) _ _).mono ?_
        rintro Z'' ⟨y1, y2⟩
        rw [Ok_ok, hE, hT]
        refine ⟨i1, i2, (fun h => nomatch h), ?_⟩
        intro Z1 hZ1
        cases hZ1
        exact ⟨Z'', rfl, y1, by omega⟩

/-- The new row of `U`. -/
theorem gplu_copy_spec {q : ℕ} {F : Field} (hF : F.Good q) {m : Nat} {w : Dfs} {x qinv : Array Int}
    (htop : w.top ≤ m) (hxj : m ≤ w.xj.size) (hlt : ∀ t, w.top ≤ t → t < m → w.xj.g t < m)
    (hx : m ≤ x.size) (hq : m ≤ qinv.size) {beta : Int} (hb : Small q beta)
    (hbal : ∀ e ∈ solveE qinv x (w.list m), Bal q e.2)
    {U0 U : Csr} {unz : Nat} {l0 : List (Nat × Int)} (hG : Grow U0 U unz l0)
    (hcap : unz + (solveE qinv x (w.list m)).length ≤ U.j.size) :
    Ok (gplu_copy F m w x qinv beta U unz) (fun s => ∃ l', Grow U0 s.1 s.2 (l0 ++ l') ∧
      l'.map Prod.fst = (solveE qinv x (w.list m)).map Prod.fst ∧
      (∀ e ∈ l', Bal q e.2) ∧
      ∀ c, lsum q l' c = beta * lsum q (solveE qinv x (w.list m)) c) := by
  unfold gplu_copy
  refine Ok_forRange_cols' w htop (fun l (s : Csr × Nat) => ∃ l', Grow U0 s.1 s.2 (l0 ++ l') ∧
      l'.map Prod.fst = (solveE qinv x l).map Prod.fst ∧
      (∀ e ∈ l', Bal q e.2) ∧ s.1.j.size = U.j.size ∧
      ∀ c, lsum q l' c = beta * lsum q (solveE qinv x l) c) ?_ ?_ ?_
  · exact ⟨[], by simpa using hG, rfl, by simp, rfl, fun c => by simp [solveE]⟩
  · rintro px l ⟨V, vnz⟩ h1 h2 hpre ⟨l', g1, g2, g3, g4, g5⟩
    simp only at g1 g4
    have hj := hlt px h1 h2
    rw [Ok_bind, Ok_rd]
    refine ⟨by omega, ?_⟩
    rw [Ok_bind, Ok_rd]
    refine ⟨by omega, ?_⟩
    by_cases h3 : x.g (w.xj.g px) = 0
    · rw [if_pos h3, Ok_ok, solveE_append, if_neg (fun h => h.1 h3), List.append_nil]
      exact ⟨l', g1, g2, g3, g4, g5⟩
    rw [if_neg h3, Ok_bind, Ok_rd]
    refine ⟨by omega, ?_⟩
    by_cases h4 : qinv.g (w.xj.g px) < 0
    · rw [if_pos h4]
      have hE : solveE qinv x (l ++ [w.xj.g px]) =
          solveE qinv x l ++ [(w.xj.g px, x.g (w.xj.g px))] := by
        rw [solveE_append, if_pos ⟨h3, h4⟩]
      have hlen : (solveE qinv x l).length + 1 ≤ (solveE qinv x (w.list m)).length := by
        have e1 : (solveE qinv x (l ++ [w.xj.g px])).length ≤ (solveE qinv x (w.list m)).length := by
          unfold solveE
          rw [List.length_map, List.length_map]
          exact filter_le_of_prefix hpre _
        rw [hE, List.length_append, List.length_singleton] at e1
        exact e1
      have hl' : l'.length = (solveE qinv x l).length := by
        have := congrArg List.length g2
        rwa [List.length_map, List.length_map] at this
      have hvlt : vnz < V.j.size := by
        have e1 := g1.unz_eq
        have e2 := hG.unz_eq
        rw [List.length_append] at e1
        omega
      have hmem : (w.xj.g px, x.g (w.xj.g px)) ∈ solveE qinv x (w.list m) := by
        have : w.xj.g px ∈ w.list m := hpre.subset (by simp)
        unfold solveE
        exact List.mem_map.mpr ⟨_, List.mem_filter.mpr ⟨this, by simp [h3, h4]⟩, rfl⟩
      rw [Ok_bind, Ok_setJ]
      refine ⟨hvlt, ?_⟩
      rw [Ok_bind]
      refine mul_zmod hF hb (hbal _ hmem).small ?_
      intro r hr hrz
      rw [Ok_bind]
      refine Ok_setX g1.x_some (by rw [Csr.room_updJ]; exact g1.room hvlt) ?_
      rw [Ok_ok]
      refine ⟨l' ++ [(w.xj.g px, r)], ?_, ?_, ?_, ?_, ?_⟩
      · have := g1.push hvlt (w.xj.g px) r
        rwa [List.append_assoc] at this
      · rw [hE, List.map_append, List.map_append, g2]; rfl
      · intro e he
        rw [List.mem_append, List.mem_singleton] at he
        rcases he with he | rfl
        · exact g3 e he
        · exact hr
      · simpa using g4
      · intro c
        rw [hE, lsum_append, lsum_append, g5, lsum_cons, lsum_nil, lsum_cons, lsum_nil]
        by_cases h : w.xj.g px = c
        · rw [if_pos h, if_pos h, hrz]; ring
        · rw [if_neg h, if_neg h]; ring
    · rw [if_neg h4, Ok_ok, solveE_append, if_neg (fun h => h4 h.2), List.append_nil]
      exact ⟨l', g1, g2, g3, g4, g5⟩
  · rintro s ⟨l', g1, g2, g3, -, g5⟩
    exact ⟨l', g1, g2, g3, g5⟩


theorem gplu_room_spec {U0 : Csr} {unz : Nat} (h : Grow U0 U0 unz []) (jk : Junk) (m : Nat) :
    Ok (gplu_room jk U0 unz m) (fun U => Grow U0 U unz [] ∧ unz + m ≤ U.j.size) := by
  have hc := h.cap
  unfold gplu_room
  split
  · rename_i hgt
    unfold Csr.nzmax at hgt ⊢
    refine (h.realloc jk (k := 2 * U0.j.size + m) (by omega) (by omega)).mono ?_
    rintro V ⟨v1, v2, -, -⟩
    exact ⟨v1, by omega⟩
  · rename_i hgt
    unfold Csr.nzmax at hgt
    rw [Ok_ok]
    exact ⟨h, by omega⟩

theorem gplu_roomL_spec {q : ℕ} (jk : Junk) {L : Option Triplet} {lnz : Nat} (m i : Nat)
    (h : ∀ Z, L = some Z → ({ Z with nz := lnz } : Triplet).WFV q) :
    Ok (gplu_roomL jk L lnz m) (fun L' => (L = none → L' = none) ∧
      ∀ Z, L = some Z → ∃ Z', L' = some Z' ∧ TGrow { Z with nz := lnz } Z' lnz i [] ∧
        lnz + m ≤ Z'.i.size) := by
  unfold gplu_roomL
  cases hL : L with
  | none =>
    simp only
    rw [Ok_ok]
    exact ⟨fun _ => rfl, fun Z hZ => by cases hZ⟩
  | some Z =>
    simp only
    have hT := TGrow.refl (h Z hL) i
    have hc := hT.cap
    split
    · rename_i hgt
      rw [Ok_bind]
      refine (hT.realloc jk (k := 2 * Z.i.size + m) (by omega) (by omega)).mono ?_
      rintro Z' ⟨z1, z2⟩
      rw [Ok_ok]
      refine ⟨(fun hh => nomatch hh), ?_⟩
      intro Z1 hZ1
      cases hZ1
      exact ⟨Z', rfl, z1, by omega⟩
    · rename_i hgt
      rw [Ok_ok]
      refine ⟨(fun hh => nomatch hh), ?_⟩
      intro Z1 hZ1
      cases hZ1
      exact ⟨Z, rfl, hT, by omega⟩

theorem gplu_pivotL_spec {x : Array Int} {i_orig jpiv un : Nat} {L : Option Triplet} {lnz : Nat}
    {Lp : Option (Array Nat)} (hj : jpiv < x.size) (hx : x.g jpiv ≠ 0)
    (hLp : L.isSome = true → ∃ a, Lp = some a ∧ un < a.size) (Z0 : Triplet) (l : List (Nat × Int))
    (hL : ∀ Z, L = some Z → TGrow Z0 Z lnz i_orig l ∧ lnz < Z.i.size) :
    Ok (gplu_pivotL x i_orig jpiv un L lnz Lp) (fun s => (L = none → s.1 = none) ∧
      ∀ Z, L = some Z → ∃ Z' a, s.1 = some Z' ∧
        TGrow Z0 Z' s.2.1 i_orig (l ++ [(un, x.g jpiv)]) ∧ Lp = some a ∧
        s.2.2 = some (a.upd un i_orig)) := by
  unfold gplu_pivotL
  cases hL' : L with
  | none =>
    simp only
    rw [Ok_ok]
    exact ⟨fun _ => rfl, fun Z hZ => by cases hZ⟩
  | some Z =>
    simp only
    obtain ⟨a, ha1, ha2⟩ := hLp (by rw [hL']; rfl)
    obtain ⟨z1, z2⟩ := hL Z hL'
    rw [Ok_bind, Ok_rd]
    refine ⟨hj, ?_⟩
    rw [Ok_bind, Ok_cassert]
    refine ⟨by simpa using hx, ?_⟩
    rw [Ok_bind, ha1, Ok_deref_some, Ok_bind, Ok_wr]
    refine ⟨ha2, ?_⟩
    rw [Ok_bind]
    refine (z1.store z2 _ _).mono ?_
    rintro Z' ⟨y1, y2⟩
    rw [Ok_ok]
    refine ⟨(fun hh => nomatch hh), ?_⟩
    intro Z1 hZ1
    cases hZ1
    exact ⟨Z', a, rfl, y1, rfl, rfl⟩

/-- The state of `L` during the elimination: `L->nz` is only updated at the end. -/
def Gplu.Lcur (s : Gplu) : Option Triplet := s.L.map fun L => { L with nz := s.lnz }

/-- One row is processed. -/
theorem gplu_row_spec {q : ℕ} [Fact q.Prime] (jk : Junk) {A0 A : Csr} (hA : A.WFV q)
    (hm : A.m = A0.m) {p_in : Option (Array Nat)} (hp : PermSize p_in A.n) {r : Nat} (hr : r < A.n)
    {s : Gplu} {v : Nat → Nat → ZMod q} {nr : Nat} {o : Nat → Nat} {old : Nat} {complete : Bool}
    (h : Partial q A0 s.U s.qinv s.Lcur s.Lp v (nr + 1) o old complete)
    (hv : v 0 = A.entry q r) (ho : o 0 = permFun p_in r) (hunz : s.unz = s.U.p.g s.U.n)
    (hw : s.w.Ready A.m) (hx : A.m ≤ s.x.size) :
    Ok (gplu_row jk A p_in r s) (fun s' =>
      Partial q A0 s'.U s'.qinv s'.Lcur s'.Lp (fun t => v (t + 1)) nr (fun t => o (t + 1)) old
        complete ∧ s'.unz = s'.U.p.g s'.U.n ∧ s'.w.Ready A.m ∧ A.m ≤ s'.x.size ∧
      s.U.n ≤ s'.U.n ∧ s'.U.n ≤ s.U.n + 1 ∧ s'.L.isSome = s.L.isSome) := by
  have h0 := h.ech.wfv.toWF
  have hUm : s.U.m = A.m := by rw [h.m_eq, hm]
  have hroom := h.room
  have hps := h.psize
  have hqs := h.ech.size
  have hG0 := Grow.refl h0 h.x_some h.x_size
  rw [← hunz] at hG0
  unfold gplu_row
  simp only
  rw [Ok_bind]
  refine (gplu_room_spec hG0 jk A.m).mono ?_
  rintro U ⟨hG, hUcap⟩
  have hLwf : ∀ Z, s.L = some Z → PartialL q A0 s.U { Z with nz := s.lnz } (permFun s.Lp) v (nr + 1) o
      old complete := fun Z hZ => h.L _ (by simp [Gplu.Lcur, hZ])
  rw [Ok_bind]
  refine (gplu_roomL_spec (q := q) jk A.m (permFun p_in r) (fun Z hZ => (hLwf Z hZ).wfv)).mono ?_
  rintro L1 ⟨l1, l2⟩
  rw [Ok_bind]
  refine permAt_ok hp hr ?_
  have hE := h.ech.of_grow hG
  rw [Ok_bind]
  refine (sparse_solve_parts hA hE (by rw [hG.m_eq]; exact hUm) hr hw hx).mono ?_
  rintro ⟨w, x⟩ ⟨a1, a2, a3, a4, a5, a6⟩
  simp only at a1 a2 a3 a4 a5 a6
  simp only
  rw [Ok_bind]
  obtain ⟨Z0, hZ0⟩ : ∃ Z0 : Triplet, ∀ Z, s.L = some Z → Z0 = { Z with nz := s.lnz } := by
    cases hL : s.L with
    | none => exact ⟨default, fun Z hZ => by cases hZ⟩
    | some Z => exact ⟨_, fun Z1 hZ1 => by cases hZ1; rfl⟩
  have hLsome : ∀ Z1, L1 = some Z1 → ∃ Z, s.L = some Z ∧
      TGrow Z0 Z1 s.lnz (permFun p_in r) [] ∧ s.lnz + A.m ≤ Z1.i.size := by
    intro Z1 hZ1
    cases hL : s.L with
    | none => rw [l1 hL] at hZ1; cases hZ1
    | some Z =>
      obtain ⟨Z', z1, z2, z3⟩ := l2 Z hL
      rw [hZ1] at z1
      cases z1
      exact ⟨Z, rfl, by rw [hZ0 Z hL]; exact z2, z3⟩
  have hqn : A.m ≤ s.qinv.size := by omega
  refine (gplu_scan_spec a2 a1.xs a4 (by omega) hqn (permFun p_in r) L1 s.lnz Z0
    (fun Z1 hZ1 => (hLsome Z1 hZ1).choose_spec.2)).mono ?_
  rintro ⟨jpiv, L2, lnz2⟩ ⟨c1, c2, c3, c4⟩
  simp only at c1 c2 c3 c4
  simp only
  set es := solveE s.qinv x (w.list A.m) with hes
  set ts := solveT s.qinv x (w.list A.m) with hts
  have hentU : ∀ i, i < s.U.n → U.entry q i = s.U.entry q i := fun i hi => hG.entry_eq h0 q hi
  have hUn : U.n = s.U.n := hG.n_eq
  -- the decomposition of the row
  have hdec : ∀ c, v 0 c = lsum q es c + ∑ i ∈ range s.U.n, lsum q ts i * s.U.entry q i c := by
    intro c
    rw [hv]
    by_cases hc : c < A.m
    · rw [a6.eq c hc, hUn]
      congr 1
      exact Finset.sum_congr rfl fun i hi => by rw [hentU i (mem_range.mp hi)]
    · rw [hA.toWF.entry_ge hr (by omega), lsum_map_fst_not_mem, zero_add, Finset.sum_eq_zero]
      · intro i hi
        rw [h0.entry_ge (mem_range.mp hi) (by omega), mul_zero]
      · intro hmem
        obtain ⟨e, he, rfl⟩ := List.mem_map.mp hmem
        have := (a6.es_ok e he).1
        omega
  have hL2 : ∀ Z, s.L = some Z → ∃ Z', L2 = some Z' ∧ TGrow Z0 Z' lnz2 (permFun p_in r) ts ∧
      s.lnz + A.m ≤ Z'.i.size := by
    intro Z hZ
    obtain ⟨Z1, z1, z2, z3⟩ := l2 Z hZ
    obtain ⟨Z', y1, y2, y3⟩ := c4 Z1 z1
    exact ⟨Z', y1, y2, by omega⟩
  have hL2n : s.L = none → L2 = none := fun hh => c3 (l1 hh)
  have hcurn : s.Lcur = none → s.L = none := by
    intro hh; simpa [Gplu.Lcur] using hh
  have hcurs : ∀ Z, s.Lcur = some Z → ∃ Z1, s.L = some Z1 ∧ Z = Z0 := by
    intro Z hZ
    simp only [Gplu.Lcur, Option.map_eq_some_iff] at hZ
    obtain ⟨Z1, z1, z2⟩ := hZ
    exact ⟨Z1, z1, by rw [hZ0 Z1 z1, z2]⟩
  have hZ0L : ∀ Z, s.L = some Z → PartialL q A0 s.U Z0 (permFun s.Lp) v (nr + 1) o old complete := by
    intro Z hZ; rw [hZ0 Z hZ]; exact hLwf Z hZ
  by_cases hjp : jpiv = A.m
  · -- no pivot
    rw [if_pos hjp, Ok_ok]
    have hes0 : es = [] := by
      rw [List.eq_nil_iff_forall_not_mem]
      intro e he
      have e1 := c1 e he
      have e2 := (a6.es_ok e he).1
      omega
    refine ⟨?_, ?_, a1, by show A.m ≤ x.size; omega, by simp only; omega, by simp only; omega, ?_⟩
    · refine h.nopivot hG (ℓ := lsum q ts) ?_ ?_ ?_
      · intro c
        rw [hdec c, hes0, lsum_nil, zero_add]
      · intro hh
        simp only [Gplu.Lcur, hL2n (hcurn hh)]; rfl
      · intro Z hZ
        obtain ⟨Z1, z1, rfl⟩ := hcurs Z hZ
        obtain ⟨Z', y1, y2, -⟩ := hL2 Z1 z1
        have hP := hZ0L Z1 z1
        refine ⟨_, by simp only [Gplu.Lcur, y1]; rfl, ?_⟩
        rw [ho]
        have hlt := hP.rem_lt 0 (by omega)
        have hmge := hP.m_ge
        refine y2.adds hP.wfv (by rw [hP.n_eq, ← ho]; exact hlt) (by omega) ?_ a6.ts_nodup
        intro e he
        have := a6.ts_ok e he
        rw [hUn] at this
        exact this
    · simp only
      rw [hUn, hG.p_eq _ (le_refl _), hunz]
    · simp only
      cases hL : s.L with
      | none => rw [hL2n hL]
      | some Z => obtain ⟨Z', y1, -⟩ := hL2 Z hL; rw [y1]; rfl
  · -- a pivot
    rw [if_neg hjp]
    obtain ⟨e0, he0, he0j⟩ : ∃ e ∈ es, e.1 = jpiv := by
      rcases c2 with c2 | c2
      · exact absurd c2 hjp
      · exact c2
    obtain ⟨b1, b2, b3, b4⟩ := a6.es_ok e0 he0
    rw [he0j] at b1 b2
    have hlists : es.length + ts.length ≤ A.m := by
      have e1 := filter_split x s.qinv (w.list A.m)
      rw [Dfs.length_list, ← hes, ← hts] at e1
      omega
    have heslen : 1 ≤ es.length := List.length_pos_of_mem he0
    have he0x : e0.2 = x.g jpiv := by
      rw [hes] at he0
      unfold solveE at he0
      obtain ⟨j, -, rfl⟩ := List.mem_map.mp he0
      simp only at he0j ⊢
      rw [he0j]
    rw [he0x] at b3 b4
    have hpiv0 : (x.g jpiv : ZMod q) ≠ 0 := fun hz =>
      b4 ((small_eq_zero_iff hA.good.two_le b3.small).mp hz)
    rw [Ok_bind]
    refine (gplu_pivotL_spec (x := x) (jpiv := jpiv) (un := U.n) (L := L2) (lnz := lnz2) (Lp := s.Lp)
      (i_orig := permFun p_in r) (by omega) b4 ?_ Z0 ts ?_).mono ?_
    · intro hs
      have : s.Lcur.isSome = true := by
        cases hL : s.L with
        | none => rw [hL2n hL] at hs; cases hs
        | some Z => simp [Gplu.Lcur, hL]
      obtain ⟨a, ha1, ha2⟩ := h.p_size this
      exact ⟨a, ha1, by omega⟩
    · intro Z' hZ'
      cases hL : s.L with
      | none => rw [hL2n hL] at hZ'; cases hZ'
      | some Z =>
        obtain ⟨Z'', y1, y2, y3⟩ := hL2 Z hL
        rw [hZ'] at y1
        cases y1
        refine ⟨y2, ?_⟩
        have e1 := y2.lnz_eq
        have e2 : Z0.nz = s.lnz := by rw [hZ0 Z hL]
        omega
    rintro ⟨L3, lnz3, Lp3⟩ ⟨d1, d2⟩
    simp only at d1 d2
    simp only
    rw [Ok_bind, Ok_wr]
    refine ⟨by omega, ?_⟩
    rw [Ok_bind, Ok_setJ]
    refine ⟨by omega, ?_⟩
    rw [Ok_bind]
    have hlt : s.unz < U.j.size := by omega
    refine Ok_setX hG.x_some (by rw [Csr.room_updJ]; exact hG.room hlt) ?_
    rw [Ok_bind, Ok_rd]
    refine ⟨by omega, ?_⟩
    rw [Ok_bind, Ok_cassert]
    refine ⟨by simpa using b4, ?_⟩
    rw [Ok_bind]
    refine inverse_zmod hA.good b3.small b4 ?_
    intro beta be1 be2
    have hG1 := hG.push hlt jpiv 1
    rw [List.nil_append] at hG1
    -- the columns copied
    have hsub : solveE (s.qinv.upd jpiv (U.n : Int)) x (w.list A.m) =
        es.filter fun e => decide (e.1 ≠ jpiv) := by
      rw [hes]
      unfold solveE
      rw [List.filter_map, List.filter_filter]
      congr 1
      refine List.filter_congr ?_
      intro j _
      simp only [Function.comp]
      rw [← Bool.decide_and, decide_eq_decide]
      by_cases hj : j = jpiv
      · subst hj
        rw [g_upd_eq _ _ _ (by omega)]
        constructor
        · rintro ⟨-, h2⟩; omega
        · rintro ⟨h1, -⟩; exact absurd rfl h1
      · rw [g_upd_ne _ _ _ _ hj]
        constructor
        · intro h1; exact ⟨hj, h1⟩
        · intro h1; exact h1.2
    rw [Ok_bind]
    refine (gplu_copy_spec hA.good (qinv := s.qinv.upd jpiv (U.n : Int)) a2 a1.xs a4 (by omega)
      (by simpa using hqn) be1.small ?_ hG1 ?_).mono ?_
    · intro e he
      rw [hsub] at he
      exact (a6.es_ok e (List.mem_filter.mp he).1).2.2.1
    · rw [hsub]
      have e1 : (es.filter fun e => decide (e.1 ≠ jpiv)).length < es.length :=
        List.length_filter_lt_length_iff_exists.mpr ⟨e0, he0, by simp [he0j]⟩
      simp only [Csr.j_updX, Csr.j_updJ, size_upd]
      refine le_trans (Nat.add_le_add_left (Nat.le_sub_one_of_lt e1) _) ?_
      omega
    rintro ⟨V, vnz⟩ ⟨l', g1, g2, g3, g4⟩
    rw [hsub] at g2 g4
    simp only at g1
    simp only
    rw [Ok_bind, Ok_setP]
    refine ⟨by rw [g1.psize, g1.n_eq]; omega, ?_⟩
    rw [Ok_ok]
    rw [List.singleton_append] at g1
    have hps' : s.U.n + 1 < s.U.p.size := by omega
    obtain ⟨n1, n2, -, -, -, -, -, n8, -, -, -⟩ := g1.ents h0 rfl hps'
    have hlmem : ∀ e ∈ l', e.1 ∈ (es.filter fun e => decide (e.1 ≠ jpiv)).map Prod.fst := by
      intro e he
      rw [← g2]
      exact List.mem_map.mpr ⟨e, he, rfl⟩
    have hlprop : ∀ e ∈ l', e.1 < A.m ∧ s.qinv.g e.1 < 0 ∧ e.1 ≠ jpiv := by
      intro e he
      obtain ⟨f, hf, hfe⟩ := List.mem_map.mp (hlmem e he)
      rw [List.mem_filter] at hf
      obtain ⟨f1, f2, -⟩ := a6.es_ok f hf.1
      rw [hfe] at f1 f2
      have f3 : f.1 ≠ jpiv := of_decide_eq_true hf.2
      exact ⟨f1, f2, by rw [← hfe]; exact f3⟩
    have hnew : ∀ c, (x.g jpiv : ZMod q) * lsum q ((jpiv, 1) :: l') c = lsum q es c := by
      intro c
      rw [lsum_cons]
      by_cases hc : jpiv = c
      · subst hc
        rw [if_pos rfl, lsum_map_fst_not_mem (l := l'), add_zero]
        · rw [← he0j, lsum_of_mem_nodup a6.es_nodup he0, he0j, he0x]; push_cast; ring
        · intro hmem
          obtain ⟨e, he, he'⟩ := List.mem_map.mp hmem
          exact (hlprop e he).2.2 he'
      · rw [if_neg hc, zero_add, g4, be2, mul_inv_cancel_left₀ hpiv0]
        have : ∀ l : List (Nat × Int), lsum q (l.filter fun e => decide (e.1 ≠ jpiv)) c =
            lsum q l c := by
          intro l
          induction l with
          | nil => rfl
          | cons a l ih =>
            by_cases ha : a.1 = jpiv
            · rw [List.filter_cons_of_neg (by simpa using ha), ih, lsum_cons, if_neg (by omega), zero_add]
            · rw [List.filter_cons_of_pos (by simpa using ha), lsum_cons, lsum_cons, ih]
        exact this es
    set ℓ : Nat → ZMod q := lsum q (ts ++ [(s.U.n, x.g jpiv)]) with hℓ
    have htslt : ∀ e ∈ ts, e.1 < s.U.n := by
      intro e he
      have := (a6.ts_ok e he).1
      omega
    have hℓn : ℓ s.U.n = (x.g jpiv : ZMod q) := by
      rw [hℓ, lsum_append, lsum_cons, lsum_nil, if_pos rfl, lsum_map_fst_not_mem]
      · ring
      · intro hmem
        obtain ⟨e, he, he'⟩ := List.mem_map.mp hmem
        have := htslt e he
        omega
    have hℓlt : ∀ k, k < s.U.n → ℓ k = lsum q ts k := by
      intro k hk
      rw [hℓ, lsum_append, lsum_cons, lsum_nil, if_neg (by simp only; omega)]; ring
    have hcl : (l'.map Prod.fst).Nodup ∧ ∀ e ∈ l', e.2 ≠ 0 := by
      have hfd : ((es.filter fun e => decide (e.1 ≠ jpiv)).map Prod.fst).Nodup :=
        a6.es_nodup.sublist (List.filter_sublist.map _)
      have hld : (l'.map Prod.fst).Nodup := by rw [g2]; exact hfd
      refine ⟨hld, fun e he h0 => ?_⟩
      obtain ⟨f, hf, hfe⟩ := List.mem_map.mp (hlmem e he)
      have e1 := g4 e.1
      rw [lsum_of_mem_nodup hld he, ← hfe, lsum_of_mem_nodup hfd hf, h0, Int.cast_zero] at e1
      obtain ⟨-, -, f1, f2⟩ := a6.es_ok f (List.mem_filter.mp hf).1
      rcases mul_eq_zero.mp e1.symm with e2 | e2
      · rw [be2] at e2
        exact inv_ne_zero hpiv0 e2
      · exact f2 ((small_eq_zero_iff hA.good.two_le f1.small).mp e2)
    have hpar := h.pivot (ℓ := ℓ) (L' := L3.map fun L => { L with nz := lnz3 }) (Lp' := Lp3)
      g1 (by omega) b2 ?_ hcl rfl ?_ ?_ ?_ ?_
    · rw [hUn]
      refine ⟨hpar.1, ?_, a1, by show A.m ≤ x.size; omega, by simp only [n1]; omega,
        by simp only [n1]; omega, ?_⟩
      · simp only
        rw [n1, n8]
      · simp only
        cases hL : s.L with
        | none => rw [d1 (hL2n hL)]
        | some Z =>
          obtain ⟨Z', y1, -⟩ := hL2 Z hL
          obtain ⟨Z'', a, t1, -⟩ := d2 Z' y1
          rw [t1]; rfl
    · intro e he
      obtain ⟨f1, f2, f3⟩ := hlprop e he
      exact ⟨by omega, (g3 e he).small, f2, f3⟩
    · intro c
      rw [hdec c, hℓn, hnew c, add_comm]
      congr 1
      exact Finset.sum_congr rfl fun k hk => by rw [hℓlt k (mem_range.mp hk)]
    · rw [hℓn]; exact hpiv0
    · intro hh
      rw [d1 (hL2n (hcurn hh))]; rfl
    · intro Z hZ
      obtain ⟨Z1, z1, rfl⟩ := hcurs Z hZ
      obtain ⟨Z', y1, -, -⟩ := hL2 Z1 z1
      obtain ⟨Z'', a, t1, t2, t3, t4⟩ := d2 Z' y1
      have hP := hZ0L Z1 z1
      have hlt := hP.rem_lt 0 (by omega)
      have hmge := hP.m_ge
      rw [hUn] at t2 t4
      refine ⟨_, a, by rw [t1]; rfl, ?_, t3, by rw [ho]; exact t4⟩
      rw [ho]
      refine t2.adds hP.wfv (by rw [hP.n_eq, ← ho]; exact hlt) (by omega) ?_ ?_
      · intro e he
        rw [List.mem_append, List.mem_singleton] at he
        rcases he with he | rfl
        · have := a6.ts_ok e he
          exact ⟨by have := htslt e he; omega, this.2⟩
        · exact ⟨by simp only; omega, b3, b4⟩
      · rw [List.map_append]
        refine List.Nodup.append a6.ts_nodup (by simp) ?_
        intro c hc1 hc2
        obtain ⟨e, he, rfl⟩ := List.mem_map.mp hc1
        simp only [List.map_cons, List.map_nil, List.mem_singleton] at hc2
        have := htslt e he
        omega


theorem Gplu.Lcur_eq (s : Gplu) (h : ∀ Z, s.L = some Z → s.lnz = Z.nz) : s.Lcur = s.L := by
  unfold Gplu.Lcur
  cases hL : s.L with
  | none => rfl
  | some Z => rw [h Z hL]; rfl

/-- The whole elimination, whatever the outcomes `Tc` of the test: the rows that are not processed
remain. -/
theorem gplu_gen {q : ℕ} [Fact q.Prime] (jk : Junk) {A0 A : Csr} (hA : A.WFV q) (hm : A.m = A0.m)
    {p_in : Option (Array Nat)} (hp : PermSize p_in A.n) {p : Array Nat} {n : Nat}
    (hps : n ≤ p.size) (hpn : ∀ k, k < n → p.g k < A.n) {fact : Lu} {tc : Csr → Array Int → C Bool}
    {old : Nat} {complete : Bool}
    (h : Partial q A0 fact.U fact.qinv fact.Ltmp fact.p (fun t => A.entry q (p.g t)) n
      (fun t => permFun p_in (p.g t)) old complete) {Tc : Csr → Array Int → Prop}
    (htc : fact.Ltmp = none → ∀ U qinv, Echelon q U qinv → U.m = A.m →
      Ok (tc U qinv) (fun b => b = true → Tc U qinv)) :
    Ok (gplu jk A p n p_in fact tc) (fun f => ∃ L i,
      f.Ltmp = L.map (fun Z => { Z with m := f.U.n }) ∧ i ≤ n ∧
      Partial q A0 f.U f.qinv L f.p (fun t => A.entry q (p.g (t + i))) (n - i)
        (fun t => permFun p_in (p.g (t + i))) old complete ∧ fact.U.n ≤ f.U.n ∧ f.U.n ≤ fact.U.n + i ∧
      L.isSome = fact.Ltmp.isSome ∧ f.r = fact.r ∧ f.complete = fact.complete ∧ f.L = fact.L ∧
      (i = n ∨ (fact.Ltmp = none ∧ L = none ∧ (f.U.n = min A.n A.m ∨ Tc f.U f.qinv)))) := by
  have h0 := h.ech.wfv.toWF
  have hps0 := h.psize
  have hroom := h.room
  unfold gplu
  simp only
  unfold nnz
  rw [Ok_bind, Ok_rd]
  refine ⟨by omega, ?_⟩
  rw [Ok_bind]
  refine (Ok_forBrk (I := fun i (s : Gplu) =>
      Partial q A0 s.U s.qinv s.Lcur s.Lp (fun t => A.entry q (p.g (t + i))) (n - i)
        (fun t => permFun p_in (p.g (t + i))) old complete ∧
      s.unz = s.U.p.g s.U.n ∧ s.w.Ready A.m ∧ A.m ≤ s.x.size ∧ fact.U.n ≤ s.U.n ∧
      s.U.n ≤ fact.U.n + i ∧ s.L.isSome = fact.Ltmp.isSome)
    (B := fun i (s : Gplu) => Partial q A0 s.U s.qinv s.Lcur s.Lp (fun t => A.entry q (p.g (t + i))) (n - i)
        (fun t => permFun p_in (p.g (t + i))) old complete ∧
      fact.U.n ≤ s.U.n ∧ s.U.n ≤ fact.U.n + i ∧ s.L.isSome = fact.Ltmp.isSome ∧ fact.Ltmp = none ∧
      (s.U.n = min A.n A.m ∨ Tc s.U s.qinv)) (by omega) ?_ ?_).mono ?_
  · refine ⟨?_, rfl, ?_, by simp, le_refl _, le_refl _, rfl⟩
    · rw [Gplu.Lcur_eq _ (fun Z hZ => by simp only at hZ ⊢; rw [hZ])]
      exact h
    · refine ⟨by simp, by simp, by simp, ?_⟩
      intro j hj
      rw [g_mkArr _ _ _ hj]
  · rintro i s - hi ⟨i1, i2, i3, i4, i5, i6, i7⟩
    have hUm : s.U.m = A.m := by rw [i1.m_eq, hm]
    have hnone : s.L.isNone = true → fact.Ltmp = none ∧ s.Lcur = none := by
      intro hn
      rw [Option.isNone_iff_eq_none] at hn
      refine ⟨?_, by simp [Gplu.Lcur, hn]⟩
      rw [hn] at i7
      cases hL : fact.Ltmp with
      | none => rfl
      | some Z => rw [hL] at i7; cases i7
    have hstep : ∀ s1 : Gplu, s1.U = s.U → s1.qinv = s.qinv → s1.L = s.L → s1.lnz = s.lnz →
        s1.Lp = s.Lp → s1.unz = s.unz → s1.w = s.w → s1.x = s.x →
        Ok (do
          let inew ← rd p i
          let s ← gplu_row jk A p_in inew s1
          .ok (Step.cont s) : C (Step Gplu)) (fun r => match r with
            | .cont s => Partial q A0 s.U s.qinv s.Lcur s.Lp
                (fun t => A.entry q (p.g (t + (i + 1)))) (n - (i + 1))
                (fun t => permFun p_in (p.g (t + (i + 1)))) old complete ∧
              s.unz = s.U.p.g s.U.n ∧ s.w.Ready A.m ∧ A.m ≤ s.x.size ∧ fact.U.n ≤ s.U.n ∧
              s.U.n ≤ fact.U.n + (i + 1) ∧ s.L.isSome = fact.Ltmp.isSome
            | .brk _ => False) := by
      intro s1 k1 k2 k3 k4 k5 k6 k7 k8
      have hcur : s1.Lcur = s.Lcur := by unfold Gplu.Lcur; rw [k3, k4]
      obtain ⟨nr, hnr⟩ : ∃ nr, n - i = nr + 1 := ⟨n - i - 1, by omega⟩
      rw [hnr] at i1
      rw [Ok_bind, Ok_rd]
      refine ⟨by omega, ?_⟩
      rw [Ok_bind]
      refine (gplu_row_spec jk hA hm hp (hpn i hi) (s := s1) (v := fun t => A.entry q (p.g (t + i)))
        (nr := nr) (o := fun t => permFun p_in (p.g (t + i))) (old := old) (complete := complete)
        (by rw [k1, k2, hcur, k5]; exact i1) (by simp) (by simp) (by rw [k6, k1]; exact i2)
        (by rw [k7]; exact i3) (by rw [k8]; exact i4)).mono ?_
      rintro s' ⟨r1, r2, r3, r4, r5, r6, r7⟩
      rw [Ok_ok]
      rw [k1] at r5 r6
      refine ⟨?_, r2, r3, r4, by omega, by omega, by rw [r7, k3]; exact i7⟩
      have e : n - (i + 1) = nr := by omega
      rw [e]
      refine r1.rename ?_ ?_
      · intro t ht
        have : t + (i + 1) = t + 1 + i := by omega
        rw [this]
      · intro t ht
        have : t + (i + 1) = t + 1 + i := by omega
        rw [this]
    by_cases hb1 : s.L.isNone = true ∧ s.U.n = min A.n A.m
    · rw [if_pos hb1, Ok_ok]
      exact ⟨i1, i5, i6, i7, (hnone hb1.1).1, .inl hb1.2⟩
    · rw [if_neg hb1, Ok_bind]
      by_cases ht : s.L.isNone = true ∧ s.done = false ∧ s.since > 10 ∧ s.since > n / 100
      · rw [decide_eq_true ht]
        unfold gplu_test
        rw [if_pos rfl]
        obtain ⟨e1, e2⟩ := hnone ht.1
        refine (htc e1 s.U s.qinv i1.ech hUm).mono ?_
        intro b hb
        by_cases hc : b = true
        · rw [if_pos hc, Ok_ok]
          exact ⟨i1, i5, i6, i7, e1, .inr (hb hc)⟩
        · rw [if_neg hc, if_pos rfl]
          refine (hstep { s with done := true } rfl rfl rfl rfl rfl rfl rfl rfl).mono ?_
          rintro (s' | s') hs
          · exact hs
          · exact hs.elim
      · rw [decide_eq_false ht]
        unfold gplu_test
        rw [if_neg (fun hh => nomatch hh), Ok_ok, if_neg (fun hh => nomatch hh),
          if_neg (fun hh => nomatch hh)]
        refine (hstep s rfl rfl rfl rfl rfl rfl rfl rfl).mono ?_
        rintro (s' | s') hs
        · exact hs
        · exact hs.elim
  · rintro ⟨k, s⟩ hks
    have hfin : ∀ i, i ≤ n → Partial q A0 s.U s.qinv s.Lcur s.Lp (fun t => A.entry q (p.g (t + i))) (n - i)
          (fun t => permFun p_in (p.g (t + i))) old complete ∧
        fact.U.n ≤ s.U.n ∧ s.U.n ≤ fact.U.n + i ∧ s.L.isSome = fact.Ltmp.isSome ∧
        (i = n ∨ (fact.Ltmp = none ∧ (s.U.n = min A.n A.m ∨ Tc s.U s.qinv))) →
        Ok (.ok ⟨fact.r, fact.complete, fact.L, s.U, s.qinv, s.Lp,
            s.L.map (fun Z => { Z with nz := s.lnz, m := s.U.n })⟩ : C Lu) (fun f => ∃ L i,
          f.Ltmp = L.map (fun Z => { Z with m := f.U.n }) ∧ i ≤ n ∧
          Partial q A0 f.U f.qinv L f.p (fun t => A.entry q (p.g (t + i))) (n - i)
            (fun t => permFun p_in (p.g (t + i))) old complete ∧ fact.U.n ≤ f.U.n ∧
          f.U.n ≤ fact.U.n + i ∧
          L.isSome = fact.Ltmp.isSome ∧ f.r = fact.r ∧ f.complete = fact.complete ∧ f.L = fact.L ∧
          (i = n ∨ (fact.Ltmp = none ∧ L = none ∧ (f.U.n = min A.n A.m ∨ Tc f.U f.qinv)))) := by
      rintro i hi ⟨j1, j2, j3, j4, j5⟩
      rw [Ok_ok]
      refine ⟨s.Lcur, i, ?_, hi, j1, j2, j3, ?_, rfl, rfl, rfl, j5.imp id fun j => ⟨j.1, ?_, j.2⟩⟩
      · simp only [Gplu.Lcur, Option.map_map]
        rfl
      · rw [← j4]; simp [Gplu.Lcur]
      · rw [j.1] at j4
        cases hL : s.L with
        | none => simp [Gplu.Lcur, hL]
        | some Z => rw [hL] at j4; cases j4
    rcases hks with ⟨hk1, hk2, i1, i5, i6, i7, i8, i9⟩ | ⟨hk, i1, -, -, -, i5, i6, i7⟩
    · exact hfin k (by simp only at hk2; omega) ⟨i1, i5, i6, i7, .inr ⟨i8, i9⟩⟩
    · exact hfin n (le_refl _) ⟨i1, i5, i6, i7, .inl rfl⟩

/-- The whole elimination. -/
theorem gplu_spec {q : ℕ} [Fact q.Prime] (jk : Junk) {A0 A : Csr} (hA : A.WFV q) (hm : A.m = A0.m)
    {p_in : Option (Array Nat)} (hp : PermSize p_in A.n) {p : Array Nat} {n : Nat}
    (hps : n ≤ p.size) (hpn : ∀ k, k < n → p.g k < A.n) {fact : Lu} {tc : Csr → Array Int → C Bool}
    {old : Nat} {complete : Bool}
    (h : Partial q A0 fact.U fact.qinv fact.Ltmp fact.p (fun t => A.entry q (p.g t)) n
      (fun t => permFun p_in (p.g t)) old complete)
    (hrank : fact.Ltmp = none → A.m ≤ A.n ∨ fact.U.n + n ≤ A.n ∨ ∀ U qinv, Echelon q U qinv →
      U.rowSpace q ≤ A0.rowSpace q → U.n = A.n → U.rowSpace q = A0.rowSpace q)
    (htc : fact.Ltmp = none → ∀ U qinv, Echelon q U qinv → U.m = A.m →
      Ok (tc U qinv) (fun b => b = true → ∀ t, t < n → A.entry q (p.g t) ∈ U.rowSpace q)) :
    Ok (gplu jk A p n p_in fact tc) (fun f => ∃ L v o,
      f.Ltmp = L.map (fun Z => { Z with m := f.U.n }) ∧
      Partial q A0 f.U f.qinv L f.p v 0 o old complete ∧ fact.U.n ≤ f.U.n ∧
      L.isSome = fact.Ltmp.isSome ∧ f.r = fact.r ∧ f.complete = fact.complete ∧ f.L = fact.L) := by
  refine (gplu_gen jk hA hm hp hps hpn h
    (Tc := fun U _ => ∀ t, t < n → A.entry q (p.g t) ∈ U.rowSpace q) htc).mono ?_
  rintro f ⟨L, i, h1, h2, h3, h4, h5, h6, h7, h8, h9, h10⟩
  by_cases hin : i = n
  · subst hin
    rw [Nat.sub_self] at h3
    exact ⟨L, _, _, h1, h3, h4, h6, h7, h8, h9⟩
  obtain ⟨e1, rfl, e3⟩ := h10.resolve_left hin
  refine ⟨none, fun _ _ => 0, id, h1, h3.finish ?_ _ _, h4, h6, h7, h8, h9⟩
  intro t ht
  rcases e3 with e3 | e3
  · by_cases hc : f.U.n = f.U.m
    · refine h3.ech.full hc ?_
      intro c hc
      have := h3.m_eq
      exact hA.toWF.entry_ge (hpn _ (by omega)) (by omega)
    · have h1 := h3.ech.n_le
      have h2 := h3.m_eq
      have h5 := h3.room
      rcases hrank e1 with e4 | e4 | e4
      · omega
      · omega
      · rw [e4 f.U f.qinv h3.ech (by rw [← h3.span]; exact le_sup_left) (by omega), ← h3.span]
        exact Submodule.mem_sup_right (mem_spanOf (f := fun t => A.entry q (p.g (t + i))) ht)
  · exact e3 (t + i) (by omega)

end Spasm
