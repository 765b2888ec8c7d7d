import Verif.Proofs.Submatrix
import Verif.Proofs.Lu
import Verif.Proofs.Compress

/-
Appending rows to `U`.
-/

namespace Spasm

open Finset

/-- `U` is being extended: the rows of `U0` are intact, and positions `nnz U0, ..., unz - 1` contain
the entries `l` of a row under construction. -/
structure Grow (U0 U : Csr) (unz : Nat) (l : List (Nat × Int)) : Prop where
  n_eq : U.n = U0.n
  m_eq : U.m = U0.m
  F_eq : U.F = U0.F
  psize : U.p.size = U0.p.size
  p_eq : ∀ i, i ≤ U0.n → U.p.g i = U0.p.g i
  old : ∀ k, k < U0.p.g U0.n → U.ent k = U0.ent k
  unz_eq : unz = U0.p.g U0.n + l.length
  cap : unz ≤ U.j.size
  x_some : U.x.isSome = true
  x_size : ∀ a, U.x = some a → U.j.size ≤ a.size
  new : U.seg (U0.p.g U0.n) unz = l

theorem Grow.room {U0 U : Csr} {unz : Nat} {l : List (Nat × Int)} (h : Grow U0 U unz l) {k : Nat}
    (hk : k < U.j.size) : U.Room k := fun a ha => Nat.lt_of_lt_of_le hk (h.x_size a ha)

/-- Nothing added yet. -/
theorem Grow.refl {U : Csr} (hU : U.WF) (hx : U.x.isSome = true)
    (hs : ∀ a, U.x = some a → U.j.size ≤ a.size) : Grow U U (U.p.g U.n) [] :=
  ⟨rfl, rfl, rfl, rfl, fun _ _ => rfl, fun _ _ => rfl, rfl, hU.p_nnz, hx, hs, Csr.seg_self _ _⟩

/-- One more entry. -/
theorem Grow.push {U0 U : Csr} {unz : Nat} {l : List (Nat × Int)} (h : Grow U0 U unz l)
    (hk : unz < U.j.size) (c : Nat) (v : Int) :
    Grow U0 ((U.updJ unz c).updX unz v) (unz + 1) (l ++ [(c, v)]) := by
  have hu := h.unz_eq
  refine ⟨h.n_eq, h.m_eq, h.F_eq, h.psize, h.p_eq, ?_, ?_, ?_, ?_, ?_, ?_⟩
  · intro k hk'
    rw [Csr.ent_upd_ne _ _ _ _ _ (by omega)]
    exact h.old k hk'
  · rw [List.length_append, List.length_singleton]; omega
  · simp only [Csr.j_updX, Csr.j_updJ, size_upd]; omega
  · rw [Csr.isSome_updX]; exact h.x_some
  · intro a ha
    simp only [Csr.j_updX, Csr.j_updJ, size_upd]
    obtain ⟨b, hb⟩ := Option.isSome_iff_exists.mp h.x_some
    have := h.x_size b hb
    simp only [Csr.updX, Csr.updJ, hb, Option.map_some, Option.some.injEq] at ha
    rw [← ha, size_upd]; exact this
  · rw [Csr.seg_upd_push U (by omega) hk (h.room hk), h.new, if_pos h.x_some]

/-- Reallocation to a larger size. -/
theorem Grow.realloc {U0 U : Csr} {unz : Nat} {l : List (Nat × Int)} (h : Grow U0 U unz l)
    (jk : Junk) {k : Nat} (hk : unz ≤ k) (hk0 : 0 < k ∨ jk.null0 = false) :
    Ok (csr_realloc jk U (k : Int)) (fun V => Grow U0 V unz l ∧ V.j.size = k ∧
      V.n = U.n ∧ V.p = U.p) := by
  have hu := h.unz_eq
  obtain ⟨b, hb⟩ := Option.isSome_iff_exists.mp h.x_some
  have hbs := h.x_size b hb
  have hcap := h.cap
  unfold csr_realloc
  have hneg : ¬ ((k : Int) < 0) := by omega
  rw [if_neg hneg]
  simp only [Ok_bind, Ok_ok, Int.toNat_natCast]
  have hno : ¬ (k = 0 ∧ jk.null0 = true) := by
    rintro ⟨h1, h2⟩; rcases hk0 with h | h
    · omega
    · rw [h] at h2; cases h2
  rw [if_neg hno]
  have hent : ∀ t, t < unz → ({ U with
      j := reallocArr U.j k jk.nat, x := U.x.map (fun a => reallocArr a k jk.int) } : Csr).ent t =
      U.ent t := by
    intro t ht
    simp only [Csr.ent, Csr.val, hb, Option.map_some]
    rw [g_reallocArr _ _ _ _ (by omega) (by omega), g_reallocArr _ _ _ _ (by omega) (by omega)]
  refine ⟨⟨h.n_eq, h.m_eq, h.F_eq, h.psize, h.p_eq, ?_, hu, ?_, ?_, ?_, ?_⟩, ?_, trivial, trivial⟩
  · intro t ht
    rw [hent t (by omega)]; exact h.old t ht
  · simpa using hk
  · simp [hb]
  · intro a ha
    simp only [hb, Option.map_some, Option.some.injEq] at ha
    rw [← ha]; simp
  · rw [← h.new]
    exact Csr.seg_congr fun t _ ht => hent t ht
  · simp

/-- The row is complete. -/
theorem Grow.ents {U0 U : Csr} {unz : Nat} {l : List (Nat × Int)} (h : Grow U0 U unz l)
    (h0 : U0.WF) {U' : Csr} (hU' : U' = ({ U with n := U.n + 1 }.updP (U.n + 1) unz))
    (hps : U0.n + 1 < U0.p.size) :
    U'.n = U0.n + 1 ∧ U'.m = U0.m ∧ U'.F = U0.F ∧ U'.p.size = U0.p.size ∧ U'.j = U.j ∧ U'.x = U.x ∧
    (∀ i, i ≤ U0.n → U'.p.g i = U0.p.g i) ∧ U'.p.g (U0.n + 1) = unz ∧
    (∀ k, k < U0.p.g U0.n → U'.ent k = U0.ent k) ∧
    (∀ i, i < U0.n → U'.row i = U0.row i) ∧ U'.row U0.n = l := by
  subst hU'
  have hn := h.n_eq
  have e1 : ∀ i, i ≤ U0.n → (({ U with n := U.n + 1 } : Csr).updP (U.n + 1) unz).p.g i = U0.p.g i := by
    intro i hi
    rw [Csr.p_updP, g_upd_ne _ _ _ _ (by omega)]
    exact h.p_eq i hi
  have e2 : (({ U with n := U.n + 1 } : Csr).updP (U.n + 1) unz).p.g (U0.n + 1) = unz := by
    rw [Csr.p_updP, hn, g_upd_eq _ _ _ (by rw [h.psize]; exact hps)]
  have e3 : ∀ k, k < U0.p.g U0.n →
      (({ U with n := U.n + 1 } : Csr).updP (U.n + 1) unz).ent k = U0.ent k := h.old
  refine ⟨by simp [hn], h.m_eq, h.F_eq, by simp [h.psize], rfl, rfl, e1, e2, e3, ?_, ?_⟩
  · intro i hi
    unfold Csr.row
    rw [e1 i (by omega), e1 (i + 1) (by omega)]
    have := h0.row_le hi
    exact Csr.seg_congr fun k _ hk => e3 k (by omega)
  · unfold Csr.row
    rw [e1 _ (le_refl _), e2]
    exact h.new

/-- The new row extends the echelon form. -/
theorem Echelon.grow {q : ℕ} {U0 U : Csr} {qinv : Array Int} (hE : Echelon q U0 qinv)
    {unz : Nat} {j : Nat} {l : List (Nat × Int)} (h : Grow U0 U unz ((j, 1) :: l))
    (hps : U0.n + 1 < U0.p.size) (hj : j < U0.m) (hqj : qinv.g j < 0)
    (hl : ∀ e ∈ l, e.1 < U0.m ∧ Small q e.2 ∧ qinv.g e.1 < 0 ∧ e.1 ≠ j)
    {U' : Csr} (hU' : U' = ({ U with n := U.n + 1 }.updP (U.n + 1) unz)) :
    Echelon q U' (qinv.upd j (U0.n : Int)) ∧ Grow U' U' unz [] := by
  have h0 := hE.wfv.toWF
  obtain ⟨a1, a2, a3, a4, a5, a6, a7, a8, a9, a10, a11⟩ := h.ents h0 hU' hps
  have hu := h.unz_eq
  rw [List.length_cons] at hu
  have hs := hE.size
  have hcap := h.cap
  -- positions of the new row
  have hnewent : ∀ k, U0.p.g U0.n ≤ k → k < unz → U'.ent k ∈ (j, (1 : Int)) :: l := by
    intro k h1 h2
    rw [← a11]
    unfold Csr.row
    exact Csr.mem_seg.mpr ⟨k, by rw [a7 _ (le_refl _)]; exact h1, by rw [a8]; exact h2, rfl⟩
  have hlen : unz - U0.p.g U0.n = l.length + 1 := by omega
  have hseg : U'.seg (U0.p.g U0.n) unz = (j, 1) :: l := by
    have := a11; unfold Csr.row at this; rwa [a7 _ (le_refl _), a8] at this
  have hsplit : U'.ent (U0.p.g U0.n) = (j, 1) ∧ U'.seg (U0.p.g U0.n + 1) unz = l := by
    have h2 := U'.seg_append (lo := U0.p.g U0.n) (mid := U0.p.g U0.n + 1) (hi := unz) (by omega) (by omega)
    rw [hseg, U'.seg_succ (le_refl _), U'.seg_self, List.nil_append] at h2
    have h3 : U'.ent (U0.p.g U0.n) :: U'.seg (U0.p.g U0.n + 1) unz = (j, 1) :: l := h2
    rw [List.cons.injEq] at h3
    exact h3
  have hfirst := hsplit.1
  have hrest : ∀ k, U0.p.g U0.n < k → k < unz → U'.ent k ∈ l := by
    intro k h1 h2
    rw [← hsplit.2]
    exact Csr.mem_seg.mpr ⟨k, by omega, h2, rfl⟩
  have hjold : ∀ k, k < U0.p.g U0.n → U'.j.g k = U0.j.g k := fun k hk => congrArg Prod.fst (a9 k hk)
  have hvold : ∀ k, k < U0.p.g U0.n → U'.val k = U0.val k := fun k hk => congrArg Prod.snd (a9 k hk)
  have hpiv : ∀ i, i < U0.n → U'.pivot i = U0.pivot i := by
    intro i hi
    unfold Csr.pivot
    rw [a7 i (by omega)]
    exact hjold _ (h0.row_lt hi (hE.ne i hi))
  have hpivn : U'.pivot U0.n = j := by
    unfold Csr.pivot
    rw [a7 _ (le_refl _)]
    exact congrArg Prod.fst hfirst
  have hin : ∀ i, i < U0.n → ∀ c, U'.InRow i c ↔ U0.InRow i c := by
    intro i hi c
    rw [Csr.inRow_iff, Csr.inRow_iff, a10 i hi]
  have hsm : ∀ k, k < unz → U'.j.g k < U0.m ∧ Small q (U'.val k) := by
    intro k hk
    by_cases hk' : k < U0.p.g U0.n
    · rw [hjold k hk', hvold k hk']
      exact ⟨h0.j_lt k hk', hE.wfv.small k hk'⟩
    · have := hnewent k (by omega) hk
      rcases List.mem_cons.mp this with e | e
      · have e1 : U'.j.g k = j := congrArg Prod.fst e
        have e2 : U'.val k = 1 := congrArg Prod.snd e
        rw [e1, e2]
        exact ⟨hj, small_one hE.wfv.good.two_le⟩
      · have := hl _ e
        exact ⟨this.1, this.2.1⟩
  have hwf : U'.WF := by
    refine ⟨by omega, ?_, ?_, ?_, ?_, ?_, ?_⟩
    · rw [a7 0 (Nat.zero_le _)]; exact h0.p_zero
    · intro i hi
      rw [a1] at hi
      by_cases hi' : i = U0.n
      · rw [hi', a8, a7 _ (le_refl _)]; omega
      · rw [a7 i (by omega), a7 (i + 1) (by omega)]; exact h0.p_mono i (by omega)
    · rw [a1, a8, a5]; exact hcap
    · rw [a1, a8, a2]; exact fun k hk => (hsm k hk).1
    · rw [a1, a8, a6]
      intro a ha
      exact le_trans hcap (h.x_size a ha)
    · rw [a3]; exact h0.field_ok
  have hwfv : U'.WFV q := by
    refine ⟨hwf, by rw [a3]; exact hE.wfv.good, fun _ => by rw [a6]; exact h.x_some, ?_⟩
    rw [a1, a8]; exact fun k hk => (hsm k hk).2
  refine ⟨⟨hwfv, ?_, ?_, ?_, ?_, ?_, ?_, ?_, ?_, ?_⟩, ?_⟩
  · rw [size_upd, a2]; exact hs
  · intro c hc
    rw [a2] at hc
    by_cases hcj : c = j
    · rw [hcj, g_upd_eq _ _ _ (by omega)]; omega
    · rw [g_upd_ne _ _ _ _ hcj]; exact hE.ge c hc
  · intro c hc
    rw [a2] at hc
    rw [a1]
    by_cases hcj : c = j
    · rw [hcj, g_upd_eq _ _ _ (by omega)]; omega
    · rw [g_upd_ne _ _ _ _ hcj]
      have := hE.lt c hc
      omega
  · intro i hi
    rw [a1] at hi
    by_cases hi' : i = U0.n
    · rw [hi', a8, a7 _ (le_refl _)]; omega
    · rw [a7 i (by omega), a7 (i + 1) (by omega)]; exact hE.ne i (by omega)
  · intro i hi
    rw [a1] at hi
    by_cases hi' : i = U0.n
    · rw [hi', hpivn, g_upd_eq _ _ _ (by omega)]
    · have hlt : i < U0.n := by omega
      have hne : U0.pivot i ≠ j := by
        intro e
        have := hE.piv i hlt
        rw [e] at this
        omega
      rw [hpiv i hlt, g_upd_ne _ _ _ _ hne]
      exact hE.piv i hlt
  · intro c hc h0c
    rw [a2] at hc
    by_cases hcj : c = j
    · rw [hcj, g_upd_eq _ _ _ (by omega), Int.toNat_natCast]; exact hpivn
    · rw [g_upd_ne _ _ _ _ hcj] at h0c ⊢
      have := hE.lt c hc
      rw [hpiv _ (by omega)]
      exact hE.loc c hc h0c
  · intro i hi
    rw [a1] at hi
    by_cases hi' : i = U0.n
    · rw [hi', a7 _ (le_refl _)]; exact congrArg Prod.snd hfirst
    · have hlt : i < U0.n := by omega
      rw [a7 i (by omega), hvold _ (h0.row_lt hlt (hE.ne i hlt))]
      exact hE.one i hlt
  · intro i hi k h1 h2
    rw [a1] at hi
    by_cases hi' : i = U0.n
    · rw [hi', a7 _ (le_refl _)] at h1
      rw [hi', a8] at h2
      rw [hi', hpivn]
      exact (hl _ (hrest k h1 h2)).2.2.2
    · have hlt : i < U0.n := by omega
      rw [a7 i (by omega)] at h1
      rw [a7 (i + 1) (by omega)] at h2
      rw [hpiv i hlt, hjold k (h0.row_lt hlt h2)]
      exact hE.once i hlt k h1 h2
  · intro i k hik hk
    rw [a1] at hk
    rw [hpiv i (by omega)]
    by_cases hk' : k = U0.n
    · rw [hk', Csr.inRow_iff, a11]
      rintro ⟨e, he, he'⟩
      have hq := hE.piv i (by omega)
      rcases List.mem_cons.mp he with rfl | he
      · simp only at he'
        rw [← he'] at hq
        omega
      · have := (hl e he).2.2.1
        rw [he'] at this
        omega
    · rw [hin k (by omega)]
      exact hE.tri i k hik (by omega)
  · have := Grow.refl hwf (by rw [a6]; exact h.x_some) (by rw [a6, a5]; exact h.x_size)
    rwa [a1, a8] at this

/-- Rows as vectors after the extension. -/
theorem Grow.entries {U0 U : Csr} {unz : Nat} {l : List (Nat × Int)} (h : Grow U0 U unz l)
    (h0 : U0.WF) {U' : Csr} (hU' : U' = ({ U with n := U.n + 1 }.updP (U.n + 1) unz))
    (hps : U0.n + 1 < U0.p.size) (q : ℕ) :
    (∀ i, i < U0.n → U'.entry q i = U0.entry q i) ∧ ∀ c, U'.entry q U0.n c = lsum q l c := by
  obtain ⟨-, -, -, -, -, -, -, -, -, a10, a11⟩ := h.ents h0 hU' hps
  refine ⟨fun i hi => ?_, fun c => ?_⟩
  · ext c
    rw [Csr.entry_eq_lsum, Csr.entry_eq_lsum, a10 i hi]
  · rw [Csr.entry_eq_lsum, a11]

end Spasm
