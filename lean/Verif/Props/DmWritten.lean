import Verif.Props.DmCanonical
import Verif.Spec.DmForm

/-!
C85: the file written by `dm`.  `BlockForm` is specified in Spec/DmForm.lean.
-/

namespace Spasm

open Sha Finset

section

variable {E E' : Nat → Nat → Prop} {n m : Nat} {p q : Nat → Nat} {c k1 k2 k3 : Nat} {r : Nat → Nat} {k : Nat}

/-- The decomposition of the permuted pattern. -/
theorem CoarseE.unperm (hE : ∀ i j, i < n → j < m → (E' i j ↔ E (p i) (q j))) (h : CoarseE E n m p q c k1 k2 k3) :
    CoarseE E' n m (fun t => t) (fun t => t) c k1 k2 k3 := by
  have h3 := h.le3
  have h4 := h.col
  refine ⟨IsPerm.id', IsPerm.id', h.le12, h.le23, h.le3, h.col, ?_, ?_, ?_, ?_, ?_⟩
  · exact fun i j hi hj e => h.mid i j hi hj ((hE i j hi hj).mp e)
  · exact fun i j hi hj e => h.low i j hi hj ((hE i j hi hj).mp e)
  · exact fun t ht => (hE _ _ (by omega) (by omega)).mpr (h.diag t ht)
  · intro t ht htn
    obtain ⟨u, a, b, hr⟩ := h.vert t ht htn
    refine ⟨u, a, b, Relation.ReflTransGen.mono ?_ _ _ hr⟩
    rintro s t ⟨a, b, e⟩
    exact ⟨a, b, (hE _ _ a (by omega)).mpr e⟩
  · intro t ht
    obtain ⟨u, a, hr⟩ := h.horz t ht
    refine ⟨u, a, Relation.ReflTransGen.mono ?_ _ _ hr⟩
    rintro s t ⟨a, b, d, e⟩
    exact ⟨a, b, d, (hE _ _ (by omega) a).mpr e⟩

theorem FineE.unperm (hE : ∀ i j, i < n → j < m → (E' i j ↔ E (p i) (q j))) (hc : CoarseE E n m p q c k1 k2 k3)
    (h : FineE E p q c k1 k2 r k) : FineE E' (fun t => t) (fun t => t) c k1 k2 r k := by
  have h2 := hc.le23
  have h3 := hc.le3
  have h4 := hc.col
  have hpath : ∀ s t, SqPath E p q c k1 k2 s t ↔ SqPath E' (fun t => t) (fun t => t) c k1 k2 s t := by
    intro s t
    constructor
    · refine Relation.ReflTransGen.mono ?_ _ _
      rintro s t ⟨d, e⟩
      exact ⟨(hE s (c + t) (by omega) (by omega)).mpr d, e⟩
    · refine Relation.ReflTransGen.mono ?_ _ _
      rintro s t ⟨d, e⟩
      exact ⟨(hE s (c + t) (by omega) (by omega)).mp d, e⟩
  exact ⟨h.first, h.last, h.lt, fun b hb s t a1 a2 a3 a4 => (hpath s t).mp (h.conn b hb s t a1 a2 a3 a4),
    fun s t a1 a2 a3 a4 p1 p2 => h.same s t a1 a2 a3 a4 ((hpath s t).mpr p1) ((hpath t s).mpr p2)⟩

/-- From the components to the form. -/
theorem CoarseE.form (h : CoarseE E n m (fun t => t) (fun t => t) c k1 k2 k3)
    (hF : FineE E (fun t => t) (fun t => t) c k1 k2 r k)
    (htri : ∀ i j, k1 ≤ i → i < k2 → j < m → E i j → ∀ b, b < k → r b ≤ i → c + r b ≤ j) :
    BlockForm E n m k1 k2 k3 c r k := by
  have h1 := h.le12
  have h2 := h.le23
  have h3 := h.le3
  have h4 := h.col
  refine ⟨⟨h1, h2, h3, h4.symm⟩, hF.first, hF.last, hF.lt, h.mid, h.low, ?_, h.diag, fun j hj => h.horz_iff hj,
    fun i hi => h.vert_iff hi, ?_⟩
  · intro i j hi hj e b hb hr
    have g := hF.range hb
    have l := hF.lt b hb
    by_cases hk : k2 ≤ i
    · have := h.low i j hi hj e hk
      omega
    · exact htri i j (by omega) (by omega) hj e b hb hr
  · intro i j hi hj e
    constructor
    · rintro ⟨S, hS, hm⟩
      by_cases c1 : i < k1
      · exact .inl ⟨c1, h.not_right hS hj c1 hm⟩
      · by_cases c2 : k2 ≤ i
        · exact .inr (.inl ⟨c2, h.low i j hi hj e c2⟩)
        · have m1 := h.mid i j hi hj e (by omega)
          have m2 : j < c + k2 := by
            by_contra hn
            have := h.not_above hS hi hj (by omega) hm
            omega
          have ew : j = c + (j - c) := by omega
          rw [ew] at hm e
          have p1 := h.not_between hS (by omega) (by omega) hm
          obtain ⟨b, b1, b2, b3, b4, b5⟩ := hF.same i (j - c) (by omega) (by omega) (by omega) (by omega)
            (.single ⟨e, by omega, by omega, by omega, by omega⟩) p1
          exact .inr (.inr ⟨b, b1, b2, b3, by omega, by omega⟩)
    · rintro (⟨a1, a2⟩ | ⟨a1, a2⟩ | ⟨b, b1, b2, b3, b4, b5⟩)
      · exact h.in_horz a1 a2 hj e
      · exact h.in_vert a1 hi a2 hj e
      · have g := hF.range b1
        have ew : j = c + (j - c) := by omega
        rw [ew] at e ⊢
        exact h.in_square (by omega) (by omega) e (hF.conn b b1 _ _ (by omega) (by omega) (by omega) (by omega))

end

/-- The blocks when the square part is empty. -/
theorem FineE.no_blocks {E : Nat → Nat → Prop} {p q : Nat → Nat} {c k1 k2 : Nat} (h : k1 = k2) :
    FineE E p q c k1 k2 (fun _ => k1) 0 :=
  ⟨rfl, h, fun b hb => absurd hb (by omega), fun b hb => absurd hb (by omega), fun s t h1 h2 => absurd h2 (by omega)⟩

/-- C85 (the file written). For every file, `dm` writes the same matrix with permuted rows and columns, in the finest block
triangular form: an entry belongs to some largest matching if and only if it is in a diagonal block.  With `--verbose`,
whatever the content of uninitialised memory, it prints the sizes of these blocks, those of the square blocks in some
order. -/
theorem C85_written (jk jk' : Junk) (jw jw' : Nat → W) {f : List Char} {n m : Nat} {l : List (Int × Int × Int)}
    (hf : IsFile f n m l) (hc : NoCancel 42013 l) :
    Ok (tool_dm jk jw f) (fun g => ∃ (l' : List (Int × Int × Int)) (p q : Nat → Nat) (h k s c : Nat) (r : Nat → Nat)
      (K : Nat), IsFile g n m l' ∧ IsPerm p n ∧ IsPerm q m ∧
      (∀ i j, i < n → j < m → fileEntry 42013 l' i j = fileEntry 42013 l (p i) (q j)) ∧
      BlockForm (fun i j => fileEntry 42013 l' i j ≠ 0) n m h k s c r K ∧
      (n + m < 2 ^ 31 → ∃ sizes, sizes.Perm ((List.range K).map fun b => r (b + 1) - r b) ∧
        tool_dm_verbose jk' jw' f = .ok (dmReport s h (c + h) (k - h) (n - k) (m - (c + k)) sizes))) := by
  unfold tool_dm
  refine tool_load jk jw (q := 42013) (by omega) hf hc ?_
  intro A hA
  rw [Ok_bind]
  refine (dm_decompose_spec jk hA.wfv.toWF).mono ?_
  rintro ⟨D, B⟩ ⟨h1, hfine, -, hB, hBn, hBm, hBz, hBi, hBe, hBv⟩
  simp only at *
  have hAn := hA.n_eq
  have hAm := hA.m_eq
  refine (save_file hB (by rw [hBn, hAn]; exact hf.n_lt) (by rw [hBm, hAm]; exact hf.m_lt) ?_).mono ?_
  · intro k hk
    have hx : A.x.isSome = true := hA.wfv.has_x (by omega)
    have := hBv 42013 hx hA.wfv
    exact small_lt this.good (this.small k hk)
  rintro g ⟨g1, g2⟩
  rw [hBn, hBm, hAn, hAm] at g1
  have hent : ∀ i j, i < n → j < m → fileEntry 42013 (fromOne B.lst) i j = fileEntry 42013 l (D.p.g i) (D.q.g j) := by
    intro i j hi hj
    have hpi := h1.perm_p.1 i (by omega)
    rw [g2 _ _ _ (by omega), hBe _ _ _ (by omega) (by omega), hA.entry _ _ (by omega)]
  subst hAn hAm
  have hE : ∀ i j, i < A.n → j < A.m → (A.InRow i j ↔ fileEntry 42013 l i j ≠ 0) := fun i j hi _ => hA.inRow hi
  have hE' : ∀ i j, i < A.n → j < A.m →
      (fileEntry 42013 (fromOne B.lst) i j ≠ 0 ↔ A.InRow (D.p.g i) (D.q.g j)) := by
    intro i j hi hj
    rw [hent i j hi hj, hE _ _ (h1.perm_p.1 i hi) (h1.perm_q.1 j hj)]
  have r0 := h1.rr_zero
  have r1 := h1.rr_mono 0 (by omega)
  have r2 := h1.rr_mono 1 (by omega)
  have c0 := h1.cc_zero
  have c1 := h1.cc_mono 0 (by omega)
  simp only [Nat.reduceAdd] at r1 r2 c1
  have hcE := h1.toE
  have hcw := hcE.unperm (E' := fun i j => fileEntry 42013 (fromOne B.lst) i j ≠ 0) hE'
  have hcl := hcE.renumber (E := fun i j => fileEntry 42013 l i j ≠ 0) (σ := fun t => t) (τ := fun t => t) IsPerm.id'
    IsPerm.id' hE
  -- the boundaries of the square blocks
  obtain ⟨r, K, fE, ftri⟩ : ∃ r K, FineE A.InRow D.p.g D.q.g (D.cc.g 1).toNat (D.rr.g 1).toNat (D.rr.g 2).toNat r K ∧
      ∀ i j, (D.rr.g 1).toNat ≤ i → i < (D.rr.g 2).toNat → j < A.m → A.InRow (D.p.g i) (D.q.g j) → ∀ b, b < K → r b ≤ i →
        (D.cc.g 1).toNat + r b ≤ j := by
    by_cases hk : D.rr.g 1 < D.rr.g 2
    · have hF := hfine hk
      refine ⟨_, _, hF.toE h1, ?_⟩
      intro i j hi1 hi2 hj e b hb hr
      have t1 := hF.tri i j (by omega) (by omega) hj e (b + 1) (by omega) (by omega) (by omega)
      have t2 := hF.c_eq (b + 1) (by omega) (by omega)
      have z1 : 0 ≤ D.r.g (b + 1) := by
        rcases Nat.eq_zero_or_pos b with hb1 | hb1
        · rw [hb1, hF.r_one]; omega
        · have := (hF.toE h1).lt (b - 1) (by omega)
          rw [show b - 1 + 1 + 1 = b + 1 by omega] at this
          omega
      omega
    · exact ⟨_, _, FineE.no_blocks (by omega), fun i j a1 a2 => absurd a2 (by omega)⟩
  refine ⟨fromOne B.lst, D.p.g, D.q.g, _, _, _, _, r, K, g1, h1.perm_p, h1.perm_q, hent,
    hcw.form (fE.unperm hE' hcE) ?_, ?_⟩
  · intro i j a1 a2 a3 e
    have := hcE.le23
    have := hcE.le3
    exact ftri i j a1 a2 a3 ((hE' i j (by omega) a3).mp e)
  · intro hnm
    obtain ⟨p2, q2, c2, l1, l2, l3, h2, rr2, kk2, f2, e2⟩ := dm_report_E jk' jw' hf hc hnm
    obtain ⟨e3, e4, e5, e6⟩ := hcl.same_sizes h2
    subst e3 e4 e5 e6
    refine ⟨_, ?_, e2⟩
    split
    · next hk =>
      exact ((f2 hk).sizes h2 (fE.renumber (σ := fun t => t) (τ := fun t => t) hcE hE) hcl)
    · next hk =>
      have hK : K = 0 := by
        by_contra hK
        have a1 := fE.lt 0 (by omega)
        have a2 := fE.mono (a := 1) (b := K) (by omega) le_rfl
        rw [fE.first, Nat.zero_add] at a1
        rw [fE.last] at a2
        omega
      subst hK
      exact .refl _

/-- The hypotheses are met, and the file written for `exSms`: rows 2, 1 and columns 3, 1, 2 of the matrix; the first block
has one row and two columns, the second one is square. -/
example : tool_dm default exJw exSms = .ok "2 3 M\n1 2 14\n1 1 1\n2 3 -9\n0 0 0\n".toList ∧
    IsFile exSms 2 3 [(1, 2, -9), (2, 3, 14), (2, 1, 1)] ∧ NoCancel 42013 [(1, 2, -9), (2, 3, 14), (2, 1, 1)] :=
  ⟨by decide +kernel, exSms_file, Distinct.noCancel (by unfold Distinct; decide)⟩

end Spasm
