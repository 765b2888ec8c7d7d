import Verif.Spec.Matching
import Verif.Proofs.Pivots
import Mathlib.Data.Finset.Card

namespace Spasm

open Finset

/-- An augmenting path: `I 0, J 0, ..., I h, J h`. -/
structure AltPath (A : Csr) (p qinv : Array Int) (I J : Nat → Nat) (h : Nat) : Prop where
  lt : ∀ t, t ≤ h → I t < A.n
  ent : ∀ t, t ≤ h → A.InRow (I t) (J t)
  inj : ∀ s t, s ≤ h → t ≤ h → I s = I t → s = t
  start : p.g (I 0) < 0
  mate : ∀ t, t < h → qinv.g (J t) = I (t + 1)
  last : qinv.g (J h) < 0

theorem AltPath.injJ {A : Csr} {p qinv : Array Int} {I J : Nat → Nat} {h : Nat}
    (hP : AltPath A p qinv I J h) : ∀ s t, s ≤ h → t ≤ h → J s = J t → s = t := by
  have key : ∀ s t, s < t → t ≤ h → J s ≠ J t := by
    intro s t hst ht e
    have h1 := hP.mate s (by omega)
    by_cases hth : t < h
    · have h2 := hP.mate t hth
      rw [e, h2] at h1
      have := hP.inj (t + 1) (s + 1) (by omega) (by omega) (by exact_mod_cast h1)
      omega
    · have : t = h := by omega
      subst this
      have h2 := hP.last
      rw [← e, h1] at h2
      omega
  intro s t hs ht e
  rcases Nat.lt_trichotomy s t with h1 | h1 | h1
  · exact absurd e (key s t h1 ht)
  · exact h1
  · exact absurd e.symm (key t s h1 hs)

/-- `f'` is `f` modified at the points `I t`, `t ≤ h`, `h < t + d`, where it is `J t`. -/
def Overwrites (f f' : Nat → Int) (I J : Nat → Nat) (h d : Nat) : Prop :=
  ∀ i, (∃ t, t ≤ h ∧ h < t + d ∧ I t = i ∧ f' i = J t) ∨
    ((∀ t, t ≤ h → h < t + d → I t ≠ i) ∧ f' i = f i)

theorem Overwrites.step {a a' : Array Int} {I J : Nat → Nat} {h d : Nat}
    (hO : Overwrites a.g a'.g I J h d) (hinj : ∀ s t, s ≤ h → t ≤ h → I s = I t → s = t)
    (hd : d ≤ h) (hs : I (h - d) < a'.size) :
    Overwrites a.g (a'.upd (I (h - d)) (J (h - d) : Int)).g I J h (d + 1) := by
  intro i
  by_cases hi : i = I (h - d)
  · left
    exact ⟨h - d, by omega, by omega, hi.symm, by rw [hi, g_upd_eq _ _ _ hs]⟩
  · rw [g_upd_ne _ _ _ _ hi]
    rcases hO i with ⟨t, h1, h2, h3, h4⟩ | ⟨h1, h2⟩
    · left; exact ⟨t, h1, by omega, h3, h4⟩
    · right
      refine ⟨?_, h2⟩
      intro t ht1 ht2 e
      by_cases htd : h < t + d
      · exact h1 t ht1 htd e
      · have : t = h - d := by omega
        subst this
        exact hi e.symm

theorem augment_matching_spec {A : Csr} (hA : A.WF) {p qinv : Array Int}
    (hM : Matching A p qinv) {istack jstack : Array Nat} {h : Nat}
    (hP : AltPath A p qinv istack.g jstack.g h) (hi : h < istack.size) (hj : h < jstack.size) :
    Ok (augment_matching h istack jstack p qinv) (fun r => Matching A r.1 r.2 ∧
      pivCount A.m r.2 = pivCount A.m qinv + 1 ∧
      Overwrites p.g r.1.g istack.g jstack.g h (h + 1) ∧
      Overwrites qinv.g r.2.g jstack.g istack.g h (h + 1)) := by
  unfold augment_matching
  have hJm : ∀ t, t ≤ h → jstack.g t < A.m := fun t ht => hA.inRow_lt (hP.lt t ht) (hP.ent t ht)
  refine Ok_forRange_imp (I := fun d (r : Array Int × Array Int) => r.1.size = A.n ∧ r.2.size = A.m ∧
      Overwrites p.g r.1.g istack.g jstack.g h d ∧
      Overwrites qinv.g r.2.g jstack.g istack.g h d) (by omega) ?_ ?_ ?_
  · exact ⟨hM.psize, hM.qsize, fun i => .inr ⟨fun t h1 h2 => by omega, rfl⟩,
      fun i => .inr ⟨fun t h1 h2 => by omega, rfl⟩⟩
  · rintro d ⟨p', q'⟩ - hd ⟨h1, h2, h3, h4⟩
    simp only at h1 h2 h3 h4
    have l1 := hP.lt (h - d) (by omega)
    have l2 := hJm (h - d) (by omega)
    simp only [Ok_bind, Ok_rd, Ok_wr, Ok_ok]
    refine ⟨by omega, by omega, by omega, by omega, by simpa using h1, by simpa using h2, ?_, ?_⟩
    · exact h3.step hP.inj (by omega) (by omega)
    · exact h4.step hP.injJ (by omega) (by omega)
  · rintro ⟨p', q'⟩ ⟨h1, h2, h3, h4⟩
    simp only at h1 h2 h3 h4 ⊢
    have hp : ∀ t, t ≤ h → p'.g (istack.g t) = jstack.g t := by
      intro t ht
      rcases h3 (istack.g t) with ⟨s, a1, -, a3, a4⟩ | ⟨a1, -⟩
      · rw [a4, hP.inj s t a1 ht a3]
      · exact absurd rfl (a1 t ht (by omega))
    have hq : ∀ t, t ≤ h → q'.g (jstack.g t) = istack.g t := by
      intro t ht
      rcases h4 (jstack.g t) with ⟨s, a1, -, a3, a4⟩ | ⟨a1, -⟩
      · rw [a4, hP.injJ s t a1 ht a3]
      · exact absurd rfl (a1 t ht (by omega))
    refine ⟨⟨h1, h2, ?_, ?_, ?_, ?_, ?_, ?_, ?_⟩, ?_, h3, h4⟩
    · intro i hi
      rcases h3 i with ⟨s, -, -, -, a4⟩ | ⟨-, a2⟩
      · rw [a4]; omega
      · rw [a2]; exact hM.p_ge i hi
    · intro i hi
      rcases h3 i with ⟨s, a1, -, -, a4⟩ | ⟨-, a2⟩
      · rw [a4]; have := hJm s a1; omega
      · rw [a2]; exact hM.p_lt i hi
    · intro j hj
      rcases h4 j with ⟨s, -, -, -, a4⟩ | ⟨-, a2⟩
      · rw [a4]; omega
      · rw [a2]; exact hM.q_ge j hj
    · intro j hj
      rcases h4 j with ⟨s, a1, -, -, a4⟩ | ⟨-, a2⟩
      · rw [a4]; have := hP.lt s a1; omega
      · rw [a2]; exact hM.q_lt j hj
    · intro i hi h0
      rcases h3 i with ⟨s, a1, -, a3, a4⟩ | ⟨a1, a2⟩
      · rw [a4, Int.toNat_natCast, hq s a1, a3]
      · rw [a2] at h0 ⊢
        have e := hM.qp i hi h0
        rcases h4 (p.g i).toNat with ⟨s, b1, -, b3, b4⟩ | ⟨-, b2⟩
        · exfalso
          by_cases hs : s < h
          · have := hP.mate s hs
            rw [b3, e] at this
            exact a1 (s + 1) (by omega) (by omega) (by exact_mod_cast this.symm)
          · have : s = h := by omega
            subst this
            have := hP.last
            rw [b3, e] at this
            omega
        · rw [b2, e]
    · intro j hj h0
      rcases h4 j with ⟨s, a1, -, a3, a4⟩ | ⟨a1, a2⟩
      · rw [a4, Int.toNat_natCast, hp s a1, a3]
      · rw [a2] at h0 ⊢
        have e := hM.pq j hj h0
        rcases h3 (qinv.g j).toNat with ⟨s, b1, -, b3, b4⟩ | ⟨-, b2⟩
        · exfalso
          cases s with
          | zero =>
            have := hP.start
            rw [b3, e] at this
            omega
          | succ s =>
            have := hP.mate s (by omega)
            have e2 := hM.pq (jstack.g s) (hJm s (by omega)) (by rw [this]; omega)
            rw [this, Int.toNat_natCast, b3, e] at e2
            exact a1 s (by omega) (by omega) (by exact_mod_cast e2.symm)
        · rw [b2, e]
    · intro i hi h0
      rcases h3 i with ⟨s, a1, -, a3, a4⟩ | ⟨a1, a2⟩
      · rw [a4, Int.toNat_natCast, ← a3]; exact hP.ent s a1
      · rw [a2] at h0 ⊢; exact hM.ent i hi h0
    · unfold pivCount
      have hl := hP.last
      rw [← card_insert_of_notMem (a := jstack.g h) (by simp; omega)]
      congr 1
      ext c
      simp only [mem_filter, mem_range, mem_insert]
      rcases h4 c with ⟨s, a1, -, a3, a4⟩ | ⟨a1, a2⟩
      · have hc := hJm s a1
        rw [a3] at hc
        constructor
        · intro _
          by_cases hs : s < h
          · right
            have := hP.mate s hs
            rw [a3] at this
            exact ⟨hc, by omega⟩
          · left
            have : s = h := by omega
            rw [← a3, this]
        · intro _; exact ⟨hc, by omega⟩
      · have := a1 h (le_refl _) (by omega)
        rw [a2]
        constructor
        · exact fun hh => .inr hh
        · rintro (hh | hh)
          · exact absurd hh.symm this
          · exact hh


/-- All the columns of the rows in `W` are matched with rows in `W`. -/
def MClosed (A : Csr) (qinv : Array Int) (W : Nat → Prop) : Prop :=
  ∀ i, W i → i < A.n ∧ ∀ j, A.InRow i j → 0 ≤ qinv.g j ∧ W (qinv.g j).toNat

theorem MClosed.overwrites {A : Csr} {p qinv qinv' : Array Int} {I J : Nat → Nat} {h : Nat}
    (hP : AltPath A p qinv I J h) (hO : Overwrites qinv.g qinv'.g J I h (h + 1)) {W : Nat → Prop}
    (hW : MClosed A qinv W) : MClosed A qinv' W := by
  have hI : ∀ d, d ≤ h → ¬ W (I (h - d)) := by
    intro d
    induction d with
    | zero =>
      intro _ hw
      have := (hW _ hw).2 _ (hP.ent h (le_refl _))
      have := hP.last
      omega
    | succ d ih =>
      intro hd hw
      have h1 := (hW _ hw).2 _ (hP.ent (h - (d + 1)) (by omega))
      have h2 := hP.mate (h - (d + 1)) (by omega)
      rw [h2, Int.toNat_natCast] at h1
      have e : h - (d + 1) + 1 = h - d := by omega
      rw [e] at h1
      exact ih (by omega) h1.2
  intro i hi
  refine ⟨(hW i hi).1, fun j hj => ?_⟩
  have h1 := (hW i hi).2 j hj
  rcases hO j with ⟨t, a1, -, a3, a4⟩ | ⟨-, a2⟩
  · exfalso
    rw [← a3] at h1
    by_cases ht : t < h
    · have h2 := hP.mate t ht
      rw [h2, Int.toNat_natCast] at h1
      have e : h - (h - (t + 1)) = t + 1 := by omega
      have := hI (h - (t + 1)) (by omega)
      rw [e] at this
      exact this h1.2
    · have : t = h := by omega
      subst this
      have := hP.last
      omega
  · rw [a2]; exact h1

/-- The columns skipped by the lookahead are matched. -/
def LookOk (A : Csr) (qinv : Array Int) (look : Array Nat) : Prop :=
  look.size = A.n ∧ ∀ i, i < A.n → A.p.g i + look.g i ≤ A.p.g (i + 1) ∧
    ∀ k, A.p.g i ≤ k → k < A.p.g i + look.g i → 0 ≤ qinv.g (A.j.g k)

/-- State of a depth-first search from `istart`. -/
structure PathInv (A : Csr) (p0 q0 : Array Int) (istart : Nat) (s : MPath) : Prop where
  is : s.istack.size = A.n
  js : s.jstack.size = A.n
  ps : s.pstack.size = A.n
  ms : s.marks.size = A.n
  p_eq : s.p = p0
  q_eq : s.qinv = q0
  look : LookOk A q0 s.look
  lt : ∀ t, t < s.h → s.istack.g t < A.n
  inj : ∀ t u, t < s.h → u < s.h → s.istack.g t = s.istack.g u → t = u
  first : 0 < s.h → s.istack.g 0 = istart
  link : ∀ t, t + 1 < s.h → A.InRow (s.istack.g t) (s.jstack.g t) ∧
    q0.g (s.jstack.g t) = s.istack.g (t + 1)
  le : ∀ i, i < A.n → s.marks.g i ≤ istart
  below : ∀ t, t + 1 < s.h → s.marks.g (s.istack.g t) = istart
  full : ∀ i, i < A.n → s.marks.g i = istart → ∀ j, A.InRow i j → 0 ≤ q0.g j
  done : ∀ i, i < A.n → s.marks.g i = istart → (∀ t, t < s.h → s.istack.g t ≠ i) →
    ∀ j, A.InRow i j → s.marks.g (q0.g j).toNat = istart
  open_ : ∀ t, t < s.h → s.marks.g (s.istack.g t) = istart →
    A.p.g (s.istack.g t) + s.pstack.g t ≤ A.p.g (s.istack.g t + 1) ∧
    ∀ k, A.p.g (s.istack.g t) ≤ k → k < A.p.g (s.istack.g t) + s.pstack.g t →
      s.marks.g (q0.g (A.j.g k)).toNat = istart ∨
      (t + 1 < s.h ∧ (q0.g (A.j.g k)).toNat = s.istack.g (s.h - 1))
  root : 0 < s.h ∨ s.marks.g istart = istart

theorem PathInv.h_le {A : Csr} {p0 q0 : Array Int} {istart : Nat} {s : MPath}
    (h : PathInv A p0 q0 istart s) : s.h ≤ A.n := by
  have := Finset.card_le_card_of_injOn (s := range s.h) (t := range A.n) (fun t => s.istack.g t)
    (fun t ht => by
      have := h.lt t (by simpa using ht)
      simpa using this)
    (fun t ht u hu e => h.inj t u (by simpa using ht) (by simpa using hu) e)
  simpa using this

/-- What the search leaves behind. -/
structure PathBase (A : Csr) (s : MPath) : Prop where
  is : s.istack.size = A.n
  js : s.jstack.size = A.n
  ps : s.pstack.size = A.n
  ms : s.marks.size = A.n
  look : LookOk A s.qinv s.look

/-- A successful search. -/
structure Augmented (A : Csr) (p0 q0 : Array Int) (istart : Nat) (p q : Array Int) : Prop where
  mt : Matching A p q
  count : pivCount A.m q = pivCount A.m q0 + 1
  keep : ∀ i, 0 ≤ p0.g i → 0 ≤ p.g i
  keepq : ∀ j, 0 ≤ q0.g j → 0 ≤ q.g j
  new : 0 ≤ p.g istart
  closed : ∀ W, MClosed A q0 W → MClosed A q W

theorem Overwrites.nonneg {f f' : Nat → Int} {I J : Nat → Nat} {h d : Nat}
    (hO : Overwrites f f' I J h d) {i : Nat} (h0 : 0 ≤ f i) : 0 ≤ f' i := by
  rcases hO i with ⟨t, -, -, -, a4⟩ | ⟨-, a2⟩
  · rw [a4]; omega
  · rw [a2]; exact h0

/-- The lookahead on the top row of the stack (which has just been marked). -/
theorem lookahead_spec {A : Csr} (hA : A.WF) {p0 q0 : Array Int} (hM : Matching A p0 q0)
    {istart : Nat} {s : MPath} (hs : PathInv A p0 q0 istart s) (hp : p0.g istart < 0)
    (hh : 0 < s.h) (marks : Array Int) (hms : marks.size = A.n) :
    Ok (lookahead A (s.istack.g (s.h - 1)) { s with marks := marks }) (fun s' =>
      s'.marks = marks ∧
      ((s'.found = true ∧ PathBase A s' ∧ Augmented A p0 q0 istart s'.p s'.qinv) ∨
       (s'.found = false ∧ s' = { s with marks := marks, look := s'.look, found := false } ∧
        LookOk A q0 s'.look ∧ ∀ j, A.InRow (s.istack.g (s.h - 1)) j → 0 ≤ q0.g j))) := by
  set i := s.istack.g (s.h - 1) with hi
  have hin : i < A.n := hs.lt _ (by omega)
  have hle := hs.h_le
  have hps := hA.p_size
  have hlo := hs.look.2 i hin
  have hls := hs.look.1
  unfold lookahead
  rw [Ok_bind, Ok_rd]
  refine ⟨by omega, ?_⟩
  rw [Ok_bind, Ok_rd]
  simp only
  refine ⟨by omega, ?_⟩
  rw [Ok_bind, Ok_rd]
  refine ⟨by omega, ?_⟩
  rw [Ok_bind]
  refine (Ok_forBrk (I := fun px b => b = false ∧ ∀ k, A.p.g i ≤ k → k < px → 0 ≤ q0.g (A.j.g k))
    (B := fun px b => b = true ∧ q0.g (A.j.g px) < 0 ∧
      ∀ k, A.p.g i ≤ k → k < px → 0 ≤ q0.g (A.j.g k)) hlo.1 ⟨rfl, hlo.2⟩ ?_).mono ?_
  · rintro px b h1 h2 ⟨-, h3⟩
    have hjl := hA.row_lt hin h2
    have hjm := hA.j_lt px hjl
    have hjs := hA.p_nnz
    rw [Ok_bind, Ok_rd]
    refine ⟨by omega, ?_⟩
    rw [Ok_bind, Ok_rd, hs.q_eq]
    refine ⟨by rw [hM.qsize]; omega, ?_⟩
    by_cases hneg : q0.g (A.j.g px) < 0
    · rw [if_pos hneg, Ok_ok]
      exact ⟨rfl, hneg, h3⟩
    · rw [if_neg hneg, Ok_ok]
      refine ⟨rfl, ?_⟩
      intro k hk1 hk2
      by_cases hk : k = px
      · rw [hk]; omega
      · exact h3 k hk1 (by omega)
  · rintro ⟨px, b⟩ hr
    simp only at hr ⊢
    rcases hr with ⟨h1, h2, rfl, h3, h4⟩ | ⟨rfl, rfl, h2⟩
    · rw [if_pos rfl]
      have hjl := hA.row_lt hin h2
      have hjm := hA.j_lt px hjl
      have hjs := hA.p_nnz
      rw [Ok_bind, Ok_wr]
      refine ⟨by omega, ?_⟩
      rw [Ok_bind, Ok_rd]
      refine ⟨by omega, ?_⟩
      rw [Ok_bind, Ok_wr]
      refine ⟨by rw [hs.js]; omega, ?_⟩
      rw [Ok_bind, hs.p_eq, hs.q_eq]
      have hJ : ∀ t, t + 1 < s.h → (s.jstack.upd (s.h - 1) (A.j.g px)).g t = s.jstack.g t := by
        intro t ht
        exact g_upd_ne _ _ _ _ (by omega)
      have hJl : (s.jstack.upd (s.h - 1) (A.j.g px)).g (s.h - 1) = A.j.g px :=
        g_upd_eq _ _ _ (by rw [hs.js]; omega)
      have hP : AltPath A p0 q0 s.istack.g (s.jstack.upd (s.h - 1) (A.j.g px)).g (s.h - 1) := by
        refine ⟨fun t ht => hs.lt t (by omega), ?_, fun t u ht hu => hs.inj t u (by omega) (by omega),
          by rw [hs.first hh]; exact hp, ?_, by rw [hJl]; exact h3⟩
        · intro t ht
          by_cases ht' : t + 1 < s.h
          · rw [hJ t ht']; exact (hs.link t ht').1
          · have : t = s.h - 1 := by omega
            subst this
            rw [hJl]
            exact ⟨px, by rw [← hi]; omega, h2, rfl⟩
        · intro t ht
          rw [hJ t (by omega)]
          exact (hs.link t (by omega)).2
      refine (augment_matching_spec hA hM hP (by rw [hs.is]; omega)
        (by rw [size_upd, hs.js]; omega)).mono ?_
      rintro ⟨p', q'⟩ ⟨r1, r2, r3, r4⟩
      simp only at r1 r2 r3 r4 ⊢
      rw [Ok_ok]
      refine ⟨rfl, .inl ⟨rfl, ⟨hs.is, by simp [hs.js], hs.ps, hms, ?_⟩, ?_⟩⟩
      · refine ⟨by simp [hls], ?_⟩
        intro i' hi'
        simp only
        by_cases he : i' = i
        · rw [he, g_upd_eq _ _ _ (by omega)]
          refine ⟨by omega, ?_⟩
          intro k hk1 hk2
          exact r4.nonneg (h4 k hk1 (by omega))
        · rw [g_upd_ne _ _ _ _ he]
          refine ⟨(hs.look.2 i' hi').1, fun k hk1 hk2 => ?_⟩
          exact r4.nonneg ((hs.look.2 i' hi').2 k hk1 hk2)
      · refine ⟨r1, r2, fun i h0 => r3.nonneg h0, fun j h0 => r4.nonneg h0, ?_,
          fun W hW => hW.overwrites hP r4⟩
        rcases r3 istart with ⟨t, -, -, -, a4⟩ | ⟨a1, -⟩
        · simp only; rw [a4]; omega
        · exact absurd (hs.first hh) (a1 0 (by omega) (by omega))
    · rw [if_neg (by simp), Ok_bind, Ok_wr]
      refine ⟨by omega, ?_⟩
      rw [Ok_ok]
      have hrow := hA.p_mono i hin
      refine ⟨rfl, .inr ⟨rfl, rfl, ⟨by simp [hls], ?_⟩, ?_⟩⟩
      · intro i' hi'
        simp only
        by_cases he : i' = i
        · rw [he, g_upd_eq _ _ _ (by omega)]
          refine ⟨by omega, fun k hk1 hk2 => h2 k hk1 (by omega)⟩
        · rw [g_upd_ne _ _ _ _ he]
          exact hs.look.2 i' hi'
      · rintro j ⟨k, hk1, hk2, rfl⟩
        exact h2 k hk1 hk2

/-- Visiting the top of the stack. -/
theorem path_visit_spec {A : Csr} (hA : A.WF) {p0 q0 : Array Int} (hM : Matching A p0 q0)
    {istart : Nat} {s : MPath} (hs : PathInv A p0 q0 istart s) (hp : p0.g istart < 0)
    (hh : 0 < s.h) (hf : s.found = false) :
    Ok (path_visit A istart (s.istack.g (s.h - 1)) s) (fun s' =>
      (∀ i, i < A.n → s'.marks.g i ≤ istart) ∧
      ((s'.found = true ∧ PathBase A s' ∧ Augmented A p0 q0 istart s'.p s'.qinv) ∨
       (s'.found = false ∧ PathInv A p0 q0 istart s' ∧ s'.h = s.h ∧ s'.istack = s.istack ∧
        s'.marks = s.marks.upd (s.istack.g (s.h - 1)) istart))) := by
  have hin : s.istack.g (s.h - 1) < A.n := hs.lt _ (by omega)
  have hle := hs.h_le
  unfold path_visit
  rw [Ok_bind, Ok_rd]
  refine ⟨by rw [hs.ms]; omega, ?_⟩
  by_cases hmk : s.marks.g (s.istack.g (s.h - 1)) = istart
  · rw [if_neg (by simpa using hmk), Ok_ok]
    refine ⟨hs.le, .inr ⟨hf, hs, rfl, rfl, ?_⟩⟩
    refine array_ext_g (by simp) ?_
    intro i hi
    by_cases he : i = s.istack.g (s.h - 1)
    · rw [he, g_upd_eq _ _ _ (by rw [hs.ms]; omega), hmk]
    · rw [g_upd_ne _ _ _ _ he]
  · rw [if_pos hmk, Ok_bind, Ok_wr]
    refine ⟨by rw [hs.ms]; omega, ?_⟩
    rw [Ok_bind]
    refine (lookahead_spec hA hM hs hp hh (s.marks.upd (s.istack.g (s.h - 1)) istart)
      (by rw [size_upd, hs.ms])).mono ?_
    rintro s' ⟨m1, hc⟩
    have hmle : ∀ i, i < A.n → s'.marks.g i ≤ istart := by
      intro i hi
      rw [m1]
      by_cases he : i = s.istack.g (s.h - 1)
      · rw [he, g_upd_eq _ _ _ (by rw [hs.ms]; omega)]
      · rw [g_upd_ne _ _ _ _ he]; exact hs.le i hi
    rcases hc with ⟨c1, c2, c3⟩ | ⟨c1, c2, c3, c4⟩
    · rw [if_pos c1, Ok_ok]
      exact ⟨hmle, .inl ⟨c1, c2, c3⟩⟩
    · rw [if_neg (by rw [c1]; simp), Ok_bind, Ok_wr]
      have e1 : s'.pstack = s.pstack := by rw [c2]
      have e2 : s'.h = s.h := by rw [c2]
      have e3 : s'.istack = s.istack := by rw [c2]
      have e4 : s'.jstack = s.jstack := by rw [c2]
      have e5 : s'.p = s.p := by rw [c2]
      have e6 : s'.qinv = s.qinv := by rw [c2]
      refine ⟨by rw [e1, e2, hs.ps]; omega, ?_⟩
      rw [Ok_ok]
      have hmono : ∀ i, s.marks.g i = istart → s'.marks.g i = istart := by
        intro i hi
        rw [m1]
        by_cases he : i = s.istack.g (s.h - 1)
        · rw [he, g_upd_eq _ _ _ (by rw [hs.ms]; omega)]
        · rw [g_upd_ne _ _ _ _ he]; exact hi
      have hinv : ∀ i, s'.marks.g i = istart → i ≠ s.istack.g (s.h - 1) → s.marks.g i = istart := by
        intro i hi he
        rwa [m1, g_upd_ne _ _ _ _ he] at hi
      have htop : s'.marks.g (s.istack.g (s.h - 1)) = istart := by
        rw [m1, g_upd_eq _ _ _ (by rw [hs.ms]; omega)]
      refine ⟨hmle, .inr ⟨c1, ?_, e2, e3, m1⟩⟩
      refine ⟨by simp only; rw [e3]; exact hs.is, by simp only; rw [e4]; exact hs.js,
        by simp only; rw [size_upd, e1]; exact hs.ps, by simp only; rw [m1, size_upd]; exact hs.ms,
        by simp only; rw [e5]; exact hs.p_eq, by simp only; rw [e6]; exact hs.q_eq, c3, ?_, ?_, ?_,
        ?_, hmle, ?_, ?_, ?_, ?_, ?_⟩
      · simp only [e2, e3]; exact hs.lt
      · simp only [e2, e3]; exact hs.inj
      · simp only [e2, e3]; exact hs.first
      · simp only [e2, e3, e4]; exact hs.link
      · simp only [e2, e3]
        intro t ht; exact hmono _ (hs.below t ht)
      · intro i hi hm j hj
        simp only at hm
        by_cases he : i = s.istack.g (s.h - 1)
        · rw [he] at hj; exact c4 j hj
        · exact hs.full i hi (hinv i hm he) j hj
      · simp only [e2, e3]
        intro i hi hm hn j hj
        refine hmono _ (hs.done i hi (hinv i hm ?_) hn j hj)
        exact fun he => hn (s.h - 1) (by omega) he.symm
      · simp only [e1, e2, e3]
        intro t ht hm
        by_cases he : t = s.h - 1
        · rw [he, g_upd_eq _ _ _ (by rw [hs.ps]; omega)]
          have := hA.p_mono _ hin
          exact ⟨by omega, fun k h1 h2 => by omega⟩
        · rw [g_upd_ne _ _ _ _ he]
          have hne : s.istack.g t ≠ s.istack.g (s.h - 1) := fun e =>
            he (hs.inj t (s.h - 1) ht (by omega) e)
          have := hs.open_ t ht (hinv _ hm hne)
          refine ⟨this.1, fun k h1 h2 => ?_⟩
          left
          rcases this.2 k h1 h2 with h3 | ⟨-, h3⟩
          · exact hmono _ h3
          · rw [h3]; exact htop
      · left; simp only [e2]; exact hh

/-- Number of rows not visited. -/
def unmarked (n istart : Nat) (marks : Array Int) : Nat :=
  ((range n).filter fun i => marks.g i ≠ (istart : Int)).card

theorem unmarked_upd {n istart : Nat} {marks : Array Int} (hs : marks.size = n) {i : Nat} (hi : i < n)
    (hm : marks.g i ≠ istart) : unmarked n istart (marks.upd i istart) + 1 = unmarked n istart marks := by
  unfold unmarked
  have : (range n).filter (fun k => marks.g k ≠ (istart : Int)) =
      insert i ((range n).filter fun k => (marks.upd i (istart : Int)).g k ≠ (istart : Int)) := by
    ext k
    simp only [mem_filter, mem_range, mem_insert]
    by_cases hk : k = i
    · subst hk; simp [hi, hm]
    · rw [g_upd_ne _ _ _ _ hk]; simp [hk]
  rw [this, card_insert_of_notMem]
  simp only [mem_filter, mem_range, not_and, not_not]
  intro _
  rw [g_upd_eq _ _ _ (by omega)]

/-- The measure that decreases in the search. -/
def pathMeasure (n istart : Nat) (s : MPath) : Nat :=
  2 * unmarked n istart s.marks + s.h -
    (if 0 < s.h ∧ s.marks.g (s.istack.g (s.h - 1)) ≠ istart then 2 else 0)

/-- Search of the top row, already visited. -/
theorem path_dfs_spec {A : Csr} (hA : A.WF) {p0 q0 : Array Int} (hM : Matching A p0 q0)
    {istart : Nat} {s : MPath} (hs : PathInv A p0 q0 istart s)
    (hh : 0 < s.h) (hmk : s.marks.g (s.istack.g (s.h - 1)) = istart) :
    Ok (path_dfs A istart (s.istack.g (s.h - 1)) s) (fun s' =>
      PathInv A p0 q0 istart s' ∧ s'.marks = s.marks ∧ s'.found = s.found ∧
      ((s'.h = s.h + 1 ∧ s.marks.g (s'.istack.g s.h) ≠ istart) ∨
       (s'.h + 1 = s.h ∧ s'.istack = s.istack))) := by
  set i := s.istack.g (s.h - 1) with hi
  have hin : i < A.n := hs.lt _ (by omega)
  have hle := hs.h_le
  have hps := hA.p_size
  have hop := hs.open_ (s.h - 1) (by omega) hmk
  rw [← hi] at hop
  have hop2 : ∀ k, A.p.g i ≤ k → k < A.p.g i + s.pstack.g (s.h - 1) →
      s.marks.g (q0.g (A.j.g k)).toNat = istart := by
    intro k h1 h2
    rcases hop.2 k h1 h2 with h3 | ⟨h3, -⟩
    · exact h3
    · omega
  unfold path_dfs
  rw [Ok_bind, Ok_rd]
  refine ⟨by omega, ?_⟩
  rw [Ok_bind, Ok_rd]
  refine ⟨by omega, ?_⟩
  rw [Ok_bind, Ok_rd]
  refine ⟨by rw [hs.ps]; omega, ?_⟩
  rw [Ok_bind, hs.q_eq]
  have hnn : ∀ k, A.p.g i ≤ k → k < A.p.g (i + 1) → 0 ≤ q0.g (A.j.g k) := fun k h1 h2 =>
    hs.full i hin hmk _ ⟨k, h1, h2, rfl⟩
  refine (Ok_forBrk (I := fun px b => b = false ∧ ∀ k, A.p.g i ≤ k → k < px →
      s.marks.g (q0.g (A.j.g k)).toNat = istart)
    (B := fun px b => b = true ∧ s.marks.g (q0.g (A.j.g px)).toNat ≠ istart ∧
      ∀ k, A.p.g i ≤ k → k < px → s.marks.g (q0.g (A.j.g k)).toNat = istart)
    hop.1 ⟨rfl, hop2⟩ ?_).mono ?_
  · rintro px b h1 h2 ⟨-, h3⟩
    have hjl := hA.row_lt hin h2
    have hjm := hA.j_lt px hjl
    have hjs := hA.p_nnz
    have h0 := hnn px (by omega) h2
    have hq := hM.q_lt _ hjm
    rw [Ok_bind, Ok_rd]
    refine ⟨by omega, ?_⟩
    rw [Ok_bind, Ok_rd]
    refine ⟨by rw [hM.qsize]; omega, ?_⟩
    rw [Ok_bind, Ok_cassert]
    refine ⟨by simp only [decide_eq_true_eq]; omega, ?_⟩
    rw [Ok_bind, Ok_rdI]
    refine ⟨h0, by rw [hs.ms]; omega, ?_⟩
    by_cases hm : s.marks.g (q0.g (A.j.g px)).toNat = istart
    · rw [if_pos hm, Ok_ok]
      refine ⟨rfl, ?_⟩
      intro k hk1 hk2
      by_cases hk : k = px
      · rw [hk]; exact hm
      · exact h3 k hk1 (by omega)
    · rw [if_neg hm, Ok_ok]
      exact ⟨rfl, hm, h3⟩
  · rintro ⟨px, b⟩ hr
    simp only at hr ⊢
    rcases hr with ⟨h1, h2, rfl, h3, h4⟩ | ⟨rfl, rfl, h2⟩
    · rw [if_pos rfl]
      have hjl := hA.row_lt hin h2
      have hjm := hA.j_lt px hjl
      have hjs := hA.p_nnz
      have h0 := hnn px (by omega) h2
      have hq := hM.q_lt _ hjm
      set c := A.j.g px with hc
      have hnew : ∀ t, t < s.h → s.istack.g t ≠ (q0.g c).toNat := by
        intro t ht e
        rw [← e] at h3
        by_cases ht' : t + 1 < s.h
        · exact h3 (hs.below t ht')
        · have : t = s.h - 1 := by omega
          subst this
          exact h3 hmk
      -- one more entry fits
      have hroom : s.h + 1 ≤ A.n := by
        have := Finset.card_le_card_of_injOn (s := range (s.h + 1)) (t := range A.n)
          (fun t => if t < s.h then s.istack.g t else (q0.g c).toNat)
          (fun t ht => by
            by_cases h : t < s.h
            · have := hs.lt t h
              simpa [h] using this
            · have : (q0.g c).toNat < A.n := by omega
              simpa [h] using this)
          (fun t ht u hu e => by
            have ht : t < s.h + 1 := by simpa using ht
            have hu : u < s.h + 1 := by simpa using hu
            by_cases h : t < s.h <;> by_cases h' : u < s.h <;> simp only [h, h', if_true, if_false] at e
            · exact hs.inj t u h h' e
            · exact absurd e (hnew t h)
            · exact absurd e.symm (hnew u h')
            · omega)
        simpa using this
      rw [Ok_bind, Ok_rd]
      refine ⟨by omega, ?_⟩
      rw [Ok_bind, Ok_rd]
      refine ⟨by rw [hM.qsize]; omega, ?_⟩
      rw [Ok_bind, Ok_idx]
      refine ⟨h0, ?_⟩
      rw [Ok_bind, Ok_wr]
      refine ⟨by rw [hs.ps]; omega, ?_⟩
      rw [Ok_bind, Ok_wr]
      refine ⟨by rw [hs.js]; omega, ?_⟩
      rw [Ok_bind, Ok_wr]
      refine ⟨by rw [hs.is]; omega, ?_⟩
      rw [Ok_ok]
      have hI : ∀ t, t < s.h → (s.istack.upd s.h (q0.g c).toNat).g t = s.istack.g t := fun t ht =>
        g_upd_ne _ _ _ _ (by omega)
      have hIh : (s.istack.upd s.h (q0.g c).toNat).g s.h = (q0.g c).toNat :=
        g_upd_eq _ _ _ (by rw [hs.is]; omega)
      have hJ : ∀ t, t + 1 < s.h → (s.jstack.upd (s.h - 1) c).g t = s.jstack.g t := fun t ht =>
        g_upd_ne _ _ _ _ (by omega)
      have hJh : (s.jstack.upd (s.h - 1) c).g (s.h - 1) = c :=
        g_upd_eq _ _ _ (by rw [hs.js]; omega)
      refine ⟨?_, rfl, rfl, .inl ⟨rfl, ?_⟩⟩
      · refine ⟨by simp [hs.is], by simp [hs.js], by simp [hs.ps], hs.ms, hs.p_eq, rfl, hs.look,
          ?_, ?_, ?_, ?_, hs.le, ?_, hs.full, ?_, ?_, .inl (by simp)⟩
        · simp only
          intro t ht
          by_cases h : t < s.h
          · rw [hI t h]; exact hs.lt t h
          · have : t = s.h := by omega
            rw [this, hIh]; omega
        · simp only
          intro t u ht hu e
          by_cases h : t < s.h <;> by_cases h' : u < s.h
          · rw [hI t h, hI u h'] at e; exact hs.inj t u h h' e
          · have : u = s.h := by omega
            rw [hI t h, this, hIh] at e
            exact absurd e (hnew t h)
          · have : t = s.h := by omega
            rw [hI u h', this, hIh] at e
            exact absurd e.symm (hnew u h')
          · omega
        · simp only
          intro _; rw [hI 0 hh]; exact hs.first hh
        · simp only
          intro t ht
          by_cases h : t + 1 < s.h
          · rw [hI t (by omega), hJ t h, hI (t + 1) h]; exact hs.link t h
          · have e1 : t = s.h - 1 := by omega
            have e2 : s.h - 1 + 1 = s.h := by omega
            rw [e1, hI _ (by omega), hJh, e2, hIh]
            refine ⟨⟨px, by rw [← hi]; omega, h2, rfl⟩, by omega⟩
        · simp only
          intro t ht
          rw [hI t (by omega)]
          by_cases h : t + 1 < s.h
          · exact hs.below t h
          · have e1 : t = s.h - 1 := by omega
            rw [e1]; exact hmk
        · simp only
          intro i' hi' hm hn j hj
          refine hs.done i' hi' hm (fun t ht => ?_) j hj
          have := hn t (by omega)
          rwa [hI t ht] at this
        · simp only
          intro t ht hm
          by_cases h : t < s.h
          · rw [hI t h] at hm ⊢
            by_cases h' : t = s.h - 1
            · rw [h', ← hi, g_upd_eq _ _ _ (by rw [hs.ps]; omega)]
              refine ⟨by omega, fun k k1 k2 => ?_⟩
              by_cases hk : k < px
              · left; exact h4 k k1 hk
              · right
                have : k = px := by omega
                refine ⟨by omega, ?_⟩
                rw [this, show s.h + 1 - 1 = s.h by omega, hIh]
            · rw [g_upd_ne _ _ _ _ h']
              have := hs.open_ t h hm
              refine ⟨this.1, fun k k1 k2 => ?_⟩
              left
              rcases this.2 k k1 k2 with h5 | ⟨-, h5⟩
              · exact h5
              · rw [h5]; exact hmk
          · have : t = s.h := by omega
            rw [this, hIh] at hm
            exact absurd hm h3
      · simp only; rw [hIh]; exact h3
    · rw [if_neg (by simp), if_pos rfl, Ok_ok]
      refine ⟨?_, rfl, rfl, .inr ⟨by simp only; omega, rfl⟩⟩
      refine ⟨hs.is, hs.js, hs.ps, hs.ms, hs.p_eq, rfl, hs.look, ?_, ?_, ?_, ?_, hs.le, ?_,
        hs.full, ?_, ?_, ?_⟩
      · intro t ht; exact hs.lt t (by simp only at ht; omega)
      · intro t u ht hu e; exact hs.inj t u (by simp only at ht; omega) (by simp only at hu; omega) e
      · intro _; exact hs.first hh
      · intro t ht; exact hs.link t (by simp only at ht; omega)
      · intro t ht; exact hs.below t (by simp only at ht; omega)
      · simp only
        intro i' hi' hm hn j hj
        by_cases he : i' = i
        · obtain ⟨k, k1, k2, rfl⟩ := hj
          rw [he] at k1 k2
          exact h2 k k1 k2
        · refine hs.done i' hi' hm (fun t ht e => ?_) j hj
          by_cases h : t < s.h - 1
          · exact hn t h e
          · have : t = s.h - 1 := by omega
            rw [this] at e
            exact he e.symm
      · simp only
        intro t ht hm
        have := hs.open_ t (by omega) hm
        refine ⟨this.1, fun k k1 k2 => ?_⟩
        left
        rcases this.2 k k1 k2 with h5 | ⟨-, h5⟩
        · exact h5
        · rw [h5]; exact hmk
      · simp only
        by_cases h : 0 < s.h - 1
        · left; exact h
        · right
          have e1 : s.h - 1 = 0 := by omega
          have := hs.first hh
          rw [hi, e1, this] at hmk
          exact hmk

theorem augmenting_path_spec {A : Csr} (hA : A.WF) {s : MPath} (hM : Matching A s.p s.qinv)
    (hB : PathBase A s) {istart : Nat} (hist : istart < A.n) (hp : s.p.g istart < 0)
    (hmarks : ∀ i, i < A.n → s.marks.g i < istart) :
    Ok (augmenting_path A istart s) (fun s' => PathBase A s' ∧
      (∀ i, i < A.n → s'.marks.g i ≤ istart) ∧
      ((s'.found = true ∧ Augmented A s.p s.qinv istart s'.p s'.qinv) ∨
       (s'.found = false ∧ s'.p = s.p ∧ s'.qinv = s.qinv ∧
        ∃ W, MClosed A s.qinv W ∧ W istart))) := by
  unfold augmenting_path
  rw [Ok_bind, Ok_wr]
  refine ⟨by rw [hB.is]; omega, ?_⟩
  refine Ok_whileFuel (pathMeasure A.n istart)
    (I := fun s' => PathInv A s.p s.qinv istart s' ∧ s'.found = false) ?_ _ _ ?_ ?_
  · rintro s1 ⟨hs, hf⟩
    by_cases hh : s1.h = 0
    · rw [if_pos hh, Ok_ok]
      refine ⟨⟨hs.is, hs.js, hs.ps, hs.ms, by rw [hs.q_eq]; exact hs.look⟩, hs.le,
        .inr ⟨hf, hs.p_eq, hs.q_eq, fun i => i < A.n ∧ s1.marks.g i = istart, ?_, hist, ?_⟩⟩
      · rintro i ⟨hi, hm⟩
        refine ⟨hi, fun j hj => ?_⟩
        have h0 := hs.full i hi hm j hj
        have := hM.q_lt j (hA.inRow_lt hi hj)
        exact ⟨h0, by omega, hs.done i hi hm (fun t ht => by omega) j hj⟩
      · rcases hs.root with h | h
        · omega
        · exact h
    · rw [if_neg hh, Ok_bind, Ok_rd]
      have hle := hs.h_le
      refine ⟨by rw [hs.is]; omega, ?_⟩
      rw [Ok_bind]
      refine (path_visit_spec hA hM hs hp (by omega) hf).mono ?_
      rintro s2 ⟨hle2, hc⟩
      rcases hc with ⟨c1, c2, c3⟩ | ⟨c1, c2, c3, c4, c5⟩
      · rw [if_pos c1, Ok_ok]
        exact ⟨c2, hle2, .inl ⟨c1, c3⟩⟩
      · rw [if_neg (by rw [c1]; simp), Ok_bind]
        have htop : s1.istack.g (s1.h - 1) < A.n := hs.lt _ (by omega)
        have hmk : s2.marks.g (s2.istack.g (s2.h - 1)) = istart := by
          rw [c3, c4, c5, g_upd_eq _ _ _ (by rw [hs.ms]; exact htop)]
        have key := path_dfs_spec hA hM c2 (by omega) hmk
        rw [c4, c3] at key
        refine key.mono ?_
        rintro s3 ⟨d1, d2, d3, d4⟩
        rw [Ok_ok]
        refine ⟨⟨d1, by rw [d3, c1]⟩, ?_⟩
        -- the measure decreases
        have hu : unmarked A.n istart s2.marks +
            (if s1.marks.g (s1.istack.g (s1.h - 1)) ≠ istart then 1 else 0) =
            unmarked A.n istart s1.marks := by
          by_cases hm : s1.marks.g (s1.istack.g (s1.h - 1)) = istart
          · rw [if_neg (by simpa using hm), Nat.add_zero, c5]
            congr 1
            refine array_ext_g (by simp) ?_
            intro i hi
            by_cases he : i = s1.istack.g (s1.h - 1)
            · rw [he, g_upd_eq _ _ _ (by rw [hs.ms]; omega), hm]
            · rw [g_upd_ne _ _ _ _ he]
          · rw [if_pos hm, c5, unmarked_upd hs.ms htop hm]
        unfold pathMeasure
        rw [d2]
        rcases d4 with ⟨d4, d5⟩ | ⟨d4, d5⟩
        · have hpos : 0 < unmarked A.n istart s2.marks := by
            unfold unmarked
            refine Finset.card_pos.mpr ⟨s3.istack.g s2.h, ?_⟩
            rw [c3]
            simp only [mem_filter, mem_range]
            refine ⟨d1.lt _ (by omega), d5⟩
          rw [if_pos ⟨by omega, by rw [d4, show s1.h + 1 - 1 = s1.h by omega]; exact d5⟩]
          by_cases hm : s1.marks.g (s1.istack.g (s1.h - 1)) = istart
          · rw [if_neg (by simpa using hm)] at hu
            rw [if_neg (fun hh => hh.2 hm)]
            omega
          · rw [if_pos hm] at hu
            rw [if_pos ⟨by omega, hm⟩]
            omega
        · have : ¬ (0 < s3.h ∧ s2.marks.g (s3.istack.g (s3.h - 1)) ≠ istart) := by
            rintro ⟨k1, k2⟩
            rw [d5] at k2
            have := c2.below (s3.h - 1) (by omega)
            rw [c4] at this
            exact k2 this
          rw [if_neg this]
          by_cases hm : s1.marks.g (s1.istack.g (s1.h - 1)) = istart
          · rw [if_neg (by simpa using hm)] at hu
            rw [if_neg (fun hh => hh.2 hm)]
            omega
          · rw [if_pos hm] at hu
            rw [if_pos ⟨by omega, hm⟩]
            omega
  · have e0 : (s.istack.upd 0 istart).g 0 = istart := g_upd_eq _ _ _ (by rw [hB.is]; omega)
    refine ⟨⟨by simp [hB.is], hB.js, hB.ps, hB.ms, rfl, rfl, hB.look, ?_, ?_, ?_, ?_, ?_, ?_, ?_, ?_, ?_,
      .inl (by simp)⟩, rfl⟩
    · simp only; intro t ht
      rw [show t = 0 by omega, e0]; exact hist
    · simp only; intro t u ht hu _; omega
    · simp only; intro _; exact e0
    · simp only; intro t ht; omega
    · intro i hi; exact le_of_lt (hmarks i hi)
    · simp only; intro t ht; omega
    · simp only; intro i hi hm; have := hmarks i hi; omega
    · simp only; intro i hi hm; have := hmarks i hi; omega
    · simp only; intro t ht hm
      rw [show t = 0 by omega, e0] at hm
      have := hmarks _ hist; omega
  · unfold pathMeasure
    have : unmarked A.n istart s.marks ≤ A.n := by
      unfold unmarked
      exact le_trans (card_filter_le _ _) (by simp)
    simp only
    omega

end Spasm
