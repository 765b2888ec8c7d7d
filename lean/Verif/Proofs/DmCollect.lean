import Verif.Proofs.Dm

namespace Spasm

open Finset

/-- The first `k` positions of `a` list the elements of `P`, without repetition. -/
structure Listing (n : Nat) (a : Array Nat) (k : Nat) (P : Nat → Prop) : Prop where
  size : a.size = n
  lt : ∀ t, t < k → a.g t < n
  mem : ∀ t, t < k → P (a.g t)
  inj : ∀ t u, t < u → u < k → a.g t ≠ a.g u
  all : ∀ x, P x → ∃ t, t < k ∧ a.g t = x

namespace Listing

variable {n k : Nat} {a : Array Nat} {P : Nat → Prop}

theorem congr (h : Listing n a k P) {Q : Nat → Prop} (hPQ : ∀ x, P x ↔ Q x) : Listing n a k Q :=
  ⟨h.size, h.lt, fun t ht => (hPQ _).1 (h.mem t ht), h.inj, fun x hx => h.all x ((hPQ x).2 hx)⟩

theorem injOn (h : Listing n a k P) : Set.InjOn a.g (Finset.range k : Set Nat) := by
  intro t ht u hu he
  have ht' : t < k := by simpa using ht
  have hu' : u < k := by simpa using hu
  rcases Nat.lt_trichotomy t u with hlt | hlt | hlt
  · exact absurd he (h.inj t u hlt hu')
  · exact hlt
  · exact absurd he.symm (h.inj u t hlt ht')

theorem room (h : Listing n a k P) {x : Nat} (hx : x < n) (hn : ¬ P x) : k < n := by
  have := Finset.card_le_card_of_injOn (s := Finset.range k)
    (t := (Finset.range n).erase x) a.g
    (fun t ht => by
      have ht' : t < k := by simpa using ht
      simp only [Finset.coe_erase, Finset.coe_range, Set.mem_sdiff, Set.mem_Iio,
        Set.mem_singleton_iff]
      exact ⟨h.lt t ht', fun he => hn (he ▸ h.mem t ht')⟩) h.injOn
  rw [Finset.card_erase_of_mem (by simpa using hx)] at this
  simp only [Finset.card_range] at this
  omega

theorem le (h : Listing n a k P) : k ≤ n := by
  have := Finset.card_le_card_of_injOn (s := Finset.range k) (t := Finset.range n) a.g
    (fun t ht => by simpa using h.lt t (by simpa using ht)) h.injOn
  simpa using this

theorem full (h : Listing n a k P) (hP : ∀ x, x < n → P x) : k = n := by
  refine le_antisymm h.le ?_
  have := Finset.card_le_card_of_surjOn (s := Finset.range k) (t := Finset.range n) a.g
    (by
      intro v hv
      obtain ⟨t, h1, h2⟩ := h.all v (hP v (by simpa using hv))
      exact ⟨t, by simpa using h1, h2⟩)
  simpa using this

theorem add (h : Listing n a k P) {x : Nat} (hx : x < n) (hn : ¬ P x) :
    Listing n (a.upd k x) (k + 1) (fun y => P y ∨ y = x) := by
  have hk := h.room hx hn
  have hs := h.size
  have old : ∀ t, t < k → (a.upd k x).g t = a.g t := fun t ht => g_upd_ne _ _ _ _ (by omega)
  have new : (a.upd k x).g k = x := g_upd_eq _ _ _ (by omega)
  refine ⟨by simpa using h.size, ?_, ?_, ?_, ?_⟩
  · intro t ht
    by_cases he : t = k
    · rw [he, new]; exact hx
    · rw [old t (by omega)]; exact h.lt t (by omega)
  · intro t ht
    by_cases he : t = k
    · rw [he, new]; exact Or.inr rfl
    · rw [old t (by omega)]; exact Or.inl (h.mem t (by omega))
  · intro t u htu hu
    rw [old t (by omega)]
    by_cases he : u = k
    · rw [he, new]
      intro h'; exact hn (h' ▸ h.mem t (by omega))
    · rw [old u (by omega)]; exact h.inj t u htu (by omega)
  · rintro y (hy | hy)
    · obtain ⟨t, ht, he⟩ := h.all y hy
      exact ⟨t, by omega, by rw [old t ht]; exact he⟩
    · exact ⟨k, by omega, by rw [new, hy]⟩

theorem start (hs : a.size = n) (hP : ∀ x, ¬ P x) : Listing n a 0 P :=
  ⟨hs, fun t ht => by omega, fun t ht => by omega, fun t u _ ht => by omega,
    fun x hx => absurd hx (hP x)⟩

end Listing

/-- `collect_unmatched` appends the indices of mark 0. -/
theorem collect_unmatched_spec {n : Nat} {wi : Array Int} {p : Array Nat} {rr : Array Int}
    {set k : Nat} {P : Nat → Prop} (hL : Listing n p k P) (hP : ∀ x, P x → ¬ wi.g x = 0)
    (hwi : n ≤ wi.size) (hrs : set + 1 < rr.size) (hrr : rr.g set = k) :
    Ok (collect_unmatched n wi p rr set) (fun r => ∃ k', k ≤ k' ∧
      Listing n r.1 k' (fun x => P x ∨ (x < n ∧ wi.g x = 0)) ∧
      (∀ t, t < k → r.1.g t = p.g t) ∧ (∀ t, k ≤ t → t < k' → wi.g (r.1.g t) = 0) ∧
      r.2 = rr.upd (set + 1) k') := by
  unfold collect_unmatched
  rw [Ok_bind, Ok_rd]
  refine ⟨by omega, ?_⟩
  rw [Ok_bind]
  refine Ok_forRange_imp (I := fun i (s : Array Nat × Int) => ∃ k' : Nat, s.2 = k' ∧ k ≤ k' ∧
    Listing n s.1 k' (fun x => P x ∨ (x < i ∧ wi.g x = 0)) ∧
    (∀ t, t < k → s.1.g t = p.g t) ∧ (∀ t, k ≤ t → t < k' → wi.g (s.1.g t) = 0)) (by omega) ?_ ?_ ?_
  · refine ⟨k, hrr, le_refl _, hL.congr ?_, fun _ _ => rfl, fun t h1 h2 => by omega⟩
    intro x
    constructor
    · exact Or.inl
    · rintro (h | ⟨h, -⟩)
      · exact h
      · omega
  · rintro i ⟨p', kr⟩ - hi ⟨k', rfl, h1, h2, h3, h4⟩
    simp only at h2 h3 h4 ⊢
    rw [Ok_bind, Ok_rd]
    refine ⟨by omega, ?_⟩
    by_cases hw : wi.g i = 0
    · rw [if_pos hw]
      have hni : ¬ (P i ∨ (i < i ∧ wi.g i = 0)) := by
        rintro (h | ⟨h, -⟩)
        · exact hP i h hw
        · omega
      have hroom := h2.room hi hni
      rw [Ok_bind, Ok_wrI]
      refine ⟨by omega, by rw [h2.size]; omega, ?_⟩
      rw [Ok_ok, Int.toNat_natCast]
      refine ⟨k' + 1, by simp only; omega, by omega, (h2.add hi hni).congr ?_, ?_, ?_⟩
      · intro x
        constructor
        · rintro ((h | h) | h)
          · exact Or.inl h
          · exact Or.inr ⟨by omega, h.2⟩
          · exact Or.inr ⟨by omega, by rw [h]; exact hw⟩
        · rintro (h | h)
          · exact Or.inl (Or.inl h)
          · by_cases he : x = i
            · exact Or.inr he
            · exact Or.inl (Or.inr ⟨by omega, h.2⟩)
      · intro t ht
        rw [g_upd_ne _ _ _ _ (by omega)]; exact h3 t ht
      · intro t ht1 ht2
        by_cases he : t = k'
        · rw [he, g_upd_eq _ _ _ (by rw [h2.size]; omega)]; exact hw
        · rw [g_upd_ne _ _ _ _ he]; exact h4 t ht1 (by omega)
    · rw [if_neg hw, Ok_ok]
      refine ⟨k', rfl, h1, h2.congr ?_, h3, h4⟩
      intro x
      constructor
      · rintro (h | h)
        · exact Or.inl h
        · exact Or.inr ⟨by omega, h.2⟩
      · rintro (h | h)
        · exact Or.inl h
        · by_cases he : x = i
          · exact absurd (he ▸ h.2) hw
          · exact Or.inr ⟨by omega, h.2⟩
  · rintro ⟨p', kr⟩ ⟨k', rfl, h1, h2, h3, h4⟩
    simp only at h2 h3 h4 ⊢
    rw [Ok_bind, Ok_wr]
    refine ⟨hrs, ?_⟩
    rw [Ok_ok]
    exact ⟨k', h1, h2, h3, h4, rfl⟩

/-- Rows matched to the columns of `P`. -/
def MRows (n : Nat) (jmatch : Array Int) (P : Nat → Prop) (i : Nat) : Prop :=
  i < n ∧ 0 ≤ jmatch.g i ∧ P (jmatch.g i).toNat

/-- `collect_matched` appends the columns of a given mark, and the rows matched to them. -/
theorem collect_matched_spec {A : Csr} {imatch jmatch : Array Int} (hM : Matching A jmatch imatch)
    {wj : Array Int} {p q : Array Nat} {cc rr : Array Int} {set : Nat} {mark : Int}
    {c1 kc kr : Nat} {P : Nat → Prop} (hset : 1 ≤ set)
    (hq : Listing A.m q kc P) (hp : Listing A.n p kr (MRows A.n jmatch P))
    (hP : ∀ x, P x → wj.g x ≠ mark) (hmk : ∀ x, x < A.m → wj.g x = mark → 0 ≤ imatch.g x)
    (hc1 : c1 + kr = kc) (hpq : ∀ t, t < kr → (p.g t : Int) = imatch.g (q.g (c1 + t)))
    (hwj : A.m ≤ wj.size) (hcs : set + 1 < cc.size) (hrs : set < rr.size)
    (hcc : cc.g set = kc) (hrr : rr.g (set - 1) = kr) :
    Ok (collect_matched A.m wj imatch p q cc rr set mark) (fun r => ∃ kc' kr', kc ≤ kc' ∧ kr ≤ kr' ∧
      c1 + kr' = kc' ∧ Listing A.m r.2.1 kc' (fun x => P x ∨ (x < A.m ∧ wj.g x = mark)) ∧
      Listing A.n r.1 kr' (MRows A.n jmatch (fun x => P x ∨ (x < A.m ∧ wj.g x = mark))) ∧
      (∀ t, t < kr' → (r.1.g t : Int) = imatch.g (r.2.1.g (c1 + t))) ∧
      (∀ t, t < kc → r.2.1.g t = q.g t) ∧
      (∀ t, kc ≤ t → t < kc' → wj.g (r.2.1.g t) = mark) ∧
      r.2.2.1 = cc.upd (set + 1) kc' ∧ r.2.2.2 = rr.upd set kr') := by
  unfold collect_matched
  rw [Ok_bind, Ok_rd]
  refine ⟨by omega, ?_⟩
  rw [Ok_bind, Ok_rd]
  refine ⟨by omega, ?_⟩
  rw [Ok_bind]
  refine Ok_forRange_imp (I := fun j (s : Array Nat × Array Nat × Int × Int) => ∃ kc' kr' : Nat,
    s.2.2.1 = kr' ∧ s.2.2.2 = kc' ∧ kc ≤ kc' ∧ kr ≤ kr' ∧
    c1 + kr' = kc' ∧ Listing A.m s.2.1 kc' (fun x => P x ∨ (x < j ∧ wj.g x = mark)) ∧
    Listing A.n s.1 kr' (MRows A.n jmatch (fun x => P x ∨ (x < j ∧ wj.g x = mark))) ∧
    (∀ t, t < kr' → (s.1.g t : Int) = imatch.g (s.2.1.g (c1 + t))) ∧
    (∀ t, t < kc → s.2.1.g t = q.g t) ∧
    (∀ t, kc ≤ t → t < kc' → wj.g (s.2.1.g t) = mark)) (by omega) ?_ ?_ ?_
  · have hiff : ∀ x, P x ↔ P x ∨ (x < 0 ∧ wj.g x = mark) := by
      intro x
      constructor
      · exact Or.inl
      · rintro (h | ⟨h, -⟩)
        · exact h
        · omega
    refine ⟨kc, kr, hrr, hcc, le_refl _, le_refl _, hc1, hq.congr hiff, hp.congr ?_, hpq,
      fun _ _ => rfl, fun t h1 h2 => by omega⟩
    intro x
    exact and_congr Iff.rfl (and_congr Iff.rfl (hiff _))
  · rintro j ⟨p', q', kr0, kc0⟩ - hj ⟨kc', kr', rfl, rfl, h1, h2, h3, h4, h5, h6, h7, h8⟩
    simp only at h4 h5 h6 h7 h8 ⊢
    rw [Ok_bind, Ok_rd]
    refine ⟨by omega, ?_⟩
    by_cases hw : wj.g j = mark
    · rw [if_neg (not_not.mpr hw)]
      have him := hmk j hj hw
      have hilt := hM.q_lt j hj
      have hjm := hM.pq j hj him
      have hnj : ¬ (P j ∨ (j < j ∧ wj.g j = mark)) := by
        rintro (h | ⟨h, -⟩)
        · exact hP j h hw
        · omega
      have hroom := h4.room hj hnj
      have hni : ¬ MRows A.n jmatch (fun x => P x ∨ (x < j ∧ wj.g x = mark)) (imatch.g j).toNat := by
        rintro ⟨-, -, h⟩
        rw [hjm, Int.toNat_natCast] at h
        exact hnj h
      have hroom' := h5.room (by omega) hni
      rw [Ok_bind, Ok_rd]
      refine ⟨by rw [hM.qsize]; omega, ?_⟩
      rw [Ok_bind, Ok_idx]
      refine ⟨him, ?_⟩
      rw [Ok_bind, Ok_wrI]
      refine ⟨by omega, by rw [h5.size]; omega, ?_⟩
      rw [Ok_bind, Ok_wrI]
      refine ⟨by omega, by rw [h4.size]; omega, ?_⟩
      rw [Ok_ok]
      simp only [Int.toNat_natCast]
      have hiff : ∀ x, (P x ∨ (x < j ∧ wj.g x = mark)) ∨ x = j ↔ P x ∨ (x < j + 1 ∧ wj.g x = mark) := by
        intro x
        constructor
        · rintro ((h | h) | h)
          · exact Or.inl h
          · exact Or.inr ⟨by omega, h.2⟩
          · exact Or.inr ⟨by omega, by rw [h]; exact hw⟩
        · rintro (h | h)
          · exact Or.inl (Or.inl h)
          · by_cases he : x = j
            · exact Or.inr he
            · exact Or.inl (Or.inr ⟨by omega, h.2⟩)
      refine ⟨kc' + 1, kr' + 1, by omega, by omega, by omega, by omega, by omega,
        (h4.add hj hnj).congr hiff, (h5.add (by omega) hni).congr ?_, ?_, ?_, ?_⟩
      · intro i
        unfold MRows
        constructor
        · rintro (⟨a1, a2, a3⟩ | a1)
          · exact ⟨a1, a2, (hiff _).1 (Or.inl a3)⟩
          · rw [a1, hjm]
            exact ⟨by omega, by omega, (hiff _).1 (Or.inr (by omega))⟩
        · rintro ⟨a1, a2, a3⟩
          rcases (hiff _).2 a3 with a4 | a4
          · exact Or.inl ⟨a1, a2, a4⟩
          · right
            have := hM.qp i a1 a2
            rw [a4] at this
            omega
      · intro t ht
        by_cases he : t = kr'
        · rw [he, g_upd_eq _ _ _ (by rw [h5.size]; omega),
            show c1 + kr' = kc' from h3, g_upd_eq _ _ _ (by rw [h4.size]; omega)]
          omega
        · rw [g_upd_ne _ _ _ _ he, g_upd_ne _ _ _ _ (by omega)]
          exact h6 t (by omega)
      · intro t ht
        rw [g_upd_ne _ _ _ _ (by omega)]; exact h7 t ht
      · intro t ht1 ht2
        by_cases he : t = kc'
        · rw [he, g_upd_eq _ _ _ (by rw [h4.size]; omega)]; exact hw
        · rw [g_upd_ne _ _ _ _ he]; exact h8 t ht1 (by omega)
    · rw [if_pos hw, Ok_ok]
      have hiff : ∀ x, P x ∨ (x < j ∧ wj.g x = mark) ↔ P x ∨ (x < j + 1 ∧ wj.g x = mark) := by
        intro x
        constructor
        · rintro (h | h)
          · exact Or.inl h
          · exact Or.inr ⟨by omega, h.2⟩
        · rintro (h | h)
          · exact Or.inl h
          · by_cases he : x = j
            · exact absurd (he ▸ h.2) hw
            · exact Or.inr ⟨by omega, h.2⟩
      refine ⟨kc', kr', rfl, rfl, h1, h2, h3, h4.congr hiff, h5.congr ?_, h6, h7, h8⟩
      intro x
      exact and_congr Iff.rfl (and_congr Iff.rfl (hiff _))
  · rintro ⟨p', q', kr0, kc0⟩ ⟨kc', kr', rfl, rfl, h1, h2, h3, h4, h5, h6, h7, h8⟩
    simp only at h4 h5 h6 h7 h8 ⊢
    rw [Ok_bind, Ok_wr]
    refine ⟨hcs, ?_⟩
    rw [Ok_bind, Ok_wr]
    refine ⟨hrs, ?_⟩
    rw [Ok_ok]
    exact ⟨kc', kr', h1, h2, h3, h4, h5, h6, h7, h8, rfl, rfl⟩

end Spasm
