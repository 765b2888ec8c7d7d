import Verif.Model.Greedy
import Verif.Proofs.Pivots
import Verif.Proofs.Reorder
import Verif.Proofs.CsrRows

namespace Spasm.Greedy

open Finset

/-- Invariant of the private variables of a search. -/
structure SInv (m : Nat) (x : Srch) : Prop where
  wsize : x.w.size = m
  qsize : x.queue.size = m
  tri : ∀ j, j < m → x.w.g j = -1 ∨ x.w.g j = 0 ∨ x.w.g j = 1
  ht : x.head ≤ x.tail
  qlt : ∀ l, l < x.tail → x.queue.g l < m
  inq : ∀ j, j < m → (x.w.g j = -1 ↔ ∃ l, l < x.tail ∧ x.queue.g l = j)
  inj : ∀ l l', l < l' → l' < x.tail → x.queue.g l ≠ x.queue.g l'
  surv : x.surv = ((range m).filter fun j => x.w.g j = 1).card

/-- `x'` is a later state of the same search. -/
structure SExt (x x' : Srch) : Prop where
  head : x'.head = x.head
  tail : x.tail ≤ x'.tail
  queue : ∀ l, l < x.tail → x'.queue.g l = x.queue.g l
  mono : ∀ j, x.w.g j = -1 → x'.w.g j = -1
  same : ∀ j, x'.w.g j ≠ -1 → x'.w.g j = x.w.g j

theorem SExt.refl (x : Srch) : SExt x x := ⟨rfl, le_refl _, fun _ _ => rfl, fun _ h => h, fun _ _ => rfl⟩

theorem SExt.trans {x y z : Srch} (h : SExt x y) (h' : SExt y z) : SExt x z :=
  ⟨h'.head.trans h.head, h.tail.trans h'.tail,
   fun l hl => (h'.queue l (lt_of_lt_of_le hl h.tail)).trans (h.queue l hl),
   fun j hj => h'.mono j (h.mono j hj),
   fun j hj => by
    have h1 := h'.same j hj
    rw [h1]; rw [h1] at hj
    exact h.same j hj⟩

theorem SInv.tail_lt {m : Nat} {x : Srch} (h : SInv m x) {j : Nat} (hj : j < m) (hw : x.w.g j ≠ -1) :
    x.tail < m := by
  refine lt_of_inj_missing (f := x.queue.g) hj
    (fun l hl => ⟨h.qlt l hl, fun he => hw ((h.inq j hj).2 ⟨l, hl, he⟩)⟩) ?_
  intro a b ha hb he
  rcases Nat.lt_trichotomy a b with h1 | h1 | h1
  · exact absurd he (h.inj a b h1 hb)
  · exact h1
  · exact absurd he.symm (h.inj b a h1 ha)

theorem enqueue_spec {m : Nat} {x : Srch} (h : SInv m x) {j : Nat} (hj : j < m) (hw : x.w.g j ≠ -1) :
    Ok (bfs_enqueue x j) (fun x' => SInv m x' ∧ SExt x x' ∧ x'.w = x.w.upd j (-1)) := by
  have ht := h.tail_lt hj hw
  have h1 := h.wsize
  have h2 := h.qsize
  unfold bfs_enqueue
  rw [Ok_bind, Ok_wr]; refine ⟨by omega, ?_⟩
  rw [Ok_bind, Ok_rd]; refine ⟨by omega, ?_⟩
  rw [Ok_bind, Ok_wr]; refine ⟨by omega, ?_⟩
  rw [Ok_ok]
  have hnq : ¬ ∃ l, l < x.tail ∧ x.queue.g l = j := fun hq => hw ((h.inq j hj).2 hq)
  have hold : ∀ l, l < x.tail → (x.queue.upd x.tail j).g l = x.queue.g l := fun l hl =>
    g_upd_ne _ _ _ _ (by omega)
  have hnew : (x.queue.upd x.tail j).g x.tail = j := g_upd_eq _ _ _ (by omega)
  refine ⟨⟨by simpa using h1, by simpa using h2, ?_, ?_, ?_, ?_, ?_, ?_⟩, ⟨rfl, ?_, hold, ?_, ?_⟩, rfl⟩
  · intro c hc
    by_cases he : c = j
    · subst he; left; exact g_upd_eq _ _ _ (by omega)
    · simp only; rw [g_upd_ne _ _ _ _ he]; exact h.tri c hc
  · have := h.ht; simp only; omega
  · intro l hl
    simp only at hl ⊢
    by_cases he : l = x.tail
    · rw [he, hnew]; exact hj
    · rw [hold l (by omega)]; exact h.qlt l (by omega)
  · intro c hc
    simp only
    by_cases he : c = j
    · subst he
      rw [g_upd_eq _ _ _ (by omega)]
      exact ⟨fun _ => ⟨x.tail, by omega, hnew⟩, fun _ => rfl⟩
    · rw [g_upd_ne _ _ _ _ he, h.inq c hc]
      constructor
      · rintro ⟨l, h3, h4⟩
        exact ⟨l, by omega, by rw [hold l h3]; exact h4⟩
      · rintro ⟨l, h3, h4⟩
        by_cases hl : l = x.tail
        · rw [hl, hnew] at h4; exact absurd h4.symm he
        · exact ⟨l, by omega, by rw [← hold l (by omega)]; exact h4⟩
  · intro l l' h3 h4
    simp only at h4 ⊢
    by_cases hl : l' = x.tail
    · rw [hl, hnew, hold l (by omega)]
      exact fun he => hnq ⟨l, by omega, he⟩
    · rw [hold l (by omega), hold l' (by omega)]
      exact h.inj l l' h3 (by omega)
  · simp only
    rw [h.surv]
    rcases h.tri j hj with h3 | h3 | h3
    · exact absurd h3 hw
    · rw [h3, Int.sub_zero]
      congr 2
      ext c
      simp only [mem_filter, mem_range]
      by_cases he : c = j
      · subst he; rw [g_upd_eq _ _ _ (by omega), h3]; simp
      · rw [g_upd_ne _ _ _ _ he]
    · rw [h3]
      have : ((range m).filter fun c => x.w.g c = 1) =
          insert j ((range m).filter fun c => (x.w.upd j (-1)).g c = 1) := by
        ext c
        simp only [mem_insert, mem_filter, mem_range]
        by_cases he : c = j
        · subst he; simp [h3, hj]
        · rw [g_upd_ne _ _ _ _ he]; simp [he]
      rw [this, card_insert_of_notMem]
      · push_cast; omega
      · simp only [mem_filter, not_and]
        intro _
        rw [g_upd_eq _ _ _ (by omega)]; omega
  · simp only; omega
  · intro c hc
    simp only
    by_cases he : c = j
    · subst he; exact g_upd_eq _ _ _ (by omega)
    · rw [g_upd_ne _ _ _ _ he]; exact hc
  · intro c hc
    simp only at hc ⊢
    by_cases he : c = j
    · subst he; exact absurd (g_upd_eq _ _ _ (by omega)) hc
    · rw [g_upd_ne _ _ _ _ he]

theorem enqueue_row_spec {A : Csr} (hA : A.WF) {x : Srch} (h : SInv A.m x) {i : Nat} (hi : i < A.n) :
    Ok (bfs_enqueue_row A x i) (fun x' => SInv A.m x' ∧ SExt x x' ∧
      ∀ c, A.InRow i c → x'.w.g c = -1) := by
  have hps := hA.p_size
  unfold bfs_enqueue_row
  rw [Ok_bind, Ok_rd]; refine ⟨by omega, ?_⟩
  rw [Ok_bind, Ok_rd]; refine ⟨by omega, ?_⟩
  refine Ok_forRange_imp (I := fun k (x' : Srch) => SInv A.m x' ∧ SExt x x' ∧
    ∀ l, A.p.g i ≤ l → l < k → x'.w.g (A.j.g l) = -1) (hA.row_le hi).1
    ⟨h, SExt.refl x, fun l h1 h2 => by omega⟩ ?_ ?_
  · rintro k x' hlo hhi ⟨h1, h2, h3⟩
    have hk := hA.row_lt hi hhi
    have hj : A.j.g k < A.m := hA.inRow_lt hi ⟨k, hlo, hhi, rfl⟩
    have hw := h1.wsize
    have hnz := hA.p_nnz
    rw [Ok_bind, Ok_rd]; refine ⟨by omega, ?_⟩
    rw [Ok_bind, Ok_rd]; refine ⟨by omega, ?_⟩
    by_cases hc : 0 ≤ x'.w.g (A.j.g k)
    · rw [if_pos hc]
      refine (enqueue_spec h1 hj (by omega)).mono ?_
      rintro x'' ⟨g1, g2, g3⟩
      refine ⟨g1, h2.trans g2, ?_⟩
      intro l hl1 hl2
      by_cases he : l = k
      · rw [he, g3, g_upd_eq _ _ _ (by omega)]
      · exact g2.mono _ (h3 l hl1 (by omega))
    · rw [if_neg hc, Ok_ok]
      refine ⟨h1, h2, ?_⟩
      intro l hl1 hl2
      by_cases he : l = k
      · rw [he]
        rcases h1.tri _ hj with g | g | g <;> omega
      · exact h3 l hl1 (by omega)
  · rintro x' ⟨h1, h2, h3⟩
    refine ⟨h1, h2, ?_⟩
    rintro c ⟨l, hl1, hl2, rfl⟩
    exact h3 l hl1 hl2

/-- With a positive count, a surviving entry is found, provided the surviving entries are on the
row. -/
theorem survivor_spec {A : Csr} (hA : A.WF) {x : Srch} (h : SInv A.m x) {i : Nat} (hi : i < A.n)
    (hone : ∀ j, j < A.m → x.w.g j = 1 → A.InRow i j) (hs : x.surv ≠ 0) :
    Ok (survivor A x i) (fun j => j < A.m ∧ A.InRow i j ∧ x.w.g j = 1) := by
  have hps := hA.p_size
  obtain ⟨j0, hj0, hw0⟩ : ∃ j, j < A.m ∧ x.w.g j = 1 := by
    by_contra hn
    apply hs
    rw [h.surv]
    rw [Finset.filter_eq_empty_iff.2]
    · rfl
    · intro j hj hw
      exact hn ⟨j, by simpa using hj, hw⟩
  obtain ⟨k0, hk1, hk2, hk3⟩ := hone j0 hj0 hw0
  unfold survivor
  rw [Ok_bind, Ok_rd]; refine ⟨by omega, ?_⟩
  rw [Ok_bind, Ok_rd]; refine ⟨by omega, ?_⟩
  rw [Ok_bind]
  refine (Ok_forBrk (I := fun k (_ : Int) => ∀ l, A.p.g i ≤ l → l < k → x.w.g (A.j.g l) ≠ 1)
    (B := fun k (v : Int) => v = (A.j.g k : Int) ∧ x.w.g (A.j.g k) = 1) (hA.row_le hi).1
    (fun l h1 h2 => by omega) ?_).mono ?_
  · intro k v hlo hhi hI
    have hk := hA.row_lt hi hhi
    have hj : A.j.g k < A.m := hA.inRow_lt hi ⟨k, hlo, hhi, rfl⟩
    have hw := h.wsize
    have hnz := hA.p_nnz
    rw [Ok_bind, Ok_rd]; refine ⟨by omega, ?_⟩
    rw [Ok_bind, Ok_rd]; refine ⟨by omega, ?_⟩
    by_cases hc : x.w.g (A.j.g k) = 1
    · rw [if_pos hc, Ok_ok]
      exact ⟨rfl, hc⟩
    · rw [if_neg hc, Ok_ok]
      intro l h1 h2
      by_cases he : l = k
      · rw [he]; exact hc
      · exact hI l h1 (by omega)
  · rintro ⟨k, v⟩ (⟨h1, h2, h3, h4⟩ | ⟨-, h2⟩)
    · simp only at h1 h2 h3 h4 ⊢
      rw [h3, Ok_bind, Ok_cassert]
      refine ⟨by simp, ?_⟩
      rw [Ok_idx]
      refine ⟨by omega, ?_⟩
      rw [Int.toNat_natCast]
      exact ⟨hA.inRow_lt hi ⟨k, h1, h2, rfl⟩, ⟨k, h1, h2, rfl⟩, h4⟩
    · exact absurd (by rw [hk3]; exact hw0) (h2 k0 hk1 hk2)

theorem cleanup_spec {A : Csr} (hA : A.WF) {x : Srch} (hw : x.w.size = A.m) (hq : x.queue.size = A.m)
    {i : Nat} (hi : i < A.n) (ht : x.tail ≤ A.m) (hqlt : ∀ l, l < x.tail → x.queue.g l < A.m)
    (hnz : ∀ c, c < A.m → x.w.g c ≠ 0 → A.InRow i c ∨ ∃ l, l < x.tail ∧ x.queue.g l = c) :
    Ok (cleanup A x i) (fun w => w.size = A.m ∧ ∀ j, j < A.m → w.g j = 0) := by
  have hps := hA.p_size
  unfold cleanup
  rw [Ok_bind, Ok_rd]; refine ⟨by omega, ?_⟩
  rw [Ok_bind, Ok_rd]; refine ⟨by omega, ?_⟩
  rw [Ok_bind]
  refine Ok_forRange_imp (I := fun k (w : Array Int) => w.size = A.m ∧ ∀ c, c < A.m → w.g c ≠ 0 →
    (∃ l, k ≤ l ∧ l < A.p.g (i + 1) ∧ A.j.g l = c) ∨ ∃ l, l < x.tail ∧ x.queue.g l = c)
    (hA.row_le hi).1 ⟨hw, hnz⟩ ?_ ?_
  · rintro k w hlo hhi ⟨h1, h2⟩
    have hk := hA.row_lt hi hhi
    have hj : A.j.g k < A.m := hA.inRow_lt hi ⟨k, hlo, hhi, rfl⟩
    have hnz := hA.p_nnz
    rw [Ok_bind, Ok_rd]; refine ⟨by omega, ?_⟩
    rw [Ok_wr]; refine ⟨by omega, by simpa using h1, ?_⟩
    intro c hc hne
    by_cases he : c = A.j.g k
    · subst he
      rw [g_upd_eq _ _ _ (by omega)] at hne
      exact absurd rfl hne
    · rw [g_upd_ne _ _ _ _ he] at hne
      rcases h2 c hc hne with ⟨l, g1, g2, g3⟩ | g
      · by_cases hl : l = k
        · rw [hl] at g3; exact absurd g3.symm he
        · exact Or.inl ⟨l, by omega, g2, g3⟩
      · exact Or.inr g
  · rintro w ⟨h1, h2⟩
    refine Ok_forRange_imp (I := fun k (w : Array Int) => w.size = A.m ∧ ∀ c, c < A.m → w.g c ≠ 0 →
      ∃ l, k ≤ l ∧ l < x.tail ∧ x.queue.g l = c) (Nat.zero_le _) ⟨h1, ?_⟩ ?_ ?_
    · intro c hc hne
      rcases h2 c hc hne with ⟨l, g1, g2, g3⟩ | ⟨l, g1, g2⟩
      · omega
      · exact ⟨l, by omega, g1, g2⟩
    · rintro k w - hk ⟨g1, g2⟩
      have hj := hqlt k hk
      rw [Ok_bind, Ok_rd]; refine ⟨by omega, ?_⟩
      rw [Ok_wr]; refine ⟨by omega, by simpa using g1, ?_⟩
      intro c hc hne
      by_cases he : c = x.queue.g k
      · subst he
        rw [g_upd_eq _ _ _ (by omega)] at hne
        exact absurd rfl hne
      · rw [g_upd_ne _ _ _ _ he] at hne
        obtain ⟨l, k1, k2, k3⟩ := g2 c hc hne
        by_cases hl : l = k
        · rw [hl] at k3; exact absurd k3.symm he
        · exact ⟨l, by omega, k2, k3⟩
    · rintro w ⟨g1, g2⟩
      refine ⟨g1, fun j hj => ?_⟩
      by_contra hn
      obtain ⟨l, k1, k2, -⟩ := g2 j hj hn
      omega

end Spasm.Greedy
