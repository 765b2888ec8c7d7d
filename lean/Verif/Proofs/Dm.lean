import Verif.Spec.Dm
import Verif.Proofs.MaxMatching

namespace Spasm

open Finset

/-- Rows reachable from unmatched rows by alternating paths. -/
inductive DmReach (A : Csr) (imatch jmatch : Array Int) : Nat → Prop
  | base (i : Nat) : i < A.n → jmatch.g i < 0 → DmReach A imatch jmatch i
  | step (i j : Nat) : DmReach A imatch jmatch i → A.InRow i j →
      DmReach A imatch jmatch (imatch.g j).toNat

variable {A : Csr} {imatch jmatch wi0 wj0 : Array Int} {mark : Int}

theorem DmReach.closed {W : Nat → Prop} (hW : MClosed A imatch W)
    (hun : ∀ i, i < A.n → jmatch.g i < 0 → W i) {i : Nat} (h : DmReach A imatch jmatch i) : W i := by
  induction h with
  | base i h1 h2 => exact hun i h1 h2
  | step i j _ h2 ih => exact ((hW i ih).2 j h2).2

def Bfs.InQ (s : Bfs) (i : Nat) : Prop := ∃ t, t < s.tail ∧ s.queue.g t = i

structure BfsInv (A : Csr) (imatch jmatch wi0 wj0 : Array Int) (mark : Int) (s : Bfs) : Prop where
  wi_size : s.wi.size = wi0.size
  wj_size : s.wj.size = wj0.size
  q_size : s.queue.size = A.n
  reach : ∀ t, t < s.tail → DmReach A imatch jmatch (s.queue.g t)
  lt : ∀ t, t < s.tail → s.queue.g t < A.n
  inj : ∀ t u, t < u → u < s.tail → s.queue.g t ≠ s.queue.g u
  wi_in : ∀ i, i < A.n → s.InQ i → s.wi.g i = if jmatch.g i < 0 then 0 else mark
  wi_out : ∀ i, i < A.n → ¬ s.InQ i → s.wi.g i = wi0.g i
  wj_in : ∀ j, j < A.m → 0 ≤ imatch.g j → s.InQ (imatch.g j).toNat → s.wj.g j = mark
  wj_out : ∀ j, j < A.m → ¬ (0 ≤ imatch.g j ∧ s.InQ (imatch.g j).toNat) → s.wj.g j = wj0.g j

theorem BfsInv.tail_lt {s : Bfs} (h : BfsInv A imatch jmatch wi0 wj0 mark s) {i : Nat} (hi : i < A.n)
    (hn : ¬ s.InQ i) : s.tail < A.n := by
  have := Finset.card_le_card_of_injOn (s := Finset.range s.tail)
    (t := (Finset.range A.n).erase i) s.queue.g
    (fun t ht => by
      have ht' : t < s.tail := by simpa using ht
      simp only [Finset.coe_erase, Finset.coe_range, Set.mem_sdiff, Set.mem_Iio,
        Set.mem_singleton_iff]
      exact ⟨h.lt t ht', fun he => hn ⟨t, ht', he⟩⟩)
    (fun t ht u hu he => by
      have ht' : t < s.tail := by simpa using ht
      have hu' : u < s.tail := by simpa using hu
      rcases Nat.lt_trichotomy t u with hlt | hlt | hlt
      · exact absurd he (h.inj t u hlt hu')
      · exact hlt
      · exact absurd he.symm (h.inj u t hlt ht'))
  rw [Finset.card_erase_of_mem (by simpa using hi)] at this
  simp only [Finset.card_range] at this
  omega

/-- A row is put in the queue. -/
theorem BfsInv.add {s : Bfs} (h : BfsInv A imatch jmatch wi0 wj0 mark s)
    (hws : A.n ≤ wi0.size) {i : Nat} (hi : i < A.n)
    (hn : ¬ s.InQ i) (hr : DmReach A imatch jmatch i) {v : Int}
    (hv : v = if jmatch.g i < 0 then 0 else mark) {wj : Array Int} (hwjs : wj.size = s.wj.size)
    (hwj : ∀ j, j < A.m → wj.g j = if imatch.g j = (i : Int) then mark else s.wj.g j) (hd : Nat) :
    BfsInv A imatch jmatch wi0 wj0 mark
      { s with wi := s.wi.upd i v, wj := wj, queue := s.queue.upd s.tail i, head := hd,
               tail := s.tail + 1 } ∧
    ∀ k, Bfs.InQ { s with wi := s.wi.upd i v, wj := wj, queue := s.queue.upd s.tail i, head := hd,
                          tail := s.tail + 1 } k ↔ s.InQ k ∨ k = i := by
  have htl := h.tail_lt hi hn
  have hqs := h.q_size
  have hwis := h.wi_size
  have q_old : ∀ t, t < s.tail → (s.queue.upd s.tail i).g t = s.queue.g t := fun t ht =>
    g_upd_ne _ _ _ _ (by omega)
  have q_new : (s.queue.upd s.tail i).g s.tail = i := g_upd_eq _ _ _ (by omega)
  have hin : ∀ k, Bfs.InQ ⟨s.wi.upd i v, wj, s.queue.upd s.tail i, hd, s.tail + 1⟩ k ↔
      s.InQ k ∨ k = i := by
    intro k
    constructor
    · rintro ⟨t, ht, he⟩
      simp only at ht he
      by_cases hte : t = s.tail
      · right; rw [hte, q_new] at he; exact he.symm
      · left; rw [q_old t (by omega)] at he; exact ⟨t, by omega, he⟩
    · rintro (⟨t, ht, he⟩ | he)
      · exact ⟨t, by simp only; omega, by simp only; rw [q_old t ht]; exact he⟩
      · exact ⟨s.tail, by simp only; omega, by simp only; rw [q_new, he]⟩
  refine ⟨{ wi_size := by simpa using h.wi_size, wj_size := by simp only; rw [hwjs]; exact h.wj_size,
            q_size := by simpa using h.q_size, reach := ?_, lt := ?_, inj := ?_, wi_in := ?_,
            wi_out := ?_, wj_in := ?_, wj_out := ?_ }, hin⟩
  · intro t ht
    simp only at ht ⊢
    by_cases hte : t = s.tail
    · rw [hte, q_new]; exact hr
    · rw [q_old t (by omega)]; exact h.reach t (by omega)
  · intro t ht
    simp only at ht ⊢
    by_cases hte : t = s.tail
    · rw [hte, q_new]; exact hi
    · rw [q_old t (by omega)]; exact h.lt t (by omega)
  · intro t u htu hu
    simp only at hu ⊢
    rw [q_old t (by omega)]
    by_cases hue : u = s.tail
    · rw [hue, q_new]
      intro he; exact hn ⟨t, by omega, he⟩
    · rw [q_old u (by omega)]; exact h.inj t u htu (by omega)
  · intro k hk hkq
    simp only
    by_cases he : k = i
    · rw [he, g_upd_eq _ _ _ (by omega)]; exact hv
    · rw [g_upd_ne _ _ _ _ he]
      exact h.wi_in k hk (((hin k).1 hkq).resolve_right he)
  · intro k hk hkq
    simp only
    rw [hin] at hkq
    rw [g_upd_ne _ _ _ _ (fun he => hkq (Or.inr he))]
    exact h.wi_out k hk (fun h' => hkq (Or.inl h'))
  · intro j hj h0 hq
    simp only
    rw [hwj j hj]
    by_cases he : imatch.g j = (i : Int)
    · rw [if_pos he]
    · rw [if_neg he]
      refine h.wj_in j hj h0 (((hin _).1 hq).resolve_right ?_)
      intro h'; omega
  · intro j hj hq
    simp only
    rw [hin] at hq
    rw [hwj j hj]
    by_cases he : imatch.g j = (i : Int)
    · exfalso
      exact hq ⟨by omega, Or.inr (by omega)⟩
    · rw [if_neg he]
      exact h.wj_out j hj fun h' => hq ⟨h'.1, Or.inl h'.2⟩

theorem bfs_start_spec (hM : Matching A jmatch imatch) (hws : A.n ≤ wi0.size)
    {queue : Array Nat} (hq : queue.size = A.n) :
    Ok (bfs_start A.n jmatch ⟨wi0, wj0, queue, 0, 0⟩) (fun s =>
      BfsInv A imatch jmatch wi0 wj0 mark s ∧ s.head = 0 ∧
      ∀ i, i < A.n → jmatch.g i < 0 → s.InQ i) := by
  unfold bfs_start
  have hnq : ∀ i, ¬ Bfs.InQ ⟨wi0, wj0, queue, 0, 0⟩ i := by
    rintro i ⟨t, ht, -⟩; exact absurd ht (Nat.not_lt_zero _)
  refine (Ok_forRange_imp (I := fun k (s : Bfs) => BfsInv A imatch jmatch wi0 wj0 mark s ∧
    s.head = 0 ∧ (∀ i, i < A.n → s.InQ i → jmatch.g i < 0 ∧ i < k) ∧
    ∀ i, i < k → jmatch.g i < 0 → s.InQ i) (by omega) ?_ ?_ ?_)
  · refine ⟨⟨rfl, rfl, hq, ?_, ?_, ?_, ?_, ?_, ?_, ?_⟩, rfl, ?_, ?_⟩
    · intro t ht; exact absurd ht (Nat.not_lt_zero _)
    · intro t ht; exact absurd ht (Nat.not_lt_zero _)
    · intro t u _ ht; exact absurd ht (Nat.not_lt_zero _)
    · intro i _ h; exact absurd h (hnq i)
    · intros; rfl
    · intro i _ _ h; exact absurd h (hnq _)
    · intros; rfl
    · intro i _ h; exact absurd h (hnq i)
    · intro i h; omega
  · rintro k s - hk ⟨h1, h2, h3, h4⟩
    have hjs := hM.psize
    rw [Ok_bind, Ok_rd]
    refine ⟨by omega, ?_⟩
    by_cases hv : 0 ≤ jmatch.g k
    · rw [if_pos hv, Ok_ok]
      refine ⟨h1, h2, ?_, ?_⟩
      · intro i hi hq; have := h3 i hi hq; omega
      · intro i hi hn
        by_cases he : i = k
        · rw [he] at hn; omega
        · exact h4 i (by omega) hn
    · rw [if_neg hv]
      have hnk : ¬ s.InQ k := fun h => by have := (h3 k hk h).2; omega
      have htl := h1.tail_lt hk hnk
      rw [Ok_bind, Ok_wr]
      refine ⟨by rw [h1.wi_size]; omega, ?_⟩
      rw [Ok_bind, Ok_wr]
      refine ⟨by rw [h1.q_size]; exact htl, ?_⟩
      rw [Ok_ok]
      obtain ⟨g1, g2⟩ := h1.add hws hk hnk (.base k hk (by omega)) (v := 0)
        (by rw [if_pos (by omega)]) (wj := s.wj) rfl (by
          intro j hj
          by_cases he : imatch.g j = (k : Int)
          · exfalso
            have := hM.pq j hj (by omega)
            rw [he, Int.toNat_natCast] at this
            omega
          · rw [if_neg he]) s.head
      refine ⟨g1, h2, ?_, ?_⟩
      · intro i hi hq
        rcases (g2 i).1 hq with h5 | h5
        · have := h3 i hi h5; exact ⟨this.1, by omega⟩
        · rw [h5]; omega
      · intro i hi hn
        refine (g2 i).2 ?_
        by_cases he : i = k
        · right; exact he
        · left; exact h4 i (by omega) hn
  · rintro s ⟨h1, h2, h3, h4⟩
    exact ⟨h1, h2, h4⟩

theorem bfs_entry_spec (hA : A.WF) (hM : Matching A jmatch imatch) (hws : A.n ≤ wi0.size)
    (hwjs : A.m ≤ wj0.size) (hmark : 0 ≤ mark) {W : Nat → Prop} (hW : MClosed A imatch W)
    (hun : ∀ i, i < A.n → jmatch.g i < 0 → W i) (hwi0 : ∀ i, W i → wi0.g i < 0)
    (hwj0 : ∀ j, j < A.m → 0 ≤ imatch.g j → W (imatch.g j).toNat → wj0.g j < 0) {s : Bfs}
    (h : BfsInv A imatch jmatch wi0 wj0 mark s) {i px : Nat} (hi : i < A.n)
    (hr : DmReach A imatch jmatch i) (hlo : A.p.g i ≤ px) (hhi : px < A.p.g (i + 1)) :
    Ok (bfs_entry A imatch mark px s) (fun s' => BfsInv A imatch jmatch wi0 wj0 mark s' ∧
      s'.head = s.head ∧ s.tail ≤ s'.tail ∧ (∀ t, t < s.tail → s'.queue.g t = s.queue.g t) ∧
      s'.InQ (imatch.g (A.j.g px)).toNat) := by
  have hk1 := hA.row_lt hi hhi
  have hjm := hA.j_lt _ hk1
  have hnz := hA.p_nnz
  have hin : A.InRow i (A.j.g px) := ⟨px, hlo, hhi, rfl⟩
  have hWi := DmReach.closed hW hun hr
  obtain ⟨hI0, hWI⟩ := (hW i hWi).2 _ hin
  have hIlt := hM.q_lt _ hjm
  have hIs : ((imatch.g (A.j.g px)).toNat : Int) = imatch.g (A.j.g px) := by omega
  unfold bfs_entry
  rw [Ok_bind, Ok_rd]
  refine ⟨by omega, ?_⟩
  rw [Ok_bind, Ok_rd]
  refine ⟨by rw [h.wj_size]; omega, ?_⟩
  by_cases hw : 0 ≤ s.wj.g (A.j.g px)
  · rw [if_pos hw, Ok_ok]
    refine ⟨h, rfl, le_refl _, fun _ _ => rfl, ?_⟩
    by_contra hn
    have h1 := h.wj_out _ hjm (fun h' => hn h'.2)
    have h2 := hwj0 _ hjm hI0 hWI
    omega
  · rw [if_neg hw]
    have hnq : ¬ s.InQ (imatch.g (A.j.g px)).toNat := by
      intro hq
      have := h.wj_in _ hjm hI0 hq
      omega
    have hwi : s.wi.g (imatch.g (A.j.g px)).toNat < 0 := by
      rw [h.wi_out _ (by omega) hnq]
      exact hwi0 _ hWI
    have htl := h.tail_lt (by omega) hnq
    rw [Ok_bind, Ok_wr]
    refine ⟨by rw [h.wj_size]; omega, ?_⟩
    rw [Ok_bind, Ok_rd]
    refine ⟨by rw [hM.qsize]; omega, ?_⟩
    unfold bfs_enqueue
    rw [Ok_bind, Ok_rdI]
    refine ⟨hI0, by simp only; rw [h.wi_size]; omega, ?_⟩
    rw [if_neg (by simp only; omega), Ok_bind, Ok_idx]
    refine ⟨hI0, ?_⟩
    rw [Ok_bind, Ok_wr]
    refine ⟨by simp only; rw [h.wi_size]; omega, ?_⟩
    rw [Ok_bind, Ok_wr]
    refine ⟨by simp only; rw [h.q_size]; exact htl, ?_⟩
    rw [Ok_ok]
    have hj0 : jmatch.g (imatch.g (A.j.g px)).toNat = (A.j.g px : Int) := hM.pq _ hjm hI0
    obtain ⟨g1, g2⟩ := h.add hws (i := (imatch.g (A.j.g px)).toNat) (by omega) hnq
      (.step i _ hr hin) (v := mark) (by rw [if_neg (by omega)])
      (wj := s.wj.upd (A.j.g px) mark) (by simp) (by
        intro j hj
        by_cases he : j = A.j.g px
        · rw [he, g_upd_eq _ _ _ (by rw [h.wj_size]; omega), if_pos hIs.symm]
        · rw [g_upd_ne _ _ _ _ he, if_neg]
          intro h'
          have h1 := hM.pq j hj (by omega)
          rw [h', Int.toNat_natCast, hj0] at h1
          omega) s.head
    refine ⟨g1, rfl, by simp only; omega, ?_, (g2 _).2 (Or.inr rfl)⟩
    intro t ht
    simp only
    rw [g_upd_ne _ _ _ _ (by omega)]

/-- Result of the search. -/
structure BfsRes (A : Csr) (imatch jmatch wi0 wj0 : Array Int) (mark : Int) (s : Bfs) : Prop where
  wi_size : s.wi.size = wi0.size
  wj_size : s.wj.size = wj0.size
  q_size : s.queue.size = A.n
  wi_un : ∀ i, i < A.n → jmatch.g i < 0 → s.wi.g i = 0
  wi_in : ∀ i, i < A.n → 0 ≤ jmatch.g i → DmReach A imatch jmatch i → s.wi.g i = mark
  wi_out : ∀ i, i < A.n → ¬ DmReach A imatch jmatch i → s.wi.g i = wi0.g i
  wj_in : ∀ j, j < A.m → 0 ≤ imatch.g j → DmReach A imatch jmatch (imatch.g j).toNat →
    s.wj.g j = mark
  wj_out : ∀ j, j < A.m → ¬ (0 ≤ imatch.g j ∧ DmReach A imatch jmatch (imatch.g j).toNat) →
    s.wj.g j = wj0.g j

theorem dm_bfs_spec (hA : A.WF) (hM : Matching A jmatch imatch) (hws : A.n ≤ wi0.size)
    (hwjs : A.m ≤ wj0.size) (hmark : 0 ≤ mark) {W : Nat → Prop} (hW : MClosed A imatch W)
    (hun : ∀ i, i < A.n → jmatch.g i < 0 → W i) (hwi0 : ∀ i, W i → wi0.g i < 0)
    (hwj0 : ∀ j, j < A.m → 0 ≤ imatch.g j → W (imatch.g j).toNat → wj0.g j < 0)
    {queue : Array Nat} (hq : queue.size = A.n) :
    Ok (dm_bfs A wi0 wj0 queue imatch jmatch mark) (BfsRes A imatch jmatch wi0 wj0 mark) := by
  unfold dm_bfs
  rw [Ok_bind]
  refine (bfs_start_spec (wj0 := wj0) (mark := mark) hM hws hq).mono ?_
  rintro s0 ⟨h1, h2, h3⟩
  have hcnt : ∀ s : Bfs, BfsInv A imatch jmatch wi0 wj0 mark s → s.tail ≤ A.n := by
    intro s h
    have := Finset.card_le_card_of_injOn (s := Finset.range s.tail)
      (t := Finset.range A.n) s.queue.g (fun t ht => by simpa using h.lt t (by simpa using ht))
      (fun t ht u hu he => by
        have ht' : t < s.tail := by simpa using ht
        have hu' : u < s.tail := by simpa using hu
        rcases Nat.lt_trichotomy t u with hlt | hlt | hlt
        · exact absurd he (h.inj t u hlt hu')
        · exact hlt
        · exact absurd he.symm (h.inj u t hlt ht'))
    simpa using this
  have hInQ_mono : ∀ s s' : Bfs, s.tail ≤ s'.tail → (∀ t, t < s.tail → s'.queue.g t = s.queue.g t) →
      ∀ i, s.InQ i → s'.InQ i := by
    rintro s s' h1 h2 i ⟨t, ht, he⟩
    exact ⟨t, by omega, by rw [h2 t ht]; exact he⟩
  refine Ok_whileFuel (fun s => A.n - s.head) (I := fun s =>
    BfsInv A imatch jmatch wi0 wj0 mark s ∧ s.head ≤ s.tail ∧
    (∀ i, i < A.n → jmatch.g i < 0 → s.InQ i) ∧
    ∀ t j, t < s.head → A.InRow (s.queue.g t) j → s.InQ (imatch.g j).toNat) ?_ _ _
    ⟨h1, by omega, h3, fun t j ht => by omega⟩ (by omega)
  rintro s ⟨g1, g2, g3, g4⟩
  have htn := hcnt s g1
  by_cases hht : s.head < s.tail
  · rw [if_pos hht, Ok_bind, Ok_rd]
    refine ⟨by rw [g1.q_size]; omega, ?_⟩
    have hin := g1.lt _ hht
    have hps := hA.p_size
    have hr := g1.reach _ hht
    rw [Ok_bind, Ok_rd]
    refine ⟨by omega, ?_⟩
    rw [Ok_bind, Ok_rd]
    refine ⟨by omega, ?_⟩
    rw [Ok_bind]
    refine Ok_forRange_imp (I := fun px (s' : Bfs) => BfsInv A imatch jmatch wi0 wj0 mark s' ∧
      s'.head = s.head + 1 ∧ s.tail ≤ s'.tail ∧ (∀ t, t < s.tail → s'.queue.g t = s.queue.g t) ∧
      ∀ k, A.p.g (s.queue.g s.head) ≤ k → k < px → s'.InQ (imatch.g (A.j.g k)).toNat)
      (hA.p_mono _ hin) ?_ ?_ ?_
    · refine ⟨⟨g1.wi_size, g1.wj_size, g1.q_size, g1.reach, g1.lt, g1.inj, g1.wi_in, g1.wi_out,
        g1.wj_in, g1.wj_out⟩, rfl, le_refl _, fun _ _ => rfl, fun k h1 h2 => by omega⟩
    · rintro px s' hlo hhi ⟨e1, e2, e3, e4, e5⟩
      refine (bfs_entry_spec hA hM hws hwjs hmark hW hun hwi0 hwj0 e1 hin hr hlo hhi).mono ?_
      rintro s2 ⟨f1, f2, f3, f4, f5⟩
      refine ⟨f1, by omega, by omega, fun t ht => by rw [f4 t (by omega), e4 t ht], ?_⟩
      intro k hk1 hk2
      by_cases he : k = px
      · rw [he]; exact f5
      · exact hInQ_mono s' s2 f3 f4 _ (e5 k hk1 (by omega))
    · rintro s' ⟨e1, e2, e3, e4, e5⟩
      rw [Ok_ok]
      refine ⟨⟨e1, by omega, fun i hi hn => hInQ_mono s s' e3 e4 _ (g3 i hi hn), ?_⟩, by omega⟩
      intro t j ht hj
      rw [e4 t (by omega)] at hj
      by_cases he : t = s.head
      · rw [he] at hj
        obtain ⟨k, k1, k2, k3⟩ := hj
        have := e5 k k1 k2
        rw [k3] at this; exact this
      · exact hInQ_mono s s' e3 e4 _ (g4 t j (by omega) hj)
  · rw [if_neg hht, Ok_ok]
    have hR : ∀ i, DmReach A imatch jmatch i → s.InQ i := by
      intro i hi
      induction hi with
      | base i h1 h2 => exact g3 i h1 h2
      | step i j _ hj ih =>
        obtain ⟨t, ht, he⟩ := ih
        exact g4 t j (by omega) (by rw [he]; exact hj)
    have hR' : ∀ i, s.InQ i → DmReach A imatch jmatch i := by
      rintro i ⟨t, ht, rfl⟩; exact g1.reach t ht
    refine ⟨g1.wi_size, g1.wj_size, g1.q_size, ?_, ?_, ?_, ?_, ?_⟩
    · intro i hi hn
      rw [g1.wi_in i hi (g3 i hi hn), if_pos hn]
    · intro i hi hn hr
      rw [g1.wi_in i hi (hR i hr), if_neg (by omega)]
    · intro i hi hr
      exact g1.wi_out i hi fun h => hr (hR' i h)
    · intro j hj h0 hr
      exact g1.wj_in j hj h0 (hR _ hr)
    · intro j hj hr
      exact g1.wj_out j hj fun h => hr ⟨h.1, hR' _ h.2⟩

end Spasm
