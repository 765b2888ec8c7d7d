import Verif.Proofs.DmCoarse
import Verif.Proofs.SccLoop
import Verif.Proofs.Submatrix
import Verif.Proofs.Permutation
import Verif.Spec.Dm
import Mathlib.Tactic.IntervalCases

namespace Spasm

variable {A At : Csr} {imatch jmatch : Array Int} {D : Dm} {c1 k1 k2 k3 : Nat}

theorem DmC.rr1 (h : DmC A At imatch jmatch D c1 k1 k2 k3) : D.rr.g 1 = k1 := by rw [h.rr]; rfl
theorem DmC.rr2 (h : DmC A At imatch jmatch D c1 k1 k2 k3) : D.rr.g 2 = k2 := by rw [h.rr]; rfl
theorem DmC.rr3 (h : DmC A At imatch jmatch D c1 k1 k2 k3) : D.rr.g 3 = k3 := by rw [h.rr]; rfl
theorem DmC.cc1 (h : DmC A At imatch jmatch D c1 k1 k2 k3) : D.cc.g 1 = c1 := by rw [h.cc]; rfl
theorem DmC.cc2 (h : DmC A At imatch jmatch D c1 k1 k2 k3) : D.cc.g 2 = c1 + k1 := by rw [h.cc]; rfl
theorem DmC.cc3 (h : DmC A At imatch jmatch D c1 k1 k2 k3) : D.cc.g 3 = c1 + k2 := by rw [h.cc]; rfl

theorem DmC.jp (h : DmC A At imatch jmatch D c1 k1 k2 k3) (hM : Matching A jmatch imatch) {t : Nat}
    (ht : t < k3) : jmatch.g (D.p.g t) = (D.q.g (c1 + t) : Int) := by
  have h1 := h.pq t ht
  have h2 := h.c_k3
  have h3 := hM.pq (D.q.g (c1 + t)) (h.perm_q.1 _ (by omega)) (by omega)
  rw [← h1, Int.toNat_natCast] at h3
  exact h3

theorem DmC.isCoarse (h : DmC A At imatch jmatch D c1 k1 k2 k3) (hA : A.WF) (hT : IsTr A At)
    (hM : Matching A jmatch imatch) {W : Nat → Prop} (hW : MClosed A imatch W)
    (hun : ∀ i, i < A.n → jmatch.g i < 0 → W i) : IsCoarse A D := by
  obtain ⟨hW', hun'⟩ := hW.tr hT hM hun
  have e1 := h.rr1
  have e2 := h.rr2
  have e3 := h.rr3
  have f1 := h.cc1
  have f2 := h.cc2
  have f3 := h.cc3
  have l1 := h.le1
  have l2 := h.le2
  have l3 := h.le3
  have l4 := h.c_k3
  have e0 : D.rr.g 0 = 0 := by rw [h.rr]; rfl
  have e4 : D.rr.g 4 = A.n := by rw [h.rr]; rfl
  have f0 : D.cc.g 0 = 0 := by rw [h.cc]; rfl
  have f4 : D.cc.g 4 = A.m := by rw [h.cc]; rfl
  have hvert : ∀ i, DmReach A imatch jmatch i → ∀ t, t < A.n → D.p.g t = i →
      ∃ u : Nat, D.rr.g 3 ≤ u ∧ u < A.n ∧ Relation.ReflTransGen (DmEdge A D) u t := by
    intro i hi
    induction hi with
    | base i h1 h2 =>
      intro t ht he
      refine ⟨t, ?_, ht, .refl⟩
      by_contra hn
      have := h.jp hM (t := t) (by omega)
      rw [he] at this
      omega
    | step i j h1 h2 ih =>
      intro t ht he
      have hiW := hW i (h1.closed hW hun)
      have hi := hiW.1
      have hj := hA.inRow_lt hi h2
      have h0 := (hiW.2 j h2).1
      obtain ⟨s, hs, hs'⟩ := h.perm_p.surj hi
      obtain ⟨u, hu1, hu2, hu3⟩ := ih s hs hs'
      refine ⟨u, hu1, hu2, hu3.tail ⟨hs, ?_, ?_⟩⟩
      · by_contra hn
        have g1 := h.un t (by omega) ht
        have g2 := hM.pq j hj h0
        rw [← he] at g2
        omega
      · by_cases htk : t < k3
        · have g1 := h.jp hM htk
          have g2 := hM.pq j hj h0
          rw [he, g2] at g1
          rw [f1, Int.toNat_natCast, hs']
          have : j = D.q.g (c1 + t) := by omega
          rw [← this]; exact h2
        · exfalso
          have g1 := h.un t (by omega) ht
          have g2 := hM.pq j hj h0
          rw [← he] at g2
          omega
  have hhorz : ∀ j, DmReach At jmatch imatch j → ∀ t, t < A.m → D.q.g t = j →
      ∃ u : Nat, (u : Int) < D.cc.g 1 ∧ Relation.ReflTransGen (DmEdgeT A D) u t := by
    intro j hj
    induction hj with
    | base j h1 h2 =>
      intro t ht he
      refine ⟨t, ?_, .refl⟩
      by_contra hn
      have := h.pq (t - c1) (by omega)
      rw [show c1 + (t - c1) = t by omega, he] at this
      omega
    | step j i h1 h2 ih =>
      intro t ht he
      have hjW := hW' j (h1.closed hW' hun')
      have hj : j < A.m := by rw [← hT.n]; exact hjW.1
      have hi : i < A.n := by rw [← hT.m]; exact hT.wf.inRow_lt hjW.1 h2
      have h0 := (hjW.2 i h2).1
      obtain ⟨s, hs, hs'⟩ := h.perm_q.surj hj
      obtain ⟨u, hu1, hu3⟩ := ih s hs hs'
      have g2 := hM.qp i hi h0
      rw [← he] at g2
      have htc : c1 ≤ t := by
        by_contra hn
        have g1 := h.unc t (by omega)
        omega
      refine ⟨u, hu1, hu3.tail ⟨hs, by omega, by omega, ?_⟩⟩
      have g1 := h.pq (t - c1) (by omega)
      rw [show c1 + (t - c1) = t by omega, g2] at g1
      rw [f1, Int.toNat_natCast, hs']
      have : D.p.g (t - c1) = i := by omega
      rw [this]
      exact (hT.inRow i j hi hj).1 h2
  refine { p_size := h.p_size, q_size := h.q_size, perm_p := h.perm_p, perm_q := h.perm_q,
           rr_size := by rw [h.rr]; rfl, cc_size := by rw [h.cc]; rfl, rr_zero := e0, rr_mono := ?_,
           rr_last := e4, cc_zero := f0, cc_mono := ?_, cc_last := f4, square := ?_, mid := ?_,
           low := ?_, diag := ?_, vert := ?_, horz := ?_ }
  · intro k hk
    interval_cases k <;> simp only [Nat.reduceAdd] <;> omega
  · intro k hk
    interval_cases k <;> simp only [Nat.reduceAdd] <;> omega
  · intro k hk
    interval_cases k <;> simp only [Nat.reduceAdd] <;> omega
  · intro i j hi hj hij h1
    by_contra hn
    have hTj := (h.tch j hj).1 (by omega)
    have hpi := h.perm_p.1 i hi
    have hqj := h.perm_q.1 j hj
    have hAt := (hT.inRow _ _ hpi hqj).2 hij
    have hc := ((hW' _ (hTj.closed hW' hun')).2 _ hAt).1
    have hst := hTj.step _ _ hAt
    have hik : i < k3 := by
      by_contra hn
      have := h.un i (by omega) hi
      omega
    rw [h.jp hM hik, Int.toNat_natCast] at hst
    have := (h.tch (c1 + i) (by omega)).2 hst
    omega
  · intro i j hi hj hij h1
    have hR := (h.rch i hi).1 (by omega)
    have hc := ((hW _ (hR.closed hW hun)).2 _ hij).1
    have hst := hR.step _ _ hij
    have hjc : c1 ≤ j := by
      by_contra hn
      have := h.unc j (by omega)
      omega
    have g1 := h.pq (j - c1) (by omega)
    rw [show c1 + (j - c1) = j by omega] at g1
    rw [← g1, Int.toNat_natCast] at hst
    have := (h.rch (j - c1) (by omega)).2 hst
    omega
  · intro t ht
    have hpt := h.perm_p.1 t (by omega)
    have g1 := h.jp hM (t := t) (by omega)
    have g2 := hM.ent _ hpt (by omega)
    rw [g1] at g2
    rw [f1]
    exact g2
  · intro t h1 h2
    exact hvert _ ((h.rch t h2).1 (by omega)) t h2 rfl
  · intro t h1
    exact hhorz _ ((h.tch t (by omega)).1 (by omega)) t (by omega) rfl

theorem dm_coarse_spec (jk : Junk) (hA : A.WF) (hT : IsTr A At)
    (hM : Matching A jmatch imatch) {W : Nat → Prop} (hW : MClosed A imatch W)
    (hun : ∀ i, i < A.n → jmatch.g i < 0 → W i) :
    Ok (dm_coarse jk A At jmatch imatch) (fun D => (∃ c1 k1 k2 k3,
      DmC A At imatch jmatch D c1 k1 k2 k3) ∧ D.nb = 0 ∧ D.r.size = A.n + 6 ∧ D.c.size = A.m + 6) := by
  obtain ⟨hW', hun'⟩ := hW.tr hT hM hun
  have hn := hT.n
  have hm := hT.m
  unfold dm_coarse
  simp only
  rw [Ok_bind]
  refine Ok_forRange_imp (I := fun k (w : Array Int) => w.size = A.m + 6 ∧ ∀ j, j < k → w.g j = -1)
    (Nat.zero_le _) ⟨by simp [dm_alloc], fun j hj => by omega⟩ ?_ ?_
  · rintro k w - hk ⟨h1, h2⟩
    rw [Ok_wr]
    refine ⟨by omega, by simpa using h1, ?_⟩
    intro j hj
    by_cases h : j = k
    · subst h; rw [g_upd_eq _ _ _ (by omega)]
    · rw [g_upd_ne _ _ _ _ h]; exact h2 j (by omega)
  rintro wj ⟨hwj1, hwj2⟩
  rw [Ok_bind]
  refine Ok_forRange_imp (I := fun k (w : Array Int) => w.size = A.n + 6 ∧ ∀ j, j < k → w.g j = -1)
    (Nat.zero_le _) ⟨by simp [dm_alloc], fun j hj => by omega⟩ ?_ ?_
  · rintro k w - hk ⟨h1, h2⟩
    rw [Ok_wr]
    refine ⟨by omega, by simpa using h1, ?_⟩
    intro j hj
    by_cases h : j = k
    · subst h; rw [g_upd_eq _ _ _ (by omega)]
    · rw [g_upd_ne _ _ _ _ h]; exact h2 j (by omega)
  rintro wi ⟨hwi1, hwi2⟩
  rw [Ok_bind]
  refine (dm_bfs_spec (wi0 := wi) (wj0 := wj) (mark := 3) hA hM (by omega) (by omega) (by omega) hW hun
    (fun i hi => by rw [hwi2 i (hW i hi).1]; omega) (fun j hj _ _ => by rw [hwj2 j hj]; omega)
    (by simp [dm_alloc])).mono ?_
  intro s hs
  rw [Ok_bind]
  refine (dm_bfs_spec (wi0 := s.wj) (wj0 := s.wi) (mark := 1) hT.wf (hM.tr hT)
    (by rw [hs.wj_size]; omega) (by rw [hs.wi_size]; omega) (by omega) hW' hun' ?_ ?_
    (by simp [dm_alloc, hn])).mono ?_
  · rintro j ⟨hj, h1⟩
    rw [hs.wj_out j hj, hwj2 j hj]
    · omega
    · rintro ⟨h2, h3⟩
      rcases h1 with h1 | h1
      · omega
      · exact h1 (h3.closed hW hun)
  · rintro i hi h0 ⟨hj, h1⟩
    rw [hm] at hi
    rw [hM.qp i hi h0, Int.toNat_natCast] at h1
    rw [hs.wi_out i hi, hwi2 i hi]
    · omega
    · intro h3
      rcases h1 with h1 | h1
      · omega
      · exact h1 (h3.closed hW hun)
  intro t ht
  rw [Ok_bind]
  have hmk := DmMarks.of_bfs hT hM hW hun hwi1 hwj1 hwi2 hwj2 hs ht
  refine (dm_collect_spec hM hmk hn (p := s.queue) (q := t.queue) hs.q_size
    (by rw [ht.q_size]; exact hn) ({ dm_alloc jk A.n A.m with r := t.wj, c := t.wi })).mono ?_
  rintro ⟨p, q, cc, rr⟩ h
  rw [Ok_ok]
  exact ⟨h, rfl, hmk.wi_size, hmk.wj_size⟩

/-- Permuting the square part. -/
theorem DmC.reorder (h : DmC A At imatch jmatch D c1 k1 k2 k3) {σ : Nat → Nat}
    (hσ : IsPerm σ (k2 - k1)) {D' : Dm} (hrr : D'.rr = D.rr) (hcc : D'.cc = D.cc)
    (hps : D'.p.size = D.p.size) (hqs : D'.q.size = D.q.size)
    (hp : ∀ i, i < k2 - k1 → D'.p.g (k1 + i) = D.p.g (k1 + σ i))
    (hp' : ∀ t, t < k1 ∨ k2 ≤ t → D'.p.g t = D.p.g t)
    (hq : ∀ i, i < k2 - k1 → D'.q.g (c1 + k1 + i) = D.q.g (c1 + k1 + σ i))
    (hq' : ∀ t, t < c1 + k1 ∨ c1 + k2 ≤ t → D'.q.g t = D.q.g t) :
    DmC A At imatch jmatch D' c1 k1 k2 k3 := by
  have l1 := h.le1
  have l2 := h.le2
  have l3 := h.le3
  have l4 := h.c_k3
  -- the permutation of positions
  have key : ∀ t, (t < k1 ∨ k2 ≤ t) ∨ ∃ i, i < k2 - k1 ∧ t = k1 + i := by
    intro t
    by_cases h1 : t < k1
    · exact Or.inl (Or.inl h1)
    by_cases h2 : k2 ≤ t
    · exact Or.inl (Or.inr h2)
    exact Or.inr ⟨t - k1, by omega, by omega⟩
  have keyq : ∀ t, (t < c1 + k1 ∨ c1 + k2 ≤ t) ∨ ∃ i, i < k2 - k1 ∧ t = c1 + k1 + i := by
    intro t
    by_cases h1 : t < c1 + k1
    · exact Or.inl (Or.inl h1)
    by_cases h2 : c1 + k2 ≤ t
    · exact Or.inl (Or.inr h2)
    exact Or.inr ⟨t - (c1 + k1), by omega, by omega⟩
  refine { p_size := by rw [hps]; exact h.p_size, q_size := by rw [hqs]; exact h.q_size,
           perm_p := ⟨?_, ?_⟩, perm_q := ⟨?_, ?_⟩, rr := by rw [hrr]; exact h.rr,
           cc := by rw [hcc]; exact h.cc, le1 := l1, le2 := l2, le3 := l3, c_k3 := l4, pq := ?_,
           un := ?_, unc := ?_, rch := ?_, tch := ?_ }
  · intro t ht
    rcases key t with g | ⟨i, hi, rfl⟩
    · rw [hp' t g]; exact h.perm_p.1 t ht
    · have := hσ.1 i hi
      rw [hp i hi]; exact h.perm_p.1 _ (by omega)
  · intro s t hs ht he
    rcases key s with g | ⟨i, hi, rfl⟩ <;> rcases key t with g' | ⟨i', hi', rfl⟩
    · rw [hp' s g, hp' t g'] at he
      exact h.perm_p.2 s t hs ht he
    · have := hσ.1 i' hi'
      rw [hp' s g, hp i' hi'] at he
      have := h.perm_p.2 s _ hs (by omega) he
      omega
    · have := hσ.1 i hi
      rw [hp' t g', hp i hi] at he
      have := h.perm_p.2 _ t (by omega) ht he
      omega
    · have := hσ.1 i hi
      have := hσ.1 i' hi'
      rw [hp i hi, hp i' hi'] at he
      have := h.perm_p.2 _ _ (by omega) (by omega) he
      have := hσ.2 i i' hi hi' (by omega)
      omega
  · intro t ht
    rcases keyq t with g | ⟨i, hi, rfl⟩
    · rw [hq' t g]; exact h.perm_q.1 t ht
    · have := hσ.1 i hi
      rw [hq i hi]; exact h.perm_q.1 _ (by omega)
  · intro s t hs ht he
    rcases keyq s with g | ⟨i, hi, rfl⟩ <;> rcases keyq t with g' | ⟨i', hi', rfl⟩
    · rw [hq' s g, hq' t g'] at he
      exact h.perm_q.2 s t hs ht he
    · have := hσ.1 i' hi'
      rw [hq' s g, hq i' hi'] at he
      have := h.perm_q.2 s _ hs (by omega) he
      omega
    · have := hσ.1 i hi
      rw [hq' t g', hq i hi] at he
      have := h.perm_q.2 _ t (by omega) ht he
      omega
    · have := hσ.1 i hi
      have := hσ.1 i' hi'
      rw [hq i hi, hq i' hi'] at he
      have := h.perm_q.2 _ _ (by omega) (by omega) he
      have := hσ.2 i i' hi hi' (by omega)
      omega
  · intro t ht
    rcases key t with g | ⟨i, hi, rfl⟩
    · rw [hp' t g, hq' (c1 + t) (by omega)]; exact h.pq t ht
    · have := hσ.1 i hi
      rw [hp i hi, ← Nat.add_assoc, hq i hi, Nat.add_assoc]
      exact h.pq _ (by omega)
  · intro t h1 h2
    rw [hp' t (by omega)]; exact h.un t h1 h2
  · intro t h1
    rw [hq' t (by omega)]; exact h.unc t h1
  · intro t ht
    rcases key t with g | ⟨i, hi, rfl⟩
    · rw [hp' t g]; exact h.rch t ht
    · have := hσ.1 i hi
      rw [hp i hi, ← h.rch _ (by omega)]
      constructor <;> intro _ <;> omega
  · intro t ht
    rcases keyq t with g | ⟨i, hi, rfl⟩
    · rw [hq' t g]; exact h.tch t ht
    · have := hσ.1 i hi
      rw [hq i hi, ← h.tch _ (by omega)]
      constructor <;> intro _ <;> omega

theorem dm_edges {jk : Junk} (hA : A.WF) (h : DmC A At imatch jmatch D c1 k1 k2 k3) :
    Ok (do
      let qinv ← pinv jk (some D.q) A.m
      let B ← permute jk A (some D.p) qinv false
      submatrix jk B k1 k2 (c1 + k1) (c1 + k2) false) (fun Cm => Cm.WF ∧ Cm.n = k2 - k1 ∧
        Cm.m = k2 - k1 ∧ ∀ d e, d < k2 - k1 → e < k2 - k1 →
          (Cm.InRow d e ↔ A.InRow (D.p.g (k1 + d)) (D.q.g (c1 + k1 + e)))) := by
  have l1 := h.le1
  have l2 := h.le2
  have l3 := h.le3
  have l4 := h.c_k3
  rw [Ok_bind]
  refine (pinv_spec (jk := jk) (p := some D.q) (n := A.m) (fun a ha => by cases ha; exact h.q_size.ge)
    h.perm_q).mono ?_
  rintro qinv ⟨hq1, hq2, hq3, hq4⟩
  rw [Ok_bind]
  refine (permute_spec (jk := jk) hA (p := some D.p) (qinv := qinv) false
    (fun a ha => by cases ha; exact h.p_size.ge) h.perm_p hq1 hq2.1).mono ?_
  rintro B ⟨hB, hBn, hBm, hBr, -⟩
  refine (submatrix_spec jk hB (r0 := k1) (r1 := k2) (c0 := c1 + k1) (c1 := c1 + k2) false
    (by omega) (by omega) (by omega)).mono ?_
  rintro Cm ⟨hC, hCn, hCm, hCr, -⟩
  have hCn' : Cm.n = k2 - k1 := by omega
  refine ⟨hC, hCn', by omega, ?_⟩
  intro d e hd he
  rw [Csr.inRow_iff, Csr.inRow_iff, hCr d (by omega), Int.toNat_natCast, hBr _ (by omega)]
  rw [show permFun (some D.p) (k1 + d) = D.p.g (k1 + d) from rfl]
  have hpi := h.perm_p.1 (k1 + d) (by omega)
  constructor
  · rintro ⟨x, hx, rfl⟩
    obtain ⟨y, hy, hy'⟩ := List.mem_filterMap.mp hx
    obtain ⟨z, hz, rfl⟩ := List.mem_map.mp hy
    unfold subEnt at hy'
    simp only at hy'
    split at hy'
    · rename_i hc
      simp only [Option.some.injEq] at hy'
      refine ⟨z, hz, ?_⟩
      have hzm : z.1 < A.m := by
        refine hA.inRow_lt hpi ?_
        exact (Csr.inRow_iff _ _ _).2 ⟨z, hz, rfl⟩
      rw [← hy']
      simp only
      rw [show c1 + k1 + (((permFun qinv z.1 : Nat) : Int) - (c1 + k1)).toNat = permFun qinv z.1 by omega]
      exact (hq4 z.1 hzm).symm
    · cases hy'
  · rintro ⟨z, hz, hze⟩
    have hq' : permFun qinv z.1 = c1 + k1 + e := by
      rw [hze]; exact hq3 _ (by omega)
    refine ⟨(e, 1), List.mem_filterMap.mpr ⟨(permFun qinv z.1, 1), ?_, ?_⟩, rfl⟩
    · exact List.mem_map.mpr ⟨z, hz, by simp⟩
    · unfold subEnt
      simp only
      rw [hq', if_pos (by omega)]
      simp only [Option.some.injEq, Prod.mk.injEq]
      exact ⟨by omega, by simp⟩

theorem scc_ge {Cm : Csr} {S : Dm} (hS : IsScc Cm S) : ∀ b, b ≤ S.nb → (b : Int) ≤ S.r.g b := by
  intro b
  induction b with
  | zero => intro _; rw [hS.r_zero]; simp
  | succ b ih =>
    intro hb
    have := hS.r_lt b (by omega)
    have := ih (by omega)
    omega

theorem scc_le {Cm : Csr} {S : Dm} (hS : IsScc Cm S) : ∀ d b, b + d = S.nb → S.r.g b ≤ Cm.n := by
  intro d
  induction d with
  | zero => intro b hb; rw [show b = S.nb by omega, hS.r_last]
  | succ d ih =>
    intro b hb
    have := hS.r_lt b (by omega)
    have := ih (b + 1) (by omega)
    omega

/-- Writing the boundaries. -/
theorem dm_bounds {r v : Array Int} {nb : Nat} {base last : Int} (hr : nb + 2 < r.size)
    (hv : nb < v.size) {P : Array Int → Prop}
    (hP : ∀ r' : Array Int, r'.size = r.size → r'.g 0 = 0 → (∀ b, b ≤ nb → r'.g (b + 1) = base + v.g b) →
      r'.g (nb + 2) = last → P r') :
    Ok (do
      let r ← wr r 0 0
      let r ← forRange 0 (nb + 1) r fun i r => do
        let x ← rd v i
        wr r (i + 1) (base + x)
      wr r (nb + 2) last) P := by
  rw [Ok_bind, Ok_wr]
  refine ⟨by omega, ?_⟩
  rw [Ok_bind]
  refine Ok_forRange_imp (I := fun k (r' : Array Int) => r'.size = r.size ∧ r'.g 0 = 0 ∧
    ∀ b, b < k → r'.g (b + 1) = base + v.g b) (Nat.zero_le _) ⟨by simp, ?_, fun b hb => by omega⟩ ?_ ?_
  · rw [g_upd_eq _ _ _ (by omega)]
  · rintro k r' - hk ⟨h1, h2, h3⟩
    rw [Ok_bind, Ok_rd]
    refine ⟨by omega, ?_⟩
    rw [Ok_wr]
    refine ⟨by omega, by simpa using h1, by rw [g_upd_ne _ _ _ _ (by omega)]; exact h2, ?_⟩
    intro b hb
    by_cases h : b = k
    · subst h; rw [g_upd_eq _ _ _ (by omega)]
    · rw [g_upd_ne _ _ _ _ (by omega)]; exact h3 b (by omega)
  · rintro r' ⟨h1, h2, h3⟩
    rw [Ok_wr]
    refine ⟨by omega, hP _ (by simpa using h1) ?_ ?_ ?_⟩
    · rw [g_upd_ne _ _ _ _ (by omega)]; exact h2
    · intro b hb
      rw [g_upd_ne _ _ _ _ (by omega)]; exact h3 b (by omega)
    · rw [g_upd_eq _ _ _ (by omega)]

theorem dm_isFine (h : DmC A At imatch jmatch D c1 k1 k2 k3) (hc : IsCoarse A D) (hk : k1 < k2)
    {Cm : Csr} {S : Dm} (hCn : Cm.n = k2 - k1) (hCm : Cm.m = k2 - k1) (hS : IsScc Cm S)
    (hE : ∀ s t, s < k2 - k1 → t < k2 - k1 →
      (Cm.InRow (S.p.g s) (S.p.g t) ↔ A.InRow (D.p.g (k1 + s)) (D.q.g (c1 + k1 + t))))
    (hnb : D.nb = S.nb + 2) (hrs : D.nb < D.r.size) (hcs : D.nb < D.c.size)
    (hr0 : D.r.g 0 = 0) (hr : ∀ b, b ≤ S.nb → D.r.g (b + 1) = k1 + S.r.g b)
    (hrl : D.r.g (S.nb + 2) = A.n)
    (hc0 : D.c.g 0 = 0) (hcb : ∀ b, b ≤ S.nb → D.c.g (b + 1) = (c1 + k1) + S.c.g b)
    (hcl : D.c.g (S.nb + 2) = A.m) : IsFine A D := by
  have e1 := h.rr1
  have e2 := h.rr2
  have e3 := h.rr3
  have f1 := h.cc1
  have f2 := h.cc2
  have f3 := h.cc3
  have l1 := h.le1
  have l2 := h.le2
  have l3 := h.le3
  have l4 := h.c_k3
  have hperm := hS.perm
  rw [hCn] at hperm
  have hDE : ∀ s t, s < k2 - k1 → t < k2 - k1 →
      (DmEdge A D (k1 + s) (k1 + t) ↔ Edge Cm (S.p.g s) (S.p.g t)) := by
    intro s t hs ht
    have := hperm.1 s hs
    unfold DmEdge Edge
    rw [hE s t hs ht, f1, Int.toNat_natCast, ← Nat.add_assoc]
    constructor
    · rintro ⟨-, -, h3⟩; exact ⟨by omega, h3⟩
    · rintro ⟨-, h3⟩; exact ⟨by omega, by omega, h3⟩
  have hfw : ∀ s t, s < k2 - k1 → t < k2 - k1 → DmPath A D (k1 + s) (k1 + t) →
      Path Cm (S.p.g s) (S.p.g t) := by
    intro s t hs ht hp
    have : ∀ x, DmPath A D (k1 + s) x → ∀ u, u < k2 - k1 → x = k1 + u →
        Path Cm (S.p.g s) (S.p.g u) := by
      intro x hx
      unfold DmPath at hx
      induction hx with
      | refl =>
        intro u hu he
        rw [show s = u by omega]
        exact .refl
      | tail h1 h2 ih =>
        rename_i y z
        intro u hu he
        obtain ⟨g1, g2, g3, g4, g5⟩ := h2
        have hy : y = k1 + (y - k1) := by omega
        have := ih (y - k1) (by omega) hy
        refine this.tail ?_
        rw [← hDE _ _ (by omega) hu, ← hy, ← he]
        exact g1
    exact this _ hp t ht rfl
  have hbw : ∀ s t, s < k2 - k1 → t < k2 - k1 → Path Cm (S.p.g s) (S.p.g t) →
      DmPath A D (k1 + s) (k1 + t) := by
    intro s t hs ht hp
    have : ∀ x, Path Cm (S.p.g s) x → ∀ u, u < k2 - k1 → x = S.p.g u →
        DmPath A D (k1 + s) (k1 + u) := by
      intro x hx
      unfold Path at hx
      induction hx with
      | refl =>
        intro u hu he
        rw [hperm.2 s u hs hu he]
        exact .refl
      | tail h1 h2 ih =>
        rename_i y z
        intro u hu he
        have hy : y < k2 - k1 := by rw [← hCn]; exact h2.1
        obtain ⟨v, hv, hv'⟩ := hperm.surj hy
        have := ih v hv hv'.symm
        refine this.tail ⟨?_, by omega, by omega, by omega, by omega⟩
        rw [hDE v u hv hu, hv', ← he]
        exact h2
    exact this _ hp t ht rfl
  have hnb1 : 1 ≤ S.nb := by
    by_contra hn
    have h0 : S.nb = 0 := by omega
    have := hS.r_last
    rw [h0, hS.r_zero] at this
    omega
  refine { nb := by omega, r_size := hrs, c_size := hcs, r_zero := hr0, r_one := ?_, r_pen := ?_,
           r_last := by rw [hnb]; exact hrl, c_zero := hc0, c_last := by rw [hnb]; exact hcl,
           c_eq := ?_, r_lt := ?_, conn := ?_, same := ?_, tri := ?_ }
  · rw [hr 0 (by omega), hS.r_zero, e1]; simp
  · rw [hnb, show S.nb + 2 - 1 = S.nb + 1 by omega, hr _ (le_refl _), hS.r_last, e2, hCn]; omega
  · intro b h1 h2
    obtain ⟨b, rfl⟩ : ∃ c, b = c + 1 := ⟨b - 1, by omega⟩
    rw [hcb b (by omega), hr b (by omega), hS.c_eq b (by omega), f1]; omega
  · intro b h1 h2
    obtain ⟨b, rfl⟩ : ∃ c, b = c + 1 := ⟨b - 1, by omega⟩
    rw [hr b (by omega), hr (b + 1) (by omega)]
    have := hS.r_lt b (by omega)
    omega
  · intro b h1 h2 s t hs1 hs2 ht1 ht2
    obtain ⟨b, rfl⟩ : ∃ c, b = c + 1 := ⟨b - 1, by omega⟩
    rw [hr b (by omega)] at hs1 ht1
    rw [hr (b + 1) (by omega)] at hs2 ht2
    have g1 := scc_ge hS b (by omega)
    have g2 := scc_le hS (S.nb - (b + 1)) (b + 1) (by omega)
    obtain ⟨s, rfl⟩ : ∃ s', s = k1 + s' := ⟨s - k1, by omega⟩
    obtain ⟨t, rfl⟩ : ∃ t', t = k1 + t' := ⟨t - k1, by omega⟩
    exact hbw s t (by omega) (by omega)
      (hS.conn b (by omega) s t (by omega) (by omega) (by omega) (by omega))
  · intro s t hs1 hs2 ht1 ht2 hp1 hp2
    obtain ⟨s, rfl⟩ : ∃ s', s = k1 + s' := ⟨s - k1, by omega⟩
    obtain ⟨t, rfl⟩ : ∃ t', t = k1 + t' := ⟨t - k1, by omega⟩
    obtain ⟨b, g0, g1, g2, g3, g4⟩ := hS.same s t (by omega) (by omega)
      (hfw s t (by omega) (by omega) hp1) (hfw t s (by omega) (by omega) hp2)
    refine ⟨b + 1, by omega, by omega, ?_⟩
    rw [hr b (by omega), hr (b + 1) (by omega)]
    exact ⟨by omega, by omega, by omega, by omega⟩
  · intro i j hi1 hi2 hj hij b hb1 hb2 hb3
    have hmid := hc.mid i j (by omega) hj hij hi1
    obtain ⟨b, rfl⟩ : ∃ c, b = c + 1 := ⟨b - 1, by omega⟩
    rw [hr b (by omega)] at hb3
    rw [hcb b (by omega), hS.c_eq b (by omega)]
    by_cases hj' : c1 + k2 ≤ j
    · omega
    · have := hS.tri (i - k1) (j - (c1 + k1)) (by omega) (by omega)
        ((hE _ _ (by omega) (by omega)).2 (by
          rw [show k1 + (i - k1) = i by omega, show c1 + k1 + (j - (c1 + k1)) = j by omega]
          exact hij)) b (by omega) (by omega)
      omega

theorem dm_fine_spec (jk : Junk) (hA : A.WF) (hT : IsTr A At)
    (hM : Matching A jmatch imatch) {W : Nat → Prop} (hW : MClosed A imatch W)
    (hun : ∀ i, i < A.n → jmatch.g i < 0 → W i) (h : DmC A At imatch jmatch D c1 k1 k2 k3)
    (hk : k1 < k2) (hr : D.r.size = A.n + 6) (hc : D.c.size = A.m + 6) :
    Ok (dm_fine jk A D) (fun D' => IsCoarse A D' ∧ IsFine A D' ∧ D'.rr = D.rr ∧ D'.cc = D.cc) := by
  have e1 := h.rr1
  have e2 := h.rr2
  have f2 := h.cc2
  have f3 := h.cc3
  have l1 := h.le1
  have l2 := h.le2
  have l3 := h.le3
  have l4 := h.c_k3
  have hrrs : D.rr.size = 5 := by rw [h.rr]; rfl
  have hccs : D.cc.size = 5 := by rw [h.cc]; rfl
  have hps := h.p_size
  have hqs := h.q_size
  unfold dm_fine
  rw [Ok_bind, Ok_rd]; refine ⟨by omega, ?_⟩
  rw [Ok_bind, Ok_rd]; refine ⟨by omega, ?_⟩
  rw [Ok_bind, Ok_rd]; refine ⟨by omega, ?_⟩
  rw [Ok_bind, Ok_rd]; refine ⟨by omega, ?_⟩
  rw [e1, e2, f2, f3]
  have hed := dm_edges (jk := jk) hA h
  rw [Ok_bind] at hed ⊢
  refine hed.mono fun qinv hed => ?_
  rw [Ok_bind] at hed ⊢
  refine hed.mono fun B hed => ?_
  rw [Ok_bind]
  refine hed.mono ?_
  rintro Cm ⟨hC, hCn, hCm, hE⟩
  rw [Ok_bind]
  refine (strongly_connected_components_spec jk hC (by omega)).mono ?_
  intro S hS
  have hperm := hS.perm
  rw [hCn] at hperm
  have hSp := hS.p_size
  rw [Ok_bind, Ok_idx]; refine ⟨by omega, ?_⟩
  rw [Ok_bind, Ok_idx]; refine ⟨by omega, ?_⟩
  rw [Ok_bind, Int.toNat_natCast, Int.toNat_natCast]
  refine (range_pvec_spec (by omega) (by omega) (by omega) hperm.1).mono ?_
  rintro ⟨p, xp⟩ ⟨hp1, hp2, hp3⟩
  simp only at hp1 hp2 hp3 ⊢
  rw [Ok_bind, Ok_idx]; refine ⟨by omega, ?_⟩
  rw [Ok_bind, Ok_idx]; refine ⟨by omega, ?_⟩
  rw [hS.q_eq, Ok_bind]
  rw [show ((c1 : Int) + k1).toNat = c1 + k1 by omega, show ((c1 : Int) + k2).toNat = c1 + k2 by omega]
  have hN : c1 + k2 - (c1 + k1) = k2 - k1 := by omega
  refine (range_pvec_spec (x := D.q) (p := S.p) (a := c1 + k1) (b := c1 + k2) (by omega) (by omega)
    (by omega) (by rw [hN]; exact hperm.1)).mono ?_
  rw [hN]
  rintro ⟨q, xq⟩ ⟨hq1, hq2, hq3⟩
  simp only at hq1 hq2 hq3 ⊢
  have hnbn : S.nb ≤ k2 - k1 := by
    have := scc_ge hS S.nb (le_refl _)
    rw [hS.r_last] at this
    omega
  have hb1 := dm_bounds (r := D.r) (v := S.r) (nb := S.nb) (base := (k1 : Int)) (last := (A.n : Int))
    (by omega) hS.r_size (P := fun r => r.size = D.r.size ∧ r.g 0 = 0 ∧
      (∀ b, b ≤ S.nb → r.g (b + 1) = k1 + S.r.g b) ∧ r.g (S.nb + 2) = A.n)
    (fun r h1 h2 h3 h4 => ⟨h1, h2, h3, h4⟩)
  have hb2 := dm_bounds (r := D.c) (v := S.c) (nb := S.nb) (base := (c1 + k1 : Int))
    (last := (A.m : Int)) (by omega) hS.c_size (P := fun r => r.size = D.c.size ∧ r.g 0 = 0 ∧
      (∀ b, b ≤ S.nb → r.g (b + 1) = (c1 + k1) + S.c.g b) ∧ r.g (S.nb + 2) = A.m)
    (fun r h1 h2 h3 h4 => ⟨h1, h2, h3, h4⟩)
  rw [Ok_bind] at hb1 ⊢
  refine hb1.mono fun ra hb1 => ?_
  rw [Ok_bind] at hb1 ⊢
  refine hb1.mono fun rb hb1 => ?_
  rw [Ok_bind]
  refine hb1.mono ?_
  rintro r ⟨hr1, hr2, hr3, hr4⟩
  rw [Ok_bind] at hb2 ⊢
  refine hb2.mono fun ra hb2 => ?_
  rw [Ok_bind] at hb2 ⊢
  refine hb2.mono fun rb hb2 => ?_
  rw [Ok_bind]
  refine hb2.mono ?_
  rintro c ⟨hc1, hc2, hc3, hc4⟩
  rw [Ok_ok]
  have hD : DmC A At imatch jmatch
      { D with p := p, q := q, r := r, c := c, nb := S.nb + 2 } c1 k1 k2 k3 :=
    h.reorder hperm rfl rfl hp1 hq1 hp2 hp3 hq2 hq3
  have hco := hD.isCoarse hA hT hM hW hun
  refine ⟨hco, ?_, rfl, rfl⟩
  refine dm_isFine hD hco hk hCn hCm hS ?_ rfl (by simp only; omega) (by simp only; omega) hr2 hr3 hr4
    hc2 hc3 hc4
  intro s t hs ht
  simp only
  rw [hp2 s hs, hq2 t ht]
  exact hE _ _ (hperm.1 s hs) (hperm.1 t ht)

theorem dulmage_mendelsohn_spec (jk : Junk) (hA : A.WF) :
    Ok (dulmage_mendelsohn jk A) (fun D => IsCoarse A D ∧ (D.rr.g 1 < D.rr.g 2 → IsFine A D) ∧
      (D.rr.g 1 = D.rr.g 2 → D.nb = 0)) := by
  unfold dulmage_mendelsohn
  rw [Ok_bind]
  refine (transpose_isTr jk hA false).mono ?_
  intro At hT
  rw [Ok_bind]
  refine (dm_matching_spec jk hA hT).mono ?_
  rintro ⟨jmatch, imatch⟩ ⟨hM, W, hW, hun⟩
  simp only at hM hW hun ⊢
  rw [Ok_bind]
  refine (dm_coarse_spec jk hA hT hM hW hun).mono ?_
  rintro D ⟨⟨c1, k1, k2, k3, h⟩, hnb, hr, hc⟩
  have e1 := h.rr1
  have e2 := h.rr2
  have l1 := h.le1
  have hrrs : D.rr.size = 5 := by rw [h.rr]; rfl
  rw [Ok_bind, Ok_rd]; refine ⟨by omega, ?_⟩
  rw [Ok_bind, Ok_rd]; refine ⟨by omega, ?_⟩
  by_cases hk : k1 < k2
  · rw [if_neg (by omega)]
    refine (dm_fine_spec jk hA hT hM hW hun h hk hr hc).mono ?_
    rintro D' ⟨h1, h2, h3, -⟩
    refine ⟨h1, fun _ => h2, fun he => ?_⟩
    rw [h3] at he
    omega
  · rw [if_pos (by omega), Ok_ok]
    exact ⟨h.isCoarse hA hT hM hW hun, fun hlt => by omega, fun _ => hnb⟩

end Spasm
