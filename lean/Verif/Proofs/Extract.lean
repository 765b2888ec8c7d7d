import Verif.Proofs.Grow
import Verif.Proofs.Partial
import Verif.Proofs.Steps
import Verif.Proofs.Reorder
import Verif.Proofs.Triplet
import Verif.Proofs.Entry
import Verif.Proofs.DenseSolve

/-
Proofs about the extraction of structural pivots.
-/

namespace Spasm

open Finset

variable {q : ℕ}

/-- One entry added to `L`. -/
theorem add_entry_adds (jk : Junk) {T : Triplet} {q : ℕ} (hT : T.WFV q) {i j : Nat} {x : Int}
    (hi : i < T.n) (hj : j < T.m) :
    Ok (add_entry jk T i j x) (fun S => AddsRow q T S i (j + 1)
      (fun c => if c = j then (x : ZMod q) else 0) ∧ S.m = T.m) := by
  refine (add_entry_spec jk hT i j x).mono ?_
  rintro S ⟨h1, h2, h3, h4, h5, h6, h7, h8⟩
  have hn : S.n = T.n := by rcases h7 with h | h <;> omega
  have hm : S.m = T.m := by rcases h7 with h | h <;> omega
  refine ⟨⟨h1, hn, h5, ?_, ?_, ?_⟩, hm⟩
  · rintro a c ⟨k, hk, rfl, rfl⟩
    by_cases hk' : k < T.nz
    · left
      obtain ⟨e1, e2, -⟩ := h8 k hk'
      exact ⟨k, hk', e1.symm, e2.symm⟩
    · right
      have hk2 : k = T.nz ∧ S.nz = T.nz + 1 := by rcases h7 with h | h <;> omega
      have hs := h3 (S.i.g k) (S.j.g k)
      have hsum : S.sum q (S.i.g k) (S.j.g k) = T.sum q (S.i.g k) (S.j.g k) + (S.val k : ZMod q) := by
        unfold Triplet.sum
        rw [hk2.2, Finset.sum_range_succ]
        congr 1
        · refine Finset.sum_congr rfl fun t ht => ?_
          obtain ⟨e1, e2, e3⟩ := h8 t (mem_range.mp ht)
          rw [e1, e2, e3]
        · rw [← hk2.1]; simp
      rw [hsum] at hs
      have hb := h1.bal k hk
      have hnz : (S.val k : ZMod q) ≠ 0 := fun h0 =>
        hb.2 ((small_eq_zero_iff h1.good.two_le hb.1.small).mp h0)
      have hv := add_left_cancel hs
      by_cases hc : S.i.g k = i ∧ S.j.g k = j
      · rw [if_pos hc] at hv
        refine ⟨hc.1, by omega, ?_⟩
        rw [if_pos hc.2, ← hv]; exact hnz
      · rw [if_neg hc] at hv; exact absurd hv hnz
  · intro a c hc
    rw [h3]
    congr 1
    by_cases ha : a = i <;> by_cases hcj : c = j <;> simp [ha, hcj]
  · intro a c hc
    rw [h3, if_neg (by omega), add_zero]

theorem find_pivot_spec {q : ℕ} {A : Csr} (hA : A.WFV q) (hnd : A.NoDup) (hz : A.NoZero) {i j : Nat}
    (hi : i < A.n) (hin : A.InRow i j) :
    Ok (find_pivot A i j) (fun v => Small q v ∧ v ≠ 0 ∧ (v : ZMod q) = A.entry q i j) := by
  have h1 := hA.toWF.row_le hi
  have h2 := hA.p_size
  have h3 := hA.p_nnz
  unfold find_pivot
  simp only [Ok_bind, Ok_rd]
  refine ⟨by omega, by omega, ?_⟩
  refine (Ok_forBrk (I := fun px (v : Int) => ∀ k, A.p.g i ≤ k → k < px → A.j.g k ≠ j)
    (B := fun px (v : Int) => Small q v ∧ v ≠ 0 ∧ (v : ZMod q) = A.entry q i j) h1.1
    (fun k h1 h2 => by omega) ?_).mono ?_
  · rintro px v e1 e2 e3
    have hpx := hA.toWF.row_lt hi e2
    rw [Ok_bind, Ok_rd]
    refine ⟨by omega, ?_⟩
    by_cases hc : A.j.g px = j
    · rw [if_pos hc, Ok_bind]
      refine rdX_ok hA hpx ?_
      have hne := hz px hpx
      rw [if_pos hne, Ok_ok]
      refine ⟨hA.small px hpx, hne, ?_⟩
      rw [← hc]; exact (Csr.entry_of_nodup hnd hi e1 e2).symm
    · rw [if_neg hc, Ok_ok]
      intro k g1 g2
      by_cases hk : k = px
      · rw [hk]; exact hc
      · exact e3 k g1 (by omega)
  · rintro ⟨k, v⟩ (⟨-, -, h⟩ | ⟨-, h⟩)
    · exact h
    · obtain ⟨k, g1, g2, g3⟩ := hin
      exact absurd g3 (h k g1 g2)

theorem copy_rest_spec {q : ℕ} [Fact q.Prime] {A : Csr} (hA : A.WFV q) (hnd : A.NoDup) (hz : A.NoZero) {i j : Nat}
    (hi : i < A.n) {alpha : Int}
    (hal : Small q alpha) (hal0 : (alpha : ZMod q) ≠ 0) {U0 U : Csr} {unz : Nat} {l : List (Nat × Int)}
    (hG : Grow U0 U unz l)
    (hcap : unz + ((A.row i).filter fun e => decide (e.1 ≠ j)).length ≤ U.j.size) :
    Ok (copy_rest A i j alpha U unz) (fun s => ∃ l', Grow U0 s.1 s.2 (l ++ l') ∧
      s.1.j.size = U.j.size ∧
      (∀ e ∈ l', e.1 ≠ j ∧ A.InRow i e.1 ∧ Bal q e.2) ∧
      l'.length = ((A.row i).filter fun e => decide (e.1 ≠ j)).length ∧
      (∀ c, c ≠ j → lsum q l' c = alpha * A.entry q i c) ∧
      (l'.map Prod.fst).Nodup ∧ ∀ e ∈ l', e.2 ≠ 0) := by
  have h1 := hA.toWF.row_le hi
  have h2 := hA.p_size
  have h3 := hA.p_nnz
  unfold copy_rest
  simp only [Ok_bind, Ok_rd]
  refine ⟨by omega, by omega, ?_⟩
  refine Ok_forRange_imp (I := fun px (s : Csr × Nat) => ∃ l', Grow U0 s.1 s.2 (l ++ l') ∧
      s.1.j.size = U.j.size ∧
      (∀ e ∈ l', e.1 ≠ j ∧ A.InRow i e.1 ∧ Bal q e.2) ∧
      l'.length = ((A.seg (A.p.g i) px).filter fun e => decide (e.1 ≠ j)).length ∧
      (∀ c, c ≠ j → lsum q l' c = alpha * lsum q (A.seg (A.p.g i) px) c) ∧
      l'.map Prod.fst = ((A.seg (A.p.g i) px).filter fun e => decide (e.1 ≠ j)).map Prod.fst ∧
      ∀ e ∈ l', e.2 ≠ 0) h1.1 ?_ ?_ ?_
  · refine ⟨[], by simpa using hG, rfl, by simp, by simp [Csr.seg_self], ?_, by simp [Csr.seg_self], by simp⟩
    intro c _; simp [Csr.seg_self]
  · rintro px ⟨V, vnz⟩ e1 e2 ⟨l', g1, g2, g3, g4, g5, g6, g7⟩
    simp only at g1 g2
    have hpx := hA.toWF.row_lt hi e2
    rw [Ok_bind, Ok_rd]
    refine ⟨by omega, ?_⟩
    by_cases hc : j = A.j.g px
    · rw [if_pos hc, Ok_ok]
      refine ⟨l', g1, g2, g3, ?_, ?_, ?_, g7⟩
      · rw [A.seg_succ e1, List.filter_append, List.length_append, g4]
        simp [Csr.ent, ← hc]
      · intro c hcj
        rw [A.seg_succ e1, lsum_append, g5 c hcj, lsum_cons, lsum_nil, if_neg (by
          simp only [Csr.ent]; omega)]
        ring
      · rw [A.seg_succ e1, List.filter_append, List.map_append, g6]
        simp [Csr.ent, ← hc]
    · rw [if_neg hc]
      have hlt : vnz < V.j.size := by
        have hu := g1.unz_eq
        have hu' := hG.unz_eq
        rw [List.length_append] at hu
        have : ((A.row i).filter fun e => decide (e.1 ≠ j)).length =
            ((A.seg (A.p.g i) px).filter fun e => decide (e.1 ≠ j)).length + 1 +
            ((A.seg (px + 1) (A.p.g (i + 1))).filter fun e => decide (e.1 ≠ j)).length := by
          unfold Csr.row
          rw [← A.seg_append (lo := A.p.g i) (mid := px + 1) (hi := A.p.g (i + 1)) (by omega) (by omega),
            A.seg_succ e1, List.filter_append, List.filter_append, List.length_append,
            List.length_append]
          have : ([A.ent px].filter fun e => decide (e.1 ≠ j)) = [A.ent px] := by
            rw [List.filter_cons_of_pos]
            · rfl
            · exact decide_eq_true (fun h => hc (Eq.symm h))
          rw [this]; rfl
        omega
      rw [Ok_bind, Ok_setJ]
      refine ⟨hlt, ?_⟩
      rw [Ok_bind]
      refine rdX_ok hA hpx ?_
      rw [Ok_bind]
      refine mul_zmod hA.good hal (hA.small px hpx) ?_
      intro r hr hrz
      rw [Ok_bind]
      refine Ok_setX g1.x_some (by rw [Csr.room_updJ]; exact g1.room hlt) ?_
      rw [Ok_ok]
      refine ⟨l' ++ [(A.j.g px, r)], ?_, ?_, ?_, ?_, ?_, ?_, ?_⟩
      · have := g1.push hlt (A.j.g px) r
        rwa [List.append_assoc] at this
      · simpa using g2
      · intro e he
        rcases List.mem_append.mp he with he | he
        · exact g3 e he
        · rw [List.mem_singleton] at he
          rw [he]
          exact ⟨fun h => hc h.symm, ⟨px, e1, e2, rfl⟩, hr⟩
      · rw [A.seg_succ e1, List.filter_append, List.length_append, List.length_append, g4]
        have : ([A.ent px].filter fun e => decide (e.1 ≠ j)) = [A.ent px] := by
          rw [List.filter_cons_of_pos]
          · rfl
          · exact decide_eq_true (fun h => hc (Eq.symm h))
        rw [this]; rfl
      · intro c hcj
        rw [A.seg_succ e1, lsum_append, lsum_append, g5 c hcj, lsum_cons, lsum_nil, lsum_cons, lsum_nil]
        have he1 : (A.ent px).1 = A.j.g px := rfl
        have he2 : (A.ent px).2 = A.val px := rfl
        rw [he1, he2]
        by_cases h : A.j.g px = c
        · rw [if_pos h, if_pos h, hrz]; ring
        · rw [if_neg h, if_neg h]; ring
      · rw [A.seg_succ e1, List.filter_append, List.map_append, List.map_append, g6]
        have : ([A.ent px].filter fun e => decide (e.1 ≠ j)) = [A.ent px] := by
          rw [List.filter_cons_of_pos]
          · rfl
          · exact decide_eq_true (fun h => hc (Eq.symm h))
        rw [this]; rfl
      · intro e he
        rcases List.mem_append.mp he with he | he
        · exact g7 e he
        · rw [List.mem_singleton] at he
          rw [he]
          simp only
          intro h0
          rw [h0, Int.cast_zero] at hrz
          rcases mul_eq_zero.mp hrz.symm with h | h
          · exact hal0 h
          · exact hz px hpx ((small_eq_zero_iff hA.good.two_le (hA.small px hpx)).mp h)
  · rintro ⟨V, vnz⟩ ⟨l', g1, g2, g3, g4, g5, g6, g7⟩
    refine ⟨l', g1, g2, g3, g4, ?_, ?_, g7⟩
    · intro c hc
      rw [g5 c hc, Csr.entry_eq_lsum]; rfl
    · rw [g6]
      exact (nodup_row_iff.mp hnd i hi).sublist (List.filter_sublist.map _)


/-- One pivotal row is moved to `U`. -/
theorem extract_row_spec [Fact q.Prime] (jk : Junk) {A0 A : Csr} (hA : A.WFV q) (hnd : A.NoDup)
    (hz : A.NoZero) (hm : A.m = A0.m) {pinv qinv : Array Int} (hM : Matching A pinv qinv)
    {p_in : Option (Array Nat)} (hp : PermSize p_in A.n) {i : Nat} (hi : i < A.n)
    (hpi : 0 ≤ pinv.g i) {s : Ext} {v : Nat → Nat → ZMod q} {nr : Nat} {o : Nat → Nat} {old : Nat}
    {complete : Bool}
    (h : Partial q A0 s.U s.qinv s.L s.Lp v (nr + 1) o old complete)
    (hv : v 0 = A.entry q i) (ho : o 0 = permFun p_in i)
    (hcol : ∀ c, A.InRow i c → s.qinv.g c < 0) (hunz : s.unz = s.U.p.g s.U.n)
    (hcap : s.unz + (A.p.g (i + 1) - A.p.g i) ≤ s.U.j.size) :
    Ok (extract_row jk A p_in pinv qinv i s) (fun s' =>
      Partial q A0 s'.U s'.qinv s'.L s'.Lp (fun t => v (t + 1)) nr (fun t => o (t + 1)) old complete ∧
      s'.U.n = s.U.n + 1 ∧ s'.unz = s'.U.p.g s'.U.n ∧ s'.U.j.size = s.U.j.size ∧
      s'.unz ≤ s.unz + (A.p.g (i + 1) - A.p.g i) ∧
      s'.qinv = s.qinv.upd (pinv.g i).toNat (s.U.n : Int) ∧
      (∀ k, k < s.U.n → s'.U.entry q k = s.U.entry q k) ∧
      (∀ k, k < s.U.n → s'.U.pivot k = s.U.pivot k) ∧
      s'.U.pivot s.U.n = (pinv.g i).toNat ∧
      (∀ c, A.entry q i c = A.entry q i (pinv.g i).toNat * s'.U.entry q s.U.n c) ∧
      (s.L = none → s'.L = none) ∧
      ∀ Z, s.L = some Z → ∃ Z' a, s'.L = some Z' ∧ s.Lp = some a ∧
        s'.Lp = some (a.upd s.U.n (permFun p_in i)) ∧
        AddsRow q Z Z' (permFun p_in i) (s.U.n + 1)
          (fun c => if c = s.U.n then A.entry q i (pinv.g i).toNat else 0)) := by
  have h0 := h.ech.wfv.toWF
  have hq2 := h.ech.wfv.good.two_le
  have hj := hM.p_lt i hi
  obtain ⟨j, hje⟩ : ∃ j : Nat, pinv.g i = (j : Int) := ⟨(pinv.g i).toNat, by omega⟩
  have hin := hM.ent i hi hpi
  have hqp := hM.qp i hi hpi
  rw [hje] at hin hqp hj
  rw [hje]
  simp only [Int.toNat_natCast] at hin hqp ⊢
  have hjm : j < A.m := by omega
  have hUm : s.U.m = A0.m := h.m_eq
  have hsz := h.ech.size
  have hne : A.entry q i j ≠ 0 := hA.entry_ne_zero hnd hz hi hin
  have hrow := hA.toWF.row_le hi
  unfold extract_row
  rw [Ok_bind, Ok_rd]
  refine ⟨by rw [hM.psize]; exact hi, ?_⟩
  rw [Ok_bind, Ok_cassert]
  refine ⟨by rw [hje]; simp, ?_⟩
  rw [Ok_bind, Ok_idx, hje]
  refine ⟨by omega, ?_⟩
  rw [Int.toNat_natCast, Ok_bind, Ok_rd]
  refine ⟨by rw [hM.qsize]; exact hjm, ?_⟩
  rw [Ok_bind, Ok_cassert, hqp]
  refine ⟨by simp, ?_⟩
  rw [Ok_bind, Ok_wr]
  refine ⟨by omega, ?_⟩
  rw [Ok_bind]
  refine (find_pivot_spec hA hnd hz hi hin).mono ?_
  rintro pivot ⟨p1, p2, p3⟩
  rw [Ok_bind, Ok_cassert]
  refine ⟨by simpa using p2, ?_⟩
  rw [Ok_bind]
  -- the update of `L`
  have hL : Ok (extract_L jk p_in i pivot s) (fun r =>
      (s.L = none → r.1 = none) ∧
      ∀ Z, s.L = some Z → ∃ Z' a, r.1 = some Z' ∧ s.Lp = some a ∧
        r.2 = some (a.upd s.U.n (permFun p_in i)) ∧
        AddsRow q Z Z' (permFun p_in i) (s.U.n + 1)
          (fun c => if c = s.U.n then A.entry q i j else 0)) := by
    unfold extract_L
    cases hsL : s.L with
    | none =>
      simp only
      rw [Ok_ok]
      exact ⟨fun _ => rfl, fun Z hZ => by cases hZ⟩
    | some Z =>
      simp only
      have hPL := h.L Z hsL
      obtain ⟨a, ha1, ha2⟩ := h.p_size (by rw [hsL]; rfl)
      have hroom := h.room
      have hmge := hPL.m_ge
      rw [Ok_bind]
      refine permAt_ok hp hi ?_
      rw [Ok_bind]
      refine (add_entry_adds jk hPL.wfv ?_ ?_).mono ?_
      · rw [hPL.n_eq, ← ho]; exact hPL.rem_lt 0 (by omega)
      · omega
      · rintro Z' ⟨hZ', -⟩
        rw [Ok_bind, ha1, Ok_deref_some, Ok_bind, Ok_wr]
        refine ⟨by omega, ?_⟩
        rw [Ok_ok]
        refine ⟨(fun hh => nomatch hh), ?_⟩
        intro Z1 hZ1
        cases hZ1
        refine ⟨Z', a, rfl, rfl, rfl, ?_⟩
        rw [p3] at hZ'
        exact hZ'
  refine hL.mono ?_
  rintro ⟨L', Lp'⟩ ⟨l1, l2⟩
  simp only at l1 l2 ⊢
  rw [Ok_bind]
  refine inverse_zmod hA.good p1 p2 ?_
  intro alpha al1 al2
  have hwt : ((A.row i).filter fun e => decide (e.1 ≠ j)).length + 1 ≤ A.p.g (i + 1) - A.p.g i := by
    rw [← A.length_row i]
    have := List.length_filter_lt_length_iff_exists (l := A.row i) (p := fun e => decide (e.1 ≠ j))
    obtain ⟨k, k1, k2, k3⟩ := hin
    have := this.mpr ⟨A.ent k, Csr.mem_seg.mpr ⟨k, k1, k2, rfl⟩, by simp [Csr.ent, k3]⟩
    omega
  have hG := Grow.refl h0 h.x_some h.x_size
  rw [← hunz] at hG
  have hlt : s.unz < s.U.j.size := by omega
  rw [Ok_bind, Ok_setJ]
  refine ⟨hlt, ?_⟩
  rw [Ok_bind]
  refine Ok_setX h.x_some (by rw [Csr.room_updJ]; exact hG.room hlt) ?_
  have hG1 := hG.push hlt j 1
  rw [Ok_bind]
  refine (copy_rest_spec hA hnd hz hi al1.small (by rw [al2, p3]; exact inv_ne_zero hne) hG1 ?_).mono ?_
  · simp only [Csr.j_updX, Csr.j_updJ, size_upd]; omega
  rintro ⟨V, vnz⟩ ⟨l', c1, c2, c3, c4, c5, c6⟩
  simp only at c1 c2 ⊢
  have hroom := h.room
  have hps := h.psize
  have hps' : s.U.n + 1 < s.U.p.size := by omega
  rw [Ok_bind, Ok_setP]
  refine ⟨by rw [c1.psize, c1.n_eq]; exact hps', ?_⟩
  rw [Ok_ok]
  simp only [List.nil_append, List.singleton_append] at c1
  obtain ⟨a1, a2, -, a4, a5, a6, a7, a8, a9, -, -⟩ := c1.ents h0 rfl hps'
  obtain ⟨e1, e2⟩ := c1.entries h0 rfl hps' q
  have hnew : ∀ c, lsum q ((j, 1) :: l') c = (A.entry q i j)⁻¹ * A.entry q i c := by
    intro c
    rw [lsum_cons]
    by_cases hc : c = j
    · subst hc
      rw [if_pos rfl, lsum_map_fst_not_mem, inv_mul_cancel₀ hne]
      · push_cast; ring
      · intro hmem
        obtain ⟨e, he, hee⟩ := List.mem_map.mp hmem
        exact (c3 e he).1 hee
    · rw [if_neg (fun hh => hc hh.symm), c5 c hc, al2, p3]; ring
  have hpar := h.pivot (ℓ := fun c => if c = s.U.n then A.entry q i j else 0) (L' := L') (Lp' := Lp')
    c1 (by omega) (hcol j hin) ?_ c6 rfl ?_ ?_ l1 ?_
  · refine ⟨hpar.1, a1, ?_, ?_, ?_, rfl, e1, ?_, ?_, ?_, l1, ?_⟩
    · rw [a1, a8]
    · rw [a5, c2]; simp
    · have := c1.unz_eq
      rw [List.length_cons, c4] at this
      simp only
      omega
    · intro k hk
      have := h.ech.ne k hk
      have := (h0.row_le hk).2
      unfold Csr.pivot
      rw [a7 k (by omega)]
      exact congrArg Prod.fst (a9 _ (by omega))
    · unfold Csr.pivot
      rw [a7 _ (le_refl _), a5]
      have hnw := c1.new
      have hu := c1.unz_eq
      rw [List.length_cons] at hu
      have : V.ent (s.U.p.g s.U.n) = (j, 1) := by
        rw [← V.seg_append (lo := s.U.p.g s.U.n) (mid := s.U.p.g s.U.n + 1) (hi := vnz) (by omega) (by omega),
          V.seg_succ (le_refl _), Csr.seg_self, List.nil_append, List.singleton_append] at hnw
        exact (List.cons.inj hnw).1
      exact congrArg Prod.fst this
    · intro c
      rw [e2, hnew, mul_inv_cancel_left₀ hne]
    · intro Z hZ
      exact l2 Z hZ
  · intro e he
    obtain ⟨r1, r2, r3⟩ := c3 e he
    exact ⟨by rw [hUm, ← hm]; exact hA.toWF.inRow_lt hi r2, r3.small, hcol _ r2, r1⟩
  · intro c
    rw [hv, hnew]
    simp only [if_true]
    rw [Finset.sum_eq_zero, mul_inv_cancel_left₀ hne, zero_add]
    intro k hk
    have := mem_range.mp hk
    rw [if_neg (by omega), zero_mul]
  · simpa using hne
  · intro Z hZ
    obtain ⟨Z', a, b1, b2, b3, b4⟩ := l2 Z hZ
    rw [← ho] at b3 b4
    exact ⟨Z', a, b1, b4, b2, b3⟩


/-- The pivotal rows are moved to `U`. -/
theorem extract_rows_spec [Fact q.Prime] (jk : Junk) {A0 A : Csr} (hA : A.WFV q) (hnd : A.NoDup)
    (hz : A.NoZero) (hm : A.m = A0.m) {pinv qinv : Array Int} (hM : Matching A pinv qinv)
    {p_in : Option (Array Nat)} (hp : PermSize p_in A.n) {npiv : Nat} {p : Array Nat}
    (hO : PivotOrder A pinv npiv p) {fact : Lu} {complete : Bool}
    (h : Partial q A0 fact.U fact.qinv fact.Ltmp fact.p (A.entry q) A.n (permFun p_in) fact.U.n
      complete) :
    Ok (extract_rows jk A p_in fact pinv qinv npiv p) (fun f =>
      Partial q A0 f.U f.qinv f.Ltmp f.p (fun t => A.entry q (p.g (t + npiv))) (A.n - npiv)
        (fun t => permFun p_in (p.g (t + npiv))) fact.U.n complete ∧
      f.U.n = fact.U.n + npiv ∧
      (∀ i, i < fact.U.n → f.U.entry q i = fact.U.entry q i ∧ f.U.pivot i = fact.U.pivot i) ∧
      (∀ k, k < npiv → f.U.pivot (fact.U.n + k) = (pinv.g (p.g k)).toNat ∧
        ∀ c, A.entry q (p.g k) c =
          A.entry q (p.g k) (pinv.g (p.g k)).toNat * f.U.entry q (fact.U.n + k) c) ∧
      (fact.Ltmp = none → f.Ltmp = none) ∧
      (∀ Z, fact.Ltmp = some Z → ∃ Z' a a', f.Ltmp = some Z' ∧ fact.p = some a ∧ f.p = some a' ∧
        (∀ i, i < fact.U.n → a'.g i = a.g i) ∧
        (∀ k, k < npiv → a'.g (fact.U.n + k) = permFun p_in (p.g k)) ∧
        ∀ i c, Z'.sum q i c = Z.sum q i c + ∑ k ∈ range npiv,
          if i = permFun p_in (p.g k) ∧ c = fact.U.n + k
          then A.entry q (p.g k) (pinv.g (p.g k)).toNat else 0) ∧
      f.r = fact.r ∧ f.complete = fact.complete ∧ f.L = fact.L) := by
  have h0 := h.ech.wfv.toWF
  have hple := hO.le
  have hplt : ∀ k, k < A.n → p.g k < A.n := fun k hk => hO.perm.1 k hk
  set w : Nat → Nat := fun k => A.p.g (p.g k + 1) - A.p.g (p.g k) with hw
  unfold extract_rows
  rw [Ok_bind]
  refine Ok_forRange_imp (I := fun k (acc : Nat) => acc = ∑ t ∈ range k, w t) (by omega) rfl ?_ ?_
  · rintro k acc - hk rfl
    have hps := hA.p_size
    have hpk := hplt k (by omega)
    simp only [Ok_bind, Ok_rd, row_weight, Ok_ok]
    refine ⟨by rw [hO.size]; omega, by omega, by omega, ?_⟩
    rw [Finset.sum_range_succ]
  rintro acc rfl
  have hps := h.psize
  have hroom := h.room
  unfold nnz
  rw [Ok_bind, Ok_rd]
  refine ⟨by omega, ?_⟩
  rw [Ok_bind]
  have hG := Grow.refl h0 h.x_some h.x_size
  have hre : Ok (extract_room jk fact.U (fact.U.p.g fact.U.n + ∑ t ∈ range npiv, w t)) (fun U => Grow fact.U U (fact.U.p.g fact.U.n) [] ∧
        fact.U.p.g fact.U.n + ∑ t ∈ range npiv, w t ≤ U.j.size) := by
    unfold extract_room
    split
    · rename_i hgt
      refine (hG.realloc jk (by omega) (by omega)).mono ?_
      rintro V ⟨v1, v2, -, -⟩
      exact ⟨v1, by omega⟩
    · rename_i hgt
      rw [Ok_ok]
      exact ⟨hG, by unfold Csr.nzmax at hgt; omega⟩
  refine hre.mono ?_
  rintro U1 ⟨hG1, hcap1⟩
  have hP1 := (h.perm hO.perm).of_grow hG1 (fun _ _ => rfl) (fun _ _ => rfl)
  rw [Ok_bind]
  refine Ok_forRange_imp (I := fun k (s : Ext) =>
      Partial q A0 s.U s.qinv s.L s.Lp (fun t => A.entry q (p.g (t + k))) (A.n - k)
        (fun t => permFun p_in (p.g (t + k))) fact.U.n complete ∧
      s.U.n = fact.U.n + k ∧ s.unz = s.U.p.g s.U.n ∧
      s.unz + ∑ t ∈ Ico k npiv, w t ≤ s.U.j.size ∧
      (∀ c, c < A.m → 0 ≤ s.qinv.g c → 0 ≤ fact.qinv.g c ∨ ∃ t, t < k ∧ pinv.g (p.g t) = c) ∧
      (∀ i, i < fact.U.n → s.U.entry q i = fact.U.entry q i ∧ s.U.pivot i = fact.U.pivot i) ∧
      (∀ t, t < k → s.U.pivot (fact.U.n + t) = (pinv.g (p.g t)).toNat ∧
        ∀ c, A.entry q (p.g t) c =
          A.entry q (p.g t) (pinv.g (p.g t)).toNat * s.U.entry q (fact.U.n + t) c) ∧
      (fact.Ltmp = none → s.L = none) ∧
      (∀ Z, fact.Ltmp = some Z → ∃ Z' a a', s.L = some Z' ∧ fact.p = some a ∧ s.Lp = some a' ∧
        (∀ i, i < fact.U.n → a'.g i = a.g i) ∧
        (∀ t, t < k → a'.g (fact.U.n + t) = permFun p_in (p.g t)) ∧
        ∀ i c, Z'.sum q i c = Z.sum q i c + ∑ t ∈ range k,
          if i = permFun p_in (p.g t) ∧ c = fact.U.n + t
          then A.entry q (p.g t) (pinv.g (p.g t)).toNat else 0)) (by omega) ?_ ?_ ?_
  · refine ⟨hP1, hG1.n_eq, ?_, ?_, fun c _ hc => Or.inl hc, ?_, ?_, fun hh => hh, ?_⟩
    · simp only
      rw [hG1.n_eq, hG1.p_eq _ (le_refl _)]
    · simpa using hcap1
    · intro i hi
      exact ⟨hG1.entry_eq h0 q hi, hG1.pivot_eq h.ech hi⟩
    · intro t ht; omega
    · intro Z hZ
      obtain ⟨a, ha, -⟩ := h.p_size (by rw [hZ]; rfl)
      exact ⟨Z, a, a, hZ, ha, ha, fun _ _ => rfl, fun t ht => by omega, fun i c => by simp⟩
  · rintro k s - hk ⟨i1, i2, i3, i4, i5, i6, i7, i8, i9⟩
    have hpk := hplt k (by omega)
    have hpiv := hO.piv k hk
    obtain ⟨nr, hnr⟩ : ∃ nr, A.n - k = nr + 1 := ⟨A.n - k - 1, by omega⟩
    rw [hnr] at i1
    rw [Ok_bind, Ok_rd]
    refine ⟨by rw [hO.size]; omega, ?_⟩
    have hcol : ∀ c, A.InRow (p.g k) c → s.qinv.g c < 0 := by
      intro c hc
      by_contra hh
      have hcm := hA.toWF.inRow_lt hpk hc
      rcases i5 c hcm (by omega) with g | ⟨t, t1, t2⟩
      · have hUm := h.m_eq
        have hl := h.ech.loc c (by omega) g
        have hlt := h.ech.lt c (by omega)
        have hzz := h.zero (p.g k) hpk (fact.qinv.g c).toNat (by omega)
        rw [hl] at hzz
        exact hA.entry_ne_zero hnd hz hpk hc hzz
      · have := hO.tri t k t1 hk
        rw [t2] at this
        exact this hc
    have hsum : ∑ t ∈ Ico k npiv, w t = w k + ∑ t ∈ Ico (k + 1) npiv, w t :=
      Finset.sum_eq_sum_Ico_succ_bot hk _
    refine (extract_row_spec jk hA hnd hz hm hM hp hpk hpiv i1 (by simp) (by simp) hcol i3 ?_).mono ?_
    · have : w k = A.p.g (p.g k + 1) - A.p.g (p.g k) := rfl
      omega
    rintro s' ⟨r1, r2, r3, r4, r5, r6, r7, r8, r9, r10, r11, r12⟩
    refine ⟨?_, by omega, r3, ?_, ?_, ?_, ?_, ?_, ?_⟩
    · have e : A.n - (k + 1) = nr := by omega
      rw [e]
      refine r1.rename ?_ ?_
      · intro t ht
        have : t + (k + 1) = t + 1 + k := by omega
        rw [this]
      · intro t ht
        have : t + (k + 1) = t + 1 + k := by omega
        rw [this]
    · rw [r4]
      have : w k = A.p.g (p.g k + 1) - A.p.g (p.g k) := rfl
      omega
    · intro c hc hq
      have hpl := hM.p_lt _ hpk
      by_cases hcc : c = (pinv.g (p.g k)).toNat
      · exact Or.inr ⟨k, by omega, by omega⟩
      · rw [r6, g_upd_ne _ _ _ _ hcc] at hq
        rcases i5 c hc hq with g | ⟨t, t1, t2⟩
        · exact Or.inl g
        · exact Or.inr ⟨t, by omega, t2⟩
    · intro i hi
      rw [r7 i (by omega), r8 i (by omega)]
      exact i6 i hi
    · intro t ht
      by_cases htk : t = k
      · subst htk
        rw [← i2]
        exact ⟨r9, r10⟩
      · rw [r7 _ (by omega), r8 _ (by omega)]
        exact i7 t (by omega)
    · intro hh; exact r11 (i8 hh)
    · intro Z hZ
      obtain ⟨Z', a, a', b1, b2, b3, b4, b5, b6⟩ := i9 Z hZ
      obtain ⟨Z'', a'', c1, c2, c3, c4⟩ := r12 Z' b1
      rw [b3] at c2
      cases c2
      obtain ⟨a1, ha1, ha2⟩ := i1.p_size (by rw [b1]; rfl)
      rw [b3] at ha1
      cases ha1
      refine ⟨Z'', a, _, c1, b2, c3, ?_, ?_, ?_⟩
      · intro i hi
        rw [g_upd_ne _ _ _ _ (by omega)]; exact b4 i hi
      · intro t ht
        by_cases htk : t = k
        · subst htk
          rw [← i2, g_upd_eq _ _ _ (by omega)]
        · rw [g_upd_ne _ _ _ _ (by omega)]; exact b5 t (by omega)
      · intro i c
        rw [Finset.sum_range_succ, ← add_assoc, ← b6 i c, ← i2]
        by_cases hc : c < s.U.n + 1
        · rw [c4.sum i c hc]
          congr 1
          by_cases e1 : i = permFun p_in (p.g k) <;> by_cases e2 : c = s.U.n <;> simp [e1, e2]
        · rw [c4.sum_ge i c (by omega), if_neg (by omega), add_zero]
  · rintro s ⟨i1, i2, i3, i4, i5, i6, i7, i8, i9⟩
    rw [Ok_bind, Ok_cassert]
    refine ⟨?_, ?_⟩
    · have : s.unz ≤ s.U.nzmax := by unfold Csr.nzmax; omega
      simpa using this
    rw [Ok_ok]
    exact ⟨i1, i2, i6, i7, i8, i9, rfl, rfl, rfl⟩

end Spasm
