import Verif.Proofs.TransferBlock
import Verif.Props.Dense

/-
One chunk of `echelonize_dense`.
-/

namespace Spasm

open Finset

theorem Triplet.lst_split {Z0 Z : Triplet} {l : List (Nat × Nat × Int)} (h : Z.lst = Z0.lst ++ l) :
    Z0.nz ≤ Z.nz ∧ (List.range Z0.nz).map Z.nth = Z0.lst ∧
      (List.range' Z0.nz (Z.nz - Z0.nz)).map Z.nth = l := by
  have h1 : Z.lst.length = Z0.lst.length + l.length := by rw [h, List.length_append]
  rw [Triplet.length_lst, Triplet.length_lst] at h1
  have e : Z.lst = (List.range Z0.nz).map Z.nth ++ (List.range' Z0.nz (Z.nz - Z0.nz)).map Z.nth := by
    rw [Triplet.lst_nz, ← List.map_append]
    congr 1
    rw [List.range_eq_range', List.range_eq_range']
    have := List.range'_append_1 (s := 0) (m := Z0.nz) (n := Z.nz - Z0.nz)
    rw [Nat.zero_add] at this
    rw [this]
    congr 1
    omega
  rw [h] at e
  have := List.append_inj e (by simp [Triplet.length_lst])
  exact ⟨by omega, this.1.symm, this.2.symm⟩

/-- The transfer of an LU factorization, after the computation of a chunk of the Schur complement. -/
theorem chunk_lu_spec (jk : Junk) {q : ℕ} [Fact q.Prime] {A : Csr} {fact : Lu} {Z0 Z : Triplet}
    {Lp : Array Nat} {v : Nat → Nat → ZMod q} {s nr : Nat} {o : Nat → Nat} {old : Nat} {complete : Bool}
    (hL : fact.Ltmp = some Z) (hp : fact.p = some Lp)
    (h : Partial q A fact.U fact.qinv (some Z0) (some Lp) v (s + nr) o old complete)
    {ℓ : Nat → Nat → ZMod q} {Sm r : Nat} {S : Array ℚ} (dt : Datatype) {w0 w : Nat → Nat → Int}
    {P Q qa po : Array Nat} (hR : IsPluq q s Sm w0 r w P Q) (hC : Cells s Sm S w)
    (hqa : IsQ fact.qinv fact.U.m Sm qa)
    (hred : ∀ t, t < s → Reduced q fact.U (v t) (ℓ t) (onCols qa Sm fun j => (w0 t j : ZMod q)))
    {l : List (Nat × Nat × Int)} (hZl : Z.lst = Z0.lst ++ l) (hZb : Z.Buf) (hZn : Z.nz ≤ Z.i.size)
    (hn : Z.n = Z0.n) (hm : Z.m = Z0.m) (hF : Z.F = Z0.F)
    (hl : ∀ e ∈ l, ∃ t, t < s ∧ o t = e.1 ∧ e.2.1 < fact.U.n ∧ Bal q e.2.2 ∧ e.2.2 ≠ 0 ∧
      ℓ t e.2.1 = (e.2.2 : ZMod q))
    (hls : ∀ t, t < s → ∀ c, c < fact.U.n → tsum q l (o t) c = ℓ t c)
    (h0 : 0 < fact.U.n + r ∨ jk.null0 = false) (hpo : s ≤ po.size) (hpoe : ∀ t, t < s → po.g t = o t)
    {pivotal : Array Bool}
    (hpv : complete = false → A.n ≤ pivotal.size ∧ ∀ t, t < s + nr → pivotal.g (o t) = false) :
    Ok (update_fact_after_LU jk s Sm r S dt P Q qa (some po) Z0.nz complete pivotal fact) (fun x =>
      Partial q A x.1.U x.1.qinv x.1.Ltmp x.1.p (fun t => v (s + t)) nr (fun t => o (s + t)) old
        complete ∧ x.1.U.n = fact.U.n + r ∧
      (∃ Z' Lp', x.1 = { fact with U := x.1.U, qinv := x.1.qinv, p := some Lp', Ltmp := some Z' }) ∧
      x.1.U.F = fact.U.F ∧
      (∀ i, i < fact.U.n → x.1.U.pivot i = fact.U.pivot i) ∧
      x.2.size = pivotal.size ∧
      (complete = false → ∀ t, t < nr → x.2.g (o (s + t)) = false)) := by
  have hrs := hR.r_n
  have hroom := h.room
  have hps := h.psize
  have hPL := h.L Z0 rfl
  obtain ⟨e1, e2, e3⟩ := Triplet.lst_split hZl
  obtain ⟨a, ha, has⟩ := h.p_size rfl
  cases ha
  have hZmem : ∀ k, Z0.nz ≤ k → k < Z.nz → Z.nth k ∈ l := by
    intro k h1 h2
    rw [← e3]
    exact List.mem_map_of_mem (List.mem_range'_1.mpr ⟨h1, by omega⟩)
  have hnz : 0 < Z.nz + r ∨ jk.null0 = false := by
    refine h0.imp (fun h0 => ?_) id
    by_contra hc
    -- the first row of `U` has an entry in `L`
    have hun : 0 < fact.U.n := by omega
    have hd := hPL.diag 0 hun
    have hz : Z0.nz = 0 := by omega
    apply hd
    have hnil : Z0.lst = [] := List.length_eq_zero_iff.1 (by rw [Triplet.length_lst]; exact hz)
    rw [Triplet.sum_eq, hnil, tsum_nil]
  refine (update_fact_spec jk dt hL hp h.ech h.x_some h.x_size hR hC hqa (by omega) h0 hZb hZn e1 hnz hpo
    (by omega) ?_).mono ?_
  · intro hc
    obtain ⟨p1, p2⟩ := hpv hc
    refine ⟨fun k k1 k2 => ?_, fun i hi => ?_⟩
    · obtain ⟨t, t1, t2, -⟩ := hl _ (hZmem k k1 k2)
      have t2 : o t = Z.i.g k := t2
      have := hPL.rem_lt t (by omega)
      omega
    · rw [hpoe i hi]
      have := hPL.rem_lt i (by omega)
      omega
  rintro x ⟨unz, Z', Lp', g1, g2, g3, g4, g5, g6, g7, g8, g9, g10, g11, g12, g13⟩
  have gp : ∀ i, i < r → po.g (P.g i) = o (P.g i) :=
    fun i hi => hpoe _ (hR.p_perm.1 i (by omega))
  have hx2 : ∀ t, t < s → (x.2.g (o t) = true ↔ complete = false ∧ ∃ i, i < r ∧ o (P.g i) = o t) ∨
      complete = true := by
    intro t ht
    cases hcc : complete with
    | true => exact .inr rfl
    | false =>
      left
      rw [g13]
      obtain ⟨p1, p2⟩ := hpv hcc
      rw [p2 t (by omega), hcc]
      constructor
      · rintro (h | ⟨_, i, hi, e⟩)
        · cases h
        · exact ⟨rfl, i, hi, by rw [← gp i hi, e]⟩
      · rintro ⟨_, i, hi, e⟩
        exact .inr ⟨rfl, i, hi, by rw [gp i hi, e]⟩
  have hN : ∀ i, i < (if complete = true then s else r) → i < s := by
    intro i hi; split at hi <;> omega
  have hch : LChunk q Z0 Z' fact.U.n s r o P.g w complete l (l.filter fun e => complete || x.2.g e.1) := by
    refine ⟨g3, g4, by rw [g5, hn], by rw [g6, hm], by rw [g7, hF], ?_, ?_, ?_⟩
    · rw [g8, e2, e3]
      congr 1
      refine List.flatMap_congr ?_
      intro i hi
      rw [hpoe _ (hR.p_perm.1 i (hN i (List.mem_range.1 hi)))]
    · intro e he
      obtain ⟨h1, h2⟩ := List.mem_filter.mp he
      refine ⟨h1, ?_⟩
      obtain ⟨t, t1, t2, -⟩ := hl e h1
      rcases hx2 t t1 with hx | hx
      · rw [Bool.or_eq_true] at h2
        rcases h2 with h2 | h2
        · exact .inl h2
        · rw [← t2] at h2 ⊢
          exact .inr (hx.1 h2).2
      · exact .inl hx
    · intro i c
      rw [tsum_filter (fun i => complete || x.2.g i)]
      by_cases hi : ∃ e ∈ l, e.1 = i
      · obtain ⟨e, he, rfl⟩ := hi
        obtain ⟨t, t1, t2, -⟩ := hl e he
        rw [← t2]
        rcases hx2 t t1 with hx | hx
        · cases hcc : complete with
          | true => simp
          | false =>
            rw [hcc] at hx
            by_cases hg : x.2.g (o t) = true
            · rw [if_pos (by simp [hg]), if_pos (Or.inr (hx.1 hg).2)]
            · rw [if_neg (by simp [hg]), if_neg]
              rintro (h | h)
              · cases h
              · exact hg (hx.2 ⟨rfl, h⟩)
        · simp [hx]
      · have : tsum q l i c = 0 := tsum_eq_zero fun e he hh => hi ⟨e, he, hh.1⟩
        simp [this]
  have hx1L : x.1.Ltmp = some Z' := by rw [g2]
  have hx1p : x.1.p = some Lp' := by rw [g2]
  refine ⟨?_, g1.n_eq, ⟨Z', Lp', g2⟩, g1.F_eq, g1.pold, g12, ?_⟩
  · rw [hx1L, hx1p]
    exact h.block_lu hR g1 hred hch hl hls g9 (fun i hi => by rw [g10 i hi, gp i hi]) g11
  · intro hcc t ht
    obtain ⟨p1, p2⟩ := hpv hcc
    rw [← Bool.not_eq_true, g13, p2 _ (by omega)]
    rintro (h | ⟨_, i, hi, e⟩)
    · cases h
    · rw [gp i hi] at e
      have := hR.p_perm.1 i (by omega)
      have := hPL.rem_inj _ _ (by omega) (by omega) e
      omega

end Spasm
