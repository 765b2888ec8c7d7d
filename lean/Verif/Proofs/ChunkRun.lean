import Verif.Proofs.Chunk

/-
One chunk of `echelonize_dense`, from the computation of the Schur complement to the transfer.
-/

namespace Spasm

open Finset

/-- What `spasm_schur_dense` leaves for the dense library and for the transfer. -/
structure ChunkIn (q : ℕ) (a : DenseIn) (o : DenseOut) (w0 : Nat → Nat → Int) (ℓ : Nat → Nat → ZMod q) :
    Prop where
  cells : Cells a.n (a.A.m - a.U.n) o.S w0
  bal : ∀ i j, i < a.n → j < a.A.m - a.U.n → Bal q (w0 i j)
  q_ok : IsQ a.qinv a.A.m (a.A.m - a.U.n) o.q
  red : ∀ t, t < a.n → Reduced q a.U (a.A.entry q (a.p.g t)) (ℓ t)
    (onCols o.q (a.A.m - a.U.n) fun j => (w0 t j : ZMod q))
  out : ∀ k, k < a.n → o.p_out.g k = permFun a.p_in (a.p.g k)
  out_size : o.p_out.size = a.p_out.size
  q_size : o.q.size = a.q.size
  S_size : o.S.size = a.S.size
  L_none : a.L = none → o.L = none
  L_some : ∀ Z, a.L = some Z → ∃ Z' l, o.L = some Z' ∧ Z'.n = Z.n ∧ Z'.m = Z.m ∧ Z'.F = Z.F ∧
    Z'.Buf ∧ Z'.nz ≤ Z'.i.size ∧ Z'.lst = Z.lst ++ l ∧
    (∀ e ∈ l, ∃ t, t < a.n ∧ permFun a.p_in (a.p.g t) = e.1 ∧ e.2.1 < a.U.n ∧ Bal q e.2.2 ∧ e.2.2 ≠ 0 ∧
      ℓ t e.2.1 = (e.2.2 : ZMod q)) ∧
    ∀ i c, tsum q l i c = ∑ t ∈ range a.n, if permFun a.p_in (a.p.g t) = i then ℓ t c else 0

theorem chunk_in (jk : Junk) {q : ℕ} {a : DenseIn} (h : DensePre q a) (hdt : a.dt = datatype_choose q)
    {o : DenseOut} (hrun : SchurDenseRun jk a o) : ∃ w0 ℓ, ChunkIn q a o w0 ℓ := by
  obtain ⟨f, hr⟩ := schur_dense_result jk h hrun
  have hb : ∀ k t, k < a.n → t < a.A.m - a.U.n → Bal q ((f k).1 (o.q.g t)) :=
    fun k t hk ht => (hr.rows k hk).bal _ (hr.q_ok.lt t ht) (hr.q_ok.neg t ht)
  refine ⟨fun k t => (f k).1 (o.q.g t), fun k => lsum q (f k).2, ⟨?_, ?_⟩, hb, hr.q_ok,
    fun t ht => hr.reduced h ht, hr.out, hr.out_size, hr.q_size, hr.S_size, hr.L_none, ?_⟩
  · rw [hr.S_size]; exact h.S_size
  · intro i j hi hj
    rw [hr.cell i j hi hj, hdt, conv_bal h.pre.A_wfv.good.le_max (hb i j hi hj)]
  · intro Z hZ
    obtain ⟨Z', l, e1, e2, e3, e4, e5, e6, e7, e8, e9⟩ := hr.L_some Z hZ
    refine ⟨Z', l, e1, e2, e3, e4, e5, e6, e8, ?_, ?_⟩
    · intro e he
      obtain ⟨k, f1, f2, f3, f4, f5, f6⟩ := hr.mem e9 he
      exact ⟨k, f1, by rw [← hr.out k f1]; exact f2, f3, f4, f5, f6⟩
    · intro i c
      rw [hr.sum e9]
      exact Finset.sum_congr rfl fun t ht => by rw [hr.out t (mem_range.mp ht)]

/-- The transfer of an LU factorization of the chunk. -/
theorem chunk_run_lu (jk : Junk) {q : ℕ} [Fact q.Prime] {A : Csr} {a : DenseIn} {fact : Lu} {nr old : Nat}
    {complete : Bool} (hU : a.U = fact.U) (hqi : a.qinv = fact.qinv) (hm : a.A.m = fact.U.m) {Z0 : Triplet}
    (hL : a.L = some Z0) {Lp : Array Nat} (hp : fact.p = some Lp) {v : Nat → Nat → ZMod q} {ρ : Nat → Nat}
    (h : Partial q A fact.U fact.qinv (some Z0) (some Lp) v (a.n + nr) ρ old complete)
    (hv : ∀ t, t < a.n → v t = a.A.entry q (a.p.g t))
    (hρ : ∀ t, t < a.n → ρ t = permFun a.p_in (a.p.g t))
    (hout : a.n ≤ a.p_out.size) {o : DenseOut} {w0 : Nat → Nat → Int} {ℓ : Nat → Nat → ZMod q}
    (hin : ChunkIn q a o w0 ℓ) {r : Nat} {S : Array ℚ} {w : Nat → Nat → Int} {P Q : Array Nat}
    (hR : IsPluq q a.n (a.A.m - a.U.n) w0 r w P Q) (hC : Cells a.n (a.A.m - a.U.n) S w)
    (h0 : 0 < fact.U.n + r ∨ jk.null0 = false) (dt : Datatype) {pivotal : Array Bool}
    (hpv : complete = false → A.n ≤ pivotal.size ∧ ∀ t, t < a.n + nr → pivotal.g (ρ t) = false) :
    Ok (update_fact_after_LU jk a.n (a.A.m - a.U.n) r S dt P Q o.q (some o.p_out) Z0.nz complete pivotal
        { fact with Ltmp := o.L }) (fun x =>
      Partial q A x.1.U x.1.qinv x.1.Ltmp x.1.p (fun t => v (a.n + t)) nr (fun t => ρ (a.n + t)) old
        complete ∧ x.1.U.n = fact.U.n + r ∧
      (∃ Z' Lp', x.1 = { fact with U := x.1.U, qinv := x.1.qinv, p := some Lp', Ltmp := some Z' }) ∧
      x.1.U.F = fact.U.F ∧
      (∀ i, i < fact.U.n → x.1.U.pivot i = fact.U.pivot i) ∧
      x.2.size = pivotal.size ∧
      (complete = false → ∀ t, t < nr → x.2.g (ρ (a.n + t)) = false)) := by
  obtain ⟨Z', l, e1, e2, e3, e4, e5, e6, e7, e8, e9⟩ := hin.L_some Z0 hL
  have hinj := (h.L Z0 rfl).rem_inj
  rw [hm, hU] at hR hC
  have hred := hin.red
  have hqok := hin.q_ok
  rw [hm, hU] at hred
  rw [hm, hU, hqi] at hqok
  rw [hm, hU]
  have := chunk_lu_spec jk (fact := { fact with Ltmp := o.L }) (Z0 := Z0) (Z := Z') (by simpa using e1) hp
    (by simpa using h) (ℓ := ℓ) (w0 := w0) (w := w) (S := S) (r := r) (P := P) (Q := Q) (qa := o.q)
    (po := o.p_out) dt hR hC (by simpa using hqok) (by
      intro t ht; rw [hv t ht]; simpa using hred t ht) e7 e5 e6 e2 e3 e4 (by
      intro e he
      obtain ⟨t, t1, t2, t3⟩ := e8 e he
      rw [hU] at t3
      exact ⟨t, t1, by rw [hρ t t1]; exact t2, t3⟩) (by
      intro t ht c hc
      rw [e9, Finset.sum_eq_single t]
      · rw [hρ t ht, if_pos rfl]
      · intro b hb hne
        have hb := mem_range.mp hb
        rw [← hρ b hb, if_neg]
        intro e
        exact hne (hinj _ _ (by omega) (by omega) e)
      · intro hn; exact absurd (mem_range.mpr ht) hn) (by simpa using h0)
      (by rw [hin.out_size]; exact hout) (fun t ht => by rw [hin.out t ht, hρ t ht]) (pivotal := pivotal) hpv
  exact this

/-- The transfer of a reduced echelon form of the chunk. -/
theorem chunk_run_rref (jk : Junk) {q : ℕ} {A : Csr} {a : DenseIn} {fact : Lu} {nr old : Nat}
    {complete : Bool} (hU : a.U = fact.U) (hqi : a.qinv = fact.qinv) (hm : a.A.m = fact.U.m)
    (hLt : fact.Ltmp = none) {v : Nat → Nat → ZMod q} {ρ : Nat → Nat}
    (h : Partial q A fact.U fact.qinv fact.Ltmp fact.p v (a.n + nr) ρ old complete)
    (hv : ∀ t, t < a.n → v t = a.A.entry q (a.p.g t))
    {o : DenseOut} {w0 : Nat → Nat → Int} {ℓ : Nat → Nat → ZMod q}
    (hin : ChunkIn q a o w0 ℓ) {r : Nat} {S : Array ℚ} {w : Nat → Nat → Int} {Q : Array Nat}
    (hR : DenseRref q a.n (a.A.m - a.U.n) w0 r w Q) (hC : Cells a.n (a.A.m - a.U.n) S w)
    (h0 : 0 < fact.U.n + r ∨ jk.null0 = false) (dt : Datatype) :
    Ok (update_U_after_rref jk r (a.A.m - a.U.n) S dt Q o.q fact) (fun f =>
      Partial q A f.U f.qinv f.Ltmp f.p (fun t => v (a.n + t)) nr (fun t => ρ (a.n + t)) old complete ∧
      f.U.n = fact.U.n + r ∧ f = { fact with U := f.U, qinv := f.qinv } ∧
      f.U.F = fact.U.F ∧
      ∀ i, i < fact.U.n → f.U.pivot i = fact.U.pivot i) := by
  have hrs := hR.r_n
  have hroom := h.room
  have hps := h.psize
  have hred := hin.red
  have hqok := hin.q_ok
  rw [hm, hU] at hR hC hred
  rw [hm, hU, hqi] at hqok
  rw [hm, hU]
  refine (update_U_spec jk dt h.ech h.x_some h.x_size hR hC hqok (by omega) h0).mono ?_
  rintro f ⟨unz, g1, g2, g3⟩
  have hn := g1.n_eq
  have hsp := g1.rref hR
  refine ⟨?_, hn, g2, g1.F_eq, g1.pold⟩
  have hfL : f.Ltmp = none := by rw [g2]; exact hLt
  have hfp : f.p = fact.p := by rw [g2]
  rw [hLt] at h
  rw [hfL, hfp]
  have hrow : ∀ t, t < a.n → v t = onCols o.q (fact.U.m - fact.U.n) (denseRow q (fact.U.m - fact.U.n) w0 t) +
      fun c => ∑ i ∈ range fact.U.n, ℓ t i * fact.U.entry q i c := by
    intro t ht
    rw [hv t ht]
    ext c
    rw [Pi.add_apply, (hred t ht).eq c]
    congr 1
    unfold onCols denseRow
    exact Finset.sum_congr rfl fun k hk => by rw [if_pos (mem_range.mp hk)]
  refine ⟨g1.ech, by rw [g1.m_eq]; exact h.m_eq, by rw [g1.psize]; exact hps, by omega, g1.grow.x_some,
    g1.grow.x_size, by have := h.old_le; omega, ?_, ?_, fun hs => by simp at hs,
    g1.nodup h.nodup, fun _ => g3 (h.nozero rfl), fun Z hZ => by cases hZ⟩
  · intro t ht i hi
    have := h.old_le
    rw [g1.pold i (by omega)]
    exact h.zero (a.n + t) (by omega) i hi
  · rw [span_block (U := fact.U) (s := a.n) (v := v) (by rw [hsp]; exact le_sup_left) ?_ ?_]
    · exact h.span
    · refine spanOf_le fun t ht => ?_
      rw [hsp, hrow t ht]
      exact Submodule.add_mem _ (Submodule.mem_sup_right (mem_spanOf (f := fun i => onCols o.q _
        (denseRow q _ w0 i)) ht)) (Submodule.mem_sup_left (sum_mem_spanOf _))
    · rw [hsp]
      refine sup_le le_sup_left (spanOf_le fun t ht => ?_)
      have : onCols o.q (fact.U.m - fact.U.n) (denseRow q (fact.U.m - fact.U.n) w0 t) =
          v t - fun c => ∑ i ∈ range fact.U.n, ℓ t i * fact.U.entry q i c := by
        rw [hrow t ht]; simp
      rw [this]
      exact Submodule.sub_mem _ (Submodule.mem_sup_right (mem_spanOf ht))
        (Submodule.mem_sup_left (sum_mem_spanOf _))

end Spasm
