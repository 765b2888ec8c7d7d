import Verif.Model.RandomRows
import Verif.Proofs.DenseRand
import Verif.Proofs.Wp
import Verif.Proofs.Inverse
import Verif.Proofs.FfpackExists

/-
The random combinations with the generator of the code.
-/

namespace Spasm

open Finset

/-- The residues of `spasm_prng_ZZp` after `spasm_prng_seed_simple(q, k, 0)`. -/
noncomputable def fixedDraw (q k i : Nat) : Int := (challenge (simpleSeed (BitVec.ofNat 64 k)) q i).valMinAbs

theorem fixedDraw_small (q : ℕ) [NeZero q] (k i : Nat) : Small q (fixedDraw q k i) := by
  have h := (exists_bal (challenge (simpleSeed (BitVec.ofNat 64 k)) q i)).1
  unfold Bal at h
  unfold Small fixedDraw
  have : 0 < q := Nat.pos_of_ne_zero (NeZero.ne q)
  omega

/-- One call to the generator. -/
theorem draw_eq {jw : Nat → Sha.W} {fuel : Nat} {seed : List Fips.Byte} {q K : Nat} [NeZero q]
    (hd : DrawSpec False jw fuel seed q K) {k : Nat} {ctx : Prng} (hk : k < K) (hg : Gen seed q k ctx) :
    ∃ c, prng_ZZp jw fuel ctx = .ok ((challenge seed q k).valMinAbs, c) ∧ Gen seed q (k + 1) c := by
  have h := hd k ctx hk hg
  cases hr : prng_ZZp jw fuel ctx with
  | error e => rw [hr] at h; exact h.elim
  | ok r =>
    rw [hr] at h
    obtain ⟨h1, h2, h3⟩ := h
    refine ⟨r.2, ?_, h3⟩
    have hb := exists_bal (challenge seed q k)
    rw [← bal_unique h1 hb.1 (by rw [h2, hb.2])]

/-- The loop on the rows, with known coefficients. -/
theorem rand_loop {A : Csr} {row : Nat → C Nat} {coeff : Nat → Prng → C (Int × Prng)} {β : Nat → Int}
    {G : Nat → Prng → Prop} (k : Nat) : ∀ lo, (∀ i ctx, lo ≤ i → i < lo + k → G i ctx →
      ∃ c, coeff i ctx = .ok (β i, c) ∧ G (i + 1) c) → ∀ (ctx : Prng) (y : Array Int), G lo ctx →
    (forN lo k (ctx, y) fun i s => rand_add A (row i) (coeff i) s).map Prod.snd =
      (forN lo k y fun i y => do
        let j ← row i
        scatter A j (β i) y) := by
  induction k with
  | zero => intro lo _ ctx y _; rfl
  | succ k ih =>
    intro lo h ctx y hG
    rw [forN, forN]
    obtain ⟨c, h1, h2⟩ := h lo ctx (le_refl _) (by omega) hG
    unfold rand_add
    simp only [h1]
    cases row lo with
    | error e => rfl
    | ok j =>
      show (((scatter A j (β lo) y).bind fun y => .ok (c, y)).bind _).map _ = (scatter A j (β lo) y).bind _
      cases scatter A j (β lo) y with
      | error e => rfl
      | ok z => exact ih (lo + 1) (fun i cx h3 h4 => h i cx (by omega) (by omega)) c z h2

/-- Number of residues used for one row. -/
def randNeed (n : Nat) (w : Int) : Nat := if w ≤ 0 then n else w.toNat - 1

theorem random_comb_prng_eq {g : RandMem} {seed : List Fips.Byte} {q K : Nat} [NeZero q]
    (hd : DrawSpec False g.jw g.fuel seed q K) (A : Csr) (p : Array Nat) {n : Nat} {w : Int} (hK : randNeed n w ≤ K)
    (rnd : Nat → Nat) {ctx : Prng} (hg : Gen seed q 0 ctx) (y : Array Int) :
    (random_comb_prng g A p n w rnd (ctx, y)).map Prod.snd =
      random_comb A p n w (fun i => (challenge seed q i).valMinAbs) rnd y := by
  unfold random_comb_prng random_comb
  unfold randNeed at hK
  by_cases hw : w ≤ 0
  · rw [if_pos hw] at hK
    rw [if_pos hw, if_pos hw]
    unfold forRange
    exact rand_loop (G := fun i c => Gen seed q i c) (β := fun i => (challenge seed q i).valMinAbs) (n - 0) 0
      (fun i c _ hi hG => draw_eq hd (by omega) hG) _ _ hg
  · rw [if_neg hw] at hK
    rw [if_neg hw, if_neg hw]
    unfold forRange
    refine rand_loop (G := fun i c => Gen seed q (i - 1) c)
      (β := fun i => if i = 0 then 1 else (challenge seed q (i - 1)).valMinAbs) (w.toNat - 0) 0 ?_ _ _ hg
    intro i c _ hi hG
    unfold rand_coeff
    by_cases h0 : i = 0
    · subst h0
      exact ⟨c, by simp, hG⟩
    · simp only [if_neg h0]
      have := draw_eq hd (k := i - 1) (by omega) hG
      rwa [show i - 1 + 1 = i + 1 - 1 by omega] at this

theorem zero_fill_eq {y : Array Int} {m : Nat} (h : y.size = m) :
    (forRange 0 m y fun j y => wr y j 0) = .ok (mkArr m fun _ => 0) := by
  obtain ⟨z, h1, h2, h3, -⟩ := Ok_iff.1 (zero_fill (x := y) (n := m) (by omega))
  rw [h1]
  congr 1
  exact array_ext_g (by simp; omega) fun i hi => by rw [h3 i (by omega), g_mkArr _ _ _ (by omega)]

/-- The vector of row `k`, after the elimination. -/
def rowVec (A : Csr) (p : Array Nat) (n : Nat) (U : Csr) (w : Int) (draw : Nat → Int) (rnd : Nat → Nat) :
    C (Array Int) := do
  let y ← random_comb A p n w draw rnd (mkArr A.m fun _ => 0)
  random_elim U y

/-- The cells written for row `k`. -/
def rowCells (Sm : Nat) (q : Array Nat) (dt : Datatype) (k : Nat) (y : Array Int) : List DAct :=
  (List.range Sm).map fun c => .cell (k * Sm + c) (dt.conv (y.g (q.g c)))

section
variable {q : ℕ} {A U : Csr} {qinv : Array Int} (hA : A.WFV q) (hE : Echelon q U qinv) (hm : U.m = A.m)
  {p : Array Nat} {n : Nat} (hn : 0 < n) (hp : n ≤ p.size) (hpn : ∀ i, i < n → p.g i < A.n)
include hA hE hm hn hp hpn

theorem rowVec_ok (w : Int) {draw : Nat → Int} (hd : ∀ i, Small q (draw i)) (rnd : Nat → Nat) :
    Ok (rowVec A p n U w draw rnd) (fun y => y.size = A.m) := by
  unfold rowVec
  rw [Ok_bind]
  refine (random_comb_spec hA hn hp hpn w hd rnd (y0 := mkArr A.m fun _ => 0) (by simp)
    (fun c hc => g_mkArr _ _ _ hc)).mono ?_
  rintro y1 ⟨a1, a2, a3⟩
  rw [size_mkArr] at a1
  refine (random_elim_spec hE (y0 := y1) (by omega) (by rw [hm]; exact a2)).mono ?_
  rintro y ⟨b1, -⟩
  omega

/-- A row computed with the generator. -/
theorem random_row_prng_eq {g : RandMem} {k N : Nat} {w : Int} (hb : (g.ctx k).block.size = 44)
    (hh : (g.ctx k).hash.size = 32) (hN : N ≤ 8 * (2 ^ 31 - 1)) (hf : N ≤ g.fuel)
    (hK : randNeed n w ≤ Nat.count (Accepted (simpleSeed (BitVec.ofNat 64 k)) q) N) (rnd : Nat → Nat) {qa : Array Nat}
    (hqa : IsQ qinv A.m (A.m - U.n) qa) (dt : Datatype) {y : Array Int} (hy : y.size = A.m) :
    ∃ v, rowVec A p n U w (fixedDraw q k) rnd = .ok v ∧ v.size = A.m ∧
      random_row_prng g A p n U dt qa w rnd k y = .ok (v, rowCells (A.m - U.n) qa dt k v) := by
  have hg := hA.good
  have hne : NeZero q := ⟨by have := hg.two_le; omega⟩
  obtain ⟨v, v1, v2⟩ := Ok_iff.1 (rowVec_ok hA hE hm hn hp hpn w (fixedDraw_small q k) rnd)
  refine ⟨v, v1, v2, ?_⟩
  have hAp : A.F.p.toNat = q := by rw [hg.p_eq]; rfl
  unfold random_row_prng
  rw [hAp]
  obtain ⟨c, c1, c2⟩ := Ok_iff.1 (seed_simple_spec g.jw g.jkb q (BitVec.ofNat 64 k) 0 (g.ctx k) hg.two_le hg.le_max hb hh)
  have e1 := random_comb_prng_eq (drawSpec_total g.jw (by simp [simpleSeed, Fips.bytes]) hN hf hK) A p (le_refl _) rnd
    (gen_zero c2) (mkArr A.m fun _ => 0)
  have e2 : (random_comb A p n w (fixedDraw q k) rnd (mkArr A.m fun _ => 0)).bind (random_elim U) = .ok v := v1
  unfold fixedDraw at e2
  rw [← e1] at e2
  rw [c1, zero_fill_eq hy]
  show (random_comb_prng g A p n w rnd (c, mkArr A.m fun _ => 0)).bind _ = _
  cases hr : random_comb_prng g A p n w rnd (c, mkArr A.m fun _ => 0) with
  | error e => rw [hr] at e2; cases e2
  | ok r =>
    rw [hr] at e2
    have e3 : random_elim U r.2 = .ok v := e2
    show (random_elim U r.2).bind _ = _
    rw [e3]
    obtain ⟨l, l1, l2⟩ := Ok_iff.1 (gather_spec hqa.size (fun t ht => by have := hqa.lt t ht; omega) dt
      (k * (A.m - U.n)) (x := v) (n := A.m - U.n) (qa := qa))
    show (gather (A.m - U.n) qa v dt (k * (A.m - U.n))).bind _ = _
    rw [l1, l2]
    rfl

end

/-- The same row, computed with given random numbers. -/
theorem random_row_eq (jk : Junk) {A U : Csr} {qinv : Array Int} {p : Array Nat} {n : Nat} {w : Int} {draw : Nat → Int} {rnd : Nat → Nat} {v : Array Int}
    (hv : rowVec A p n U w draw rnd = .ok v) (hvs : v.size = A.m) {qa : Array Nat}
    (hqa : IsQ qinv A.m (A.m - U.n) qa) (dt : Datatype) {S : Array ℚ} {k : Nat}
    (hS : k * (A.m - U.n) + (A.m - U.n) ≤ S.size) :
    Ok (random_row jk A p n U S dt qa w draw rnd k) (fun S' => S'.size = S.size ∧
      (∀ t, t < A.m - U.n → S'.g (k * (A.m - U.n) + t) = dt.conv (v.g (qa.g t))) ∧
      ∀ i, i < k * (A.m - U.n) ∨ k * (A.m - U.n) + (A.m - U.n) ≤ i → S'.g i = S.g i) := by
  unfold random_row
  rw [zero_fill_eq (by simp)]
  have hv' : (random_comb A p n w draw rnd (mkArr A.m fun _ => 0)).bind (random_elim U) = .ok v := hv
  show Ok ((random_comb A p n w draw rnd (mkArr A.m fun _ => 0)).bind _) _
  cases hr : random_comb A p n w draw rnd (mkArr A.m fun _ => 0) with
  | error e => rw [hr] at hv'; cases hv'
  | ok y =>
    rw [hr] at hv'
    have e3 : random_elim U y = .ok v := hv'
    show Ok ((random_elim U y).bind _) _
    rw [e3]
    exact random_gather_spec hqa.size (fun t ht => by have := hqa.lt t ht; omega) dt (k * (A.m - U.n)) hS

/-- Hypotheses on the arguments and on the memory: enough candidates of each stream are accepted before the counter of
the generator overflows. -/
structure RandPre (q : ℕ) (g : RandMem) (a : RandIn) : Prop where
  A_wfv : a.A.WFV q
  ech : Echelon q a.U a.qinv
  m_eq : a.U.m = a.A.m
  n_pos : 0 < a.n
  p_size : a.n ≤ a.p.size
  p_lt : ∀ i, i < a.n → a.p.g i < a.A.n
  S_size : a.N * (a.A.m - a.U.n) ≤ a.S.size
  q_size : a.A.m - a.U.n ≤ a.q.size
  block : ∀ k, k < a.N → (g.ctx k).block.size = 44
  hash : ∀ k, k < a.N → (g.ctx k).hash.size = 32
  enough : ∀ k, k < a.N → ∃ M, M ≤ 8 * (2 ^ 31 - 1) ∧ M ≤ g.fuel ∧
    randNeed a.n a.w ≤ Nat.count (Accepted (simpleSeed (BitVec.ofNat 64 k)) q) M

section
variable {q : ℕ} {g : RandMem} {a : RandIn} (h : RandPre q g a)
include h

/-- The vectors of all the rows. -/
theorem RandPre.vecs (rnd : Nat → Nat → Nat) : ∃ V : Nat → Array Int, ∀ k, k < a.N →
    rowVec a.A a.p a.n a.U a.w (fixedDraw q k) (rnd k) = .ok (V k) ∧ (V k).size = a.A.m ∧
    ∀ {qa : Array Nat} (_ : IsQ a.qinv a.A.m (a.A.m - a.U.n) qa) {y : Array Int} (_ : y.size = a.A.m),
      random_row_prng g a.A a.p a.n a.U a.dt qa a.w (rnd k) k y =
        .ok (V k, rowCells (a.A.m - a.U.n) qa a.dt k (V k)) := by
  have hne : NeZero q := ⟨by have := h.A_wfv.good.two_le; omega⟩
  have : ∀ k, ∃ v : Array Int, k < a.N →
      rowVec a.A a.p a.n a.U a.w (fixedDraw q k) (rnd k) = .ok v ∧ v.size = a.A.m := by
    intro k
    obtain ⟨v, v1, v2⟩ := Ok_iff.1 (rowVec_ok h.A_wfv h.ech h.m_eq h.n_pos h.p_size h.p_lt a.w (fixedDraw_small q k) (rnd k))
    exact ⟨v, fun _ => ⟨v1, v2⟩⟩
  choose V hV using this
  refine ⟨V, fun k hk => ⟨(hV k hk).1, (hV k hk).2, fun {qa} hqa {y} hy => ?_⟩⟩
  obtain ⟨M, m1, m2, m3⟩ := h.enough k hk
  obtain ⟨v, v1, v2, v3⟩ := random_row_prng_eq h.A_wfv h.ech h.m_eq h.n_pos h.p_size h.p_lt (h.block k hk) (h.hash k hk)
    m1 m2 m3 (rnd k) hqa a.dt hy
  rw [(hV k hk).1] at v1
  cases v1
  exact v3

omit h in
/-- What a thread writes. -/
theorem random_rows_eq {rnd : Nat → Nat → Nat} {V : Nat → Array Int} {qa : Array Nat}
    (hV : ∀ k, k < a.N → (V k).size = a.A.m ∧ ∀ {y : Array Int} (_ : y.size = a.A.m),
      random_row_prng g a.A a.p a.n a.U a.dt qa a.w (rnd k) k y =
        .ok (V k, rowCells (a.A.m - a.U.n) qa a.dt k (V k))) :
    ∀ (ks : List Nat), (∀ k ∈ ks, k < a.N) → ∀ y : Array Int, y.size = a.A.m →
      random_rows_prng g a.A a.p a.n a.U a.dt qa a.w rnd ks y =
        .ok (ks.flatMap fun k => rowCells (a.A.m - a.U.n) qa a.dt k (V k)) := by
  intro ks
  induction ks with
  | nil => intro _ y _; rfl
  | cons k ks ih =>
    intro hks y hy
    obtain ⟨h1, h2⟩ := hV k (hks k (by simp))
    rw [random_rows_prng, h2 hy]
    show (random_rows_prng g a.A a.p a.n a.U a.dt qa a.w rnd ks (V k)).bind _ = _
    rw [ih (fun x hx => hks x (by simp [hx])) _ h1]
    rfl

omit h in
theorem mem_rowCells {Sm : Nat} {qa : Array Nat} {dt : Datatype} {k : Nat} {y : Array Int} {i : Nat} {v : ℚ} :
    DAct.cell i v ∈ rowCells Sm qa dt k y ↔ ∃ c, c < Sm ∧ i = k * Sm + c ∧ v = dt.conv (y.g (qa.g c)) := by
  unfold rowCells
  simp only [List.mem_map, List.mem_range, DAct.cell.injEq]
  constructor
  · rintro ⟨c, h1, h2, h3⟩; exact ⟨c, h1, h2.symm, h3.symm⟩
  · rintro ⟨c, h1, h2, h3⟩; exact ⟨c, h1, h2.symm, h3.symm⟩

omit h in
theorem rowCells_cell {Sm : Nat} {qa : Array Nat} {dt : Datatype} {k : Nat} {y : Array Int} {x : DAct}
    (hx : x ∈ rowCells Sm qa dt k y) : ∃ i v, x = .cell i v := by
  unfold rowCells at hx
  obtain ⟨c, -, rfl⟩ := List.mem_map.mp hx
  exact ⟨_, _, rfl⟩

/-- The hypotheses of the machine. -/
theorem random_hyp {T : Nat} {ks : Fin T → List Nat} (hks : ∑ t, (ks t : Multiset Nat) = Multiset.range a.N)
    (V : Nat → Array Int) (qa : Array Nat) :
    DenseHyp (dense_init a.S #[] none fun t => (ks t).flatMap fun k => rowCells (a.A.m - a.U.n) qa a.dt k (V k))
      (fun t => (ks t).flatMap fun k => rowCells (a.A.m - a.U.n) qa a.dt k (V k))
      (fun i => a.dt.conv ((V (i / (a.A.m - a.U.n))).g (qa.g (i % (a.A.m - a.U.n))))) (fun _ => 0) := by
  have hlt : ∀ t k, k ∈ ks t → k < a.N := by
    intro t k hk
    have : k ∈ ∑ t, (ks t : Multiset Nat) := (mem_sum_coe ks k).mpr ⟨t, hk⟩
    rw [hks] at this
    exact Multiset.mem_range.mp this
  refine ⟨rfl, ?_, ?_, ?_⟩
  · intro t i v hv
    obtain ⟨k, hk, hx⟩ := List.mem_flatMap.mp hv
    obtain ⟨c, hc, rfl, rfl⟩ := mem_rowCells.mp hx
    obtain ⟨e1, e2⟩ := cell_div (k := k) hc
    have := cell_lt (hlt t k hk) hc
    have := h.S_size
    exact ⟨by simp only [e1, e2], by show k * (a.A.m - a.U.n) + c < a.S.size; omega⟩
  · intro t i v hv
    obtain ⟨k, hk, hx⟩ := List.mem_flatMap.mp hv
    obtain ⟨_, _, e⟩ := rowCells_cell hx
    cases e
  · have : ∀ t, ((ks t).flatMap fun k => rowCells (a.A.m - a.U.n) qa a.dt k (V k)).filterMap DAct.app? = [] := by
      intro t
      rw [List.filterMap_eq_nil_iff]
      intro x hx
      obtain ⟨k, hk, hx⟩ := List.mem_flatMap.mp hx
      obtain ⟨_, _, rfl⟩ := rowCells_cell hx
      rfl
    rw [Finset.sum_congr rfl fun t _ => by rw [this t]]
    simp [dense_init]

/-- The rows computed in order. -/
theorem random_seq_eq (jk : Junk) {rnd : Nat → Nat → Nat} {V : Nat → Array Int}
    (hV : ∀ k, k < a.N → rowVec a.A a.p a.n a.U a.w (fixedDraw q k) (rnd k) = .ok (V k) ∧ (V k).size = a.A.m)
    {qa : Array Nat} (hqa : prepare_q a.A.m a.qinv a.q = .ok qa) (hq : IsQ a.qinv a.A.m (a.A.m - a.U.n) qa) :
    Ok (schur_dense_randomized jk a.A a.p a.n a.U a.qinv a.S a.dt a.q a.N a.w (fixedDraw q) rnd) (fun o =>
      o.2 = qa ∧ o.1.size = a.S.size ∧
      (∀ k t, k < a.N → t < a.A.m - a.U.n → o.1.g (k * (a.A.m - a.U.n) + t) = a.dt.conv ((V k).g (qa.g t))) ∧
      ∀ i, a.N * (a.A.m - a.U.n) ≤ i → o.1.g i = a.S.g i) := by
  unfold schur_dense_randomized
  rw [Ok_bind, Ok_cassert]
  refine ⟨by simpa using h.n_pos, ?_⟩
  rw [hqa, Ok_bind, Ok_ok, Ok_bind]
  refine Ok_forRange_imp (I := fun K (S' : Array ℚ) => S'.size = a.S.size ∧
      (∀ k t, k < K → t < a.A.m - a.U.n → S'.g (k * (a.A.m - a.U.n) + t) = a.dt.conv ((V k).g (qa.g t))) ∧
      ∀ i, K * (a.A.m - a.U.n) ≤ i → S'.g i = a.S.g i) (Nat.zero_le _) ⟨rfl, fun k t hk => by omega, fun _ _ => rfl⟩ ?_ ?_
  · rintro K S' - hK ⟨h1, h2, h3⟩
    have hmul : (K + 1) * (a.A.m - a.U.n) = K * (a.A.m - a.U.n) + (a.A.m - a.U.n) := by rw [Nat.add_mul, Nat.one_mul]
    have hle : (K + 1) * (a.A.m - a.U.n) ≤ a.N * (a.A.m - a.U.n) := Nat.mul_le_mul_right _ hK
    have hSs := h.S_size
    refine (random_row_eq jk (hV K hK).1 (hV K hK).2 hq a.dt (S := S') (k := K) (by omega)).mono ?_
    rintro S'' ⟨g1, g2, g3⟩
    refine ⟨by omega, ?_, ?_⟩
    · intro k t hk ht
      by_cases e : k = K
      · subst e; exact g2 t ht
      · rw [g3 _ (Or.inl (cell_lt (by omega) ht))]
        exact h2 k t (by omega) ht
    · intro i hi
      rw [g3 i (Or.inr (by omega))]
      exact h3 i (by omega)
  · rintro S' ⟨h1, h2, h3⟩
    exact ⟨rfl, h1, h2, h3⟩

/-- All the outcomes are the same. -/
theorem random_run_eq (jk : Junk) {rnd : Nat → Nat → Nat} {o : Array ℚ × Array Nat} (hr : RandomRun jk g a rnd o) :
    schur_dense_randomized jk a.A a.p a.n a.U a.qinv a.S a.dt a.q a.N a.w (fixedDraw q) rnd = .ok o := by
  obtain ⟨-, T, ks, jobs, s, hks, hqa, hth, hreach, hfin, e1⟩ := hr
  have hsz := h.ech.size
  have hcnt := h.ech.count_neg
  rw [h.m_eq] at hsz hcnt
  have hq := prepare_q_spec hsz hcnt h.q_size
  rw [hqa, Ok_ok] at hq
  obtain ⟨V, hV⟩ := h.vecs rnd
  have hlt : ∀ t k, k ∈ ks t → k < a.N := by
    intro t k hk
    have : k ∈ ∑ t, (ks t : Multiset Nat) := (mem_sum_coe ks k).mpr ⟨t, hk⟩
    rw [hks] at this
    exact Multiset.mem_range.mp this
  have hjobs : jobs = fun t => (ks t).flatMap fun k => rowCells (a.A.m - a.U.n) o.2 a.dt k (V k) := by
    funext t
    have := hth t
    unfold random_thread at this
    rw [random_rows_eq (fun k hk => ⟨(hV k hk).2.1, fun {y} hy => (hV k hk).2.2 hq.1 hy⟩) (ks t) (hlt t) _ (by simp)] at this
    exact (Except.ok.inj this).symm
  subst hjobs
  obtain ⟨d1, -, d3, -, d5, -⟩ := dense_final (random_hyp h hks V o.2) hreach hfin
  obtain ⟨o', o1, o2, o3, o4, o5⟩ := Ok_iff.1 (random_seq_eq h jk (fun k hk => ⟨(hV k hk).1, (hV k hk).2.1⟩) hqa hq.1)
  rw [o1]
  congr 1
  refine Prod.ext ?_ o2
  rw [e1]
  have hs0 : (dense_init a.S #[] none fun t => (ks t).flatMap fun k =>
      rowCells (a.A.m - a.U.n) o.2 a.dt k (V k)).S = a.S := rfl
  rw [hs0] at d1 d5
  refine array_ext_g (by omega) fun i hi => ?_
  by_cases hiN : i < a.N * (a.A.m - a.U.n)
  · have hpos : 0 < a.A.m - a.U.n := by
      rcases Nat.eq_zero_or_pos (a.A.m - a.U.n) with e | e
      · rw [e] at hiN; simp at hiN
      · exact e
    have hk : i / (a.A.m - a.U.n) < a.N := Nat.div_lt_of_lt_mul (by rw [Nat.mul_comm]; exact hiN)
    have ht := Nat.mod_lt i hpos
    have hi' : i / (a.A.m - a.U.n) * (a.A.m - a.U.n) + i % (a.A.m - a.U.n) = i := by
      rw [Nat.mul_comm]; exact Nat.div_add_mod i _
    have h1 := o4 _ _ hk ht
    have hmem : i / (a.A.m - a.U.n) ∈ ∑ t, (ks t : Multiset Nat) := by rw [hks]; exact Multiset.mem_range.mpr hk
    obtain ⟨t, htk⟩ := (mem_sum_coe ks _).mp hmem
    have h2 := d3 t i _ (List.mem_flatMap.mpr ⟨_, htk, mem_rowCells.mpr ⟨_, ht, hi'.symm, rfl⟩⟩)
    rw [hi'] at h1
    rw [h1, h2]
  · rw [o5 i (by omega)]
    refine (d5 i ?_).symm
    intro t v hv
    obtain ⟨k, hk, hx⟩ := List.mem_flatMap.mp hv
    obtain ⟨c, hc, rfl, -⟩ := mem_rowCells.mp hx
    exact hiN (cell_lt (hlt t k hk) hc)

/-- No failure, and every run can be completed. -/
theorem random_run_safe (jk : Junk) (rnd : Nat → Nat → Nat) {T : Nat} {ks : Fin T → List Nat}
    (hks : ∑ t, (ks t : Multiset Nat) = Multiset.range a.N) :
    ∃ qa jobs, prepare_q a.A.m a.qinv a.q = .ok qa ∧
      (∀ t, random_thread jk g a.A a.p a.n a.U a.dt qa a.w rnd (ks t) = .ok (jobs t)) ∧
      ∀ s : DSt T, DReach (dense_init a.S #[] none jobs) s →
        (∀ t r, dstep t s = some r → ∃ s', r = .ok s') ∧
        ∃ s', DReach s s' ∧ s'.Finished := by
  have hsz := h.ech.size
  have hcnt := h.ech.count_neg
  rw [h.m_eq] at hsz hcnt
  obtain ⟨qa, q1, q2⟩ := Ok_iff.1 (prepare_q_spec hsz hcnt h.q_size)
  obtain ⟨V, hV⟩ := h.vecs rnd
  have hlt : ∀ t k, k ∈ ks t → k < a.N := by
    intro t k hk
    have : k ∈ ∑ t, (ks t : Multiset Nat) := (mem_sum_coe ks k).mpr ⟨t, hk⟩
    rw [hks] at this
    exact Multiset.mem_range.mp this
  refine ⟨qa, _, q1, fun t => random_rows_eq (fun k hk => ⟨(hV k hk).2.1, fun {y} hy => (hV k hk).2.2 q2.1 hy⟩)
    (ks t) (hlt t) _ (by simp), ?_⟩
  intro s hs
  have hH := random_hyp h hks V qa
  have hI := dreach_inv hH hs
  refine ⟨?_, dcompletes hH _ s (le_refl _) hs⟩
  intro t r hr
  obtain ⟨s', rfl, -⟩ := Ok_iff.1 (dstep_inv hH hI t hr)
  exact ⟨s', rfl⟩

end

end Spasm
