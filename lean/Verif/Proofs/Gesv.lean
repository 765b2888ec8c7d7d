import Verif.Model.Gesv
import Verif.Proofs.Solve
import Verif.Proofs.Append
import Verif.Props.Triplet

namespace Spasm

open Finset

/-- The entries of row `i` with values `f`. -/
def rowItems (i : Nat) (f : Nat → Int) (m : Nat) : List (Nat × Nat × Int) :=
  ((List.range m).filter fun j => decide (f j ≠ 0)).map fun j => (i, j, f j)

theorem collect_spec {x : Array Int} {i m : Nat} (hx : m ≤ x.size) :
    Ok (forRange 0 m [] fun j (l : List (Nat × Nat × Int)) => do
      let v ← rd x j
      if v ≠ 0 then .ok (l ++ [(i, j, v)]) else .ok l) (fun l => l = rowItems i x.g m) := by
  refine Ok_forRange_imp (I := fun j l => l = rowItems i x.g j) (Nat.zero_le _) rfl ?_
    (fun l h => h)
  rintro j l - hj rfl
  simp only [Ok_bind, Ok_rd]
  refine ⟨by omega, ?_⟩
  unfold rowItems
  rw [List.range_succ, List.filter_append, List.map_append]
  by_cases h : x.g j = 0
  · rw [if_neg (by simpa using h), Ok_ok]; simp [h]
  · rw [if_pos h, Ok_ok]; simp [h]

/-- What `spasm_gesv` guarantees for row `i`. -/
structure GesvRowOk (q : ℕ) (A B : Csr) (i : Nat) (res : Bool) (f : Nat → Int) : Prop where
  bal : ∀ j, j < A.n → Bal q (f j)
  iff : res = true ↔ InSpan q A (B.entry q i)
  sol : res = true → ∀ c, c < A.m → ∑ j ∈ range A.n, (f j : ZMod q) * A.entry q j c = B.entry q i c

theorem gesv_row_spec (jk : Junk) {q : ℕ} [Fact q.Prime] {A B L : Csr} {fact : Lu}
    (hL : fact.L = some L) (hf : IsFact q A L fact.U fact.qinv fact.p fact.complete)
    (hB : B.WFV q) (hBm : A.m ≤ B.m) {b x : Array Int} (hb : B.m ≤ b.size) (hx : L.n ≤ x.size)
    {i : Nat} (hi : i < B.n) :
    Ok (gesv_row jk fact B L.n b x i) (fun r => r.1.size = b.size ∧ r.2.1.size = x.size ∧
      ∃ f, r.2.2.2 = rowItems i f L.n ∧ GesvRowOk q A B i r.2.2.1 f) := by
  have h2 := hB.good.two_le
  have hLn := hf.L_n
  unfold gesv_row
  rw [Ok_bind]
  refine (zero_fill (n := B.m) hb).mono ?_
  rintro b0 ⟨z1, z2, z3⟩
  rw [Ok_bind]
  refine (scatter_spec hB hi (small_one h2) b0 (by omega) (fun j hj => by
    rw [z2 j (hB.toWF.inRow_lt hi hj)]; exact small_zero q)).mono ?_
  rintro b1 ⟨s1, s2, s3, s4⟩
  have hv : ∀ j, j < B.m → (b1.g j : ZMod q) = B.entry q i j := by
    intro j hj
    rw [s2, z2 j hj]; simp
  rw [Ok_bind]
  refine (solve_spec jk hL hf (b := b1) (x := x) (by omega) (by omega) (fun j hj => by
    by_cases hr : B.InRow i j
    · exact s3 j hr
    · rw [s4 j hr, z2 j (by omega)]; exact bal_zero (by omega))).mono ?_
  rintro ⟨x1, res⟩ ⟨c1, c2, c3, c4⟩
  simp only at c1 c2 c3 c4 ⊢
  rw [Ok_bind]
  refine (collect_spec (i := i) (x := x1) (m := L.n) (by omega)).mono ?_
  rintro l rfl
  rw [Ok_ok]
  refine ⟨by simp only; omega, c1, x1.g, rfl, c2, ?_, ?_⟩
  · rw [c3]
    constructor
    · intro h; exact h.congr (fun c hc => hv c (by omega))
    · intro h; exact h.congr (fun c hc => (hv c (by omega)).symm)
  · intro h c hc
    rw [c4 h c hc, hv c (by omega)]

theorem gesv_rows_spec (jk : Junk) {q : ℕ} [Fact q.Prime] {A B L : Csr} {fact : Lu}
    (hL : fact.L = some L) (hf : IsFact q A L fact.U fact.qinv fact.p fact.complete)
    (hB : B.WFV q) (hBm : A.m ≤ B.m) (rows : List Nat) :
    ∀ {b x : Array Int}, B.m ≤ b.size → L.n ≤ x.size → (∀ i ∈ rows, i < B.n) →
    Ok (gesv_rows jk fact B L.n rows b x) (fun r =>
      ∃ rs : List (Nat × Bool × (Nat → Int)), rs.map (·.1) = rows ∧
        r.1 = rs.map (fun e => (e.1, e.2.1)) ∧
        r.2 = (rs.map (fun e => rowItems e.1 e.2.2 L.n)).flatten ∧
        ∀ e ∈ rs, GesvRowOk q A B e.1 e.2.1 e.2.2) := by
  induction rows with
  | nil =>
    intro b x _ _ _
    exact ⟨[], rfl, rfl, rfl, by simp⟩
  | cons i rows ih =>
    intro b x hb hx hlt
    unfold gesv_rows
    rw [Ok_bind]
    refine (gesv_row_spec jk hL hf hB hBm hb hx (hlt i (by simp))).mono ?_
    rintro ⟨b1, x1, res, l⟩ ⟨c1, c2, f, c3, c4⟩
    simp only at c1 c2 c3 c4 ⊢
    rw [Ok_bind]
    refine (ih (b := b1) (x := x1) (by omega) (by omega) (fun k hk => hlt k (by simp [hk]))).mono ?_
    rintro ⟨oks, ls⟩ ⟨rs, d1, d2, d3, d4⟩
    simp only at d1 d2 d3 d4 ⊢
    rw [Ok_ok]
    refine ⟨(i, res, f) :: rs, by simp [d1], by simp [d2], by simp [d3, c3], ?_⟩
    intro e he
    rcases List.mem_cons.mp he with rfl | he
    · exact c4
    · exact d4 e he

theorem g_map {α β : Type} [Inhabited α] [Inhabited β] (a : Array α) (f : α → β) {k : Nat}
    (hk : k < a.size) : (a.map f).g k = f (a.g k) := by
  rw [g_eq _ _ (by simpa using hk), g_eq _ _ hk]; simp

theorem toTriplet_sum {T : Nat} (s : ASt (Nat × Nat × Int) T) (n m : Nat) (F : Field) (q : ℕ)
    (hs : s.nz ≤ s.buf.size) (i j : Nat) :
    (s.toTriplet n m F).sum q i j =
      (((Ico 0 s.nz).val.map s.buf.g).map
        (fun e : Nat × Nat × Int => if e.1 = i ∧ e.2.1 = j then (e.2.2 : ZMod q) else 0)).sum := by
  unfold Triplet.sum
  rw [Multiset.map_map, ← Finset.range_eq_Ico]
  refine Finset.sum_congr rfl ?_
  intro k hk
  rw [mem_range] at hk
  have hk : k < s.nz := hk
  have e1 : (s.toTriplet n m F).i.g k = (s.buf.g k).1 := g_map _ _ (by omega)
  have e2 : (s.toTriplet n m F).j.g k = (s.buf.g k).2.1 := g_map _ _ (by omega)
  have e3 : (s.toTriplet n m F).val k = (s.buf.g k).2.2 := g_map _ _ (by omega)
  simp only [e1, e2, e3, Function.comp]

theorem toTriplet_mem {T : Nat} (s : ASt (Nat × Nat × Int) T) (n m : Nat) (F : Field)
    (hs : s.nz ≤ s.buf.size) {k : Nat} (hk : k < s.nz) :
    ((s.toTriplet n m F).i.g k, (s.toTriplet n m F).j.g k, (s.toTriplet n m F).val k) ∈
      (Ico 0 s.nz).val.map s.buf.g := by
  rw [Multiset.mem_map]
  refine ⟨k, by simp [hk], ?_⟩
  simp only [ASt.toTriplet, Triplet.val]
  rw [g_map _ _ (by omega), g_map _ _ (by omega), g_map _ _ (by omega)]

theorem mem_rowItems {i : Nat} {f : Nat → Int} {m : Nat} {e : Nat × Nat × Int} :
    e ∈ rowItems i f m ↔ e.1 = i ∧ e.2.1 < m ∧ e.2.2 = f e.2.1 ∧ f e.2.1 ≠ 0 := by
  unfold rowItems
  rw [List.mem_map]
  constructor
  · rintro ⟨j, hj, rfl⟩
    simp only [List.mem_filter, List.mem_range, decide_eq_true_eq] at hj
    exact ⟨rfl, hj.1, rfl, hj.2⟩
  · rintro ⟨h1, h2, h3, h4⟩
    refine ⟨e.2.1, by simp [h2, h4], ?_⟩
    rw [← h1, ← h3]

theorem length_rowItems (i : Nat) (f : Nat → Int) (m : Nat) : (rowItems i f m).length ≤ m := by
  unfold rowItems
  rw [List.length_map]
  exact (List.length_filter_le _ _).trans (by simp)

theorem rowItems_sum (q i : Nat) (f : Nat → Int) (m a j : Nat) (hj : j < m) :
    ((rowItems i f m).map
      (fun e : Nat × Nat × Int => if e.1 = a ∧ e.2.1 = j then (e.2.2 : ZMod q) else 0)).sum =
      if i = a then (f j : ZMod q) else 0 := by
  unfold rowItems
  rw [List.map_map]
  have : ∀ (l : List Nat), l.Nodup →
      (((l.filter fun j => decide (f j ≠ 0)).map ((fun e : Nat × Nat × Int =>
        if e.1 = a ∧ e.2.1 = j then (e.2.2 : ZMod q) else 0) ∘ fun j => (i, j, f j))).sum) =
      if i = a ∧ j ∈ l then (f j : ZMod q) else 0 := by
    intro l hl
    induction l with
    | nil => simp
    | cons c l ih =>
      rw [List.nodup_cons] at hl
      rw [List.filter_cons]
      by_cases hc : f c = 0
      · rw [if_neg (by simpa using hc), ih hl.2]
        by_cases hjc : j = c
        · subst hjc; simp [hl.1, hc]
        · simp [hjc]
      · rw [if_pos (by simpa using hc), List.map_cons, List.sum_cons, ih hl.2]
        by_cases hjc : j = c
        · subst hjc; simp [hl.1]
        · have hcj : ¬ c = j := fun e => hjc e.symm
          simp [hjc, hcj]
  rw [this _ List.nodup_range]
  simp [hj]

theorem gesv_thread_spec (jk : Junk) {q : ℕ} [Fact q.Prime] {A B L : Csr} {fact : Lu}
    (hL : fact.L = some L) (hf : IsFact q A L fact.U fact.qinv fact.p fact.complete)
    (hB : B.WFV q) (hBm : A.m ≤ B.m) (rows : List Nat) (hlt : ∀ i ∈ rows, i < B.n) :
    Ok (gesv_thread jk fact B L.n rows) (fun r =>
      ∃ rs : List (Nat × Bool × (Nat → Int)), rs.map (·.1) = rows ∧
        r.1 = rs.map (fun e => (e.1, e.2.1)) ∧
        r.2 = (rs.map (fun e => rowItems e.1 e.2.2 L.n)).flatten ∧
        ∀ e ∈ rs, GesvRowOk q A B e.1 e.2.1 e.2.2) :=
  gesv_rows_spec jk hL hf hB hBm rows (by simp) (by simp) hlt

theorem map_sum_coe {α β : Type} {T : Nat} (f : α → β) (l : Fin T → List α) :
    (∑ t, (l t : Multiset α)).map f = ∑ t, (((l t).map f : List β) : Multiset β) :=
  map_sum (Multiset.mapAddMonoidHom f) (fun t => (l t : Multiset α)) univ

theorem mem_sum_coe {α : Type} {T : Nat} (l : Fin T → List α) (a : α) :
    a ∈ (∑ t, (l t : Multiset α)) ↔ ∃ t, a ∈ l t := by
  rw [Multiset.mem_sum]; simp

theorem sum_flatten {α β : Type} {T : Nat} (rs : Fin T → List α) (f : α → List β) :
    (∑ t, ((((rs t).map f).flatten : List β) : Multiset β)) =
      ((∑ t, (rs t : Multiset α)).map (fun e => (f e : Multiset β))).sum := by
  rw [map_sum_coe]
  have : ∀ l : List α, (((l.map f).flatten : List β) : Multiset β) =
      (((l.map (fun e => (f e : Multiset β))) : List (Multiset β)) : Multiset (Multiset β)).sum := by
    intro l
    induction l with
    | nil => rfl
    | cons a l ih =>
      rw [List.map_cons, List.flatten_cons, List.map_cons, ← Multiset.coe_add, ih]
      rfl
  rw [Finset.sum_congr rfl (fun t _ => this (rs t))]
  exact (map_sum (Multiset.sumAddMonoidHom) (fun t => (((rs t).map (fun e => (f e : Multiset β)) :
    List (Multiset β)) : Multiset (Multiset β))) univ).symm

theorem gesv_spec (jk : Junk) {q : ℕ} [Fact q.Prime] {A B L : Csr} {fact : Lu}
    (hL : fact.L = some L) (hf : IsFact q A L fact.U fact.qinv fact.p fact.complete)
    (hB : B.WFV q) (hBm : A.m ≤ B.m) {T : Nat} (rows : Fin T → List Nat)
    (hrows : ∑ t, (rows t : Multiset Nat) = Multiset.range B.n)
    {oks : Fin T → List (Nat × Bool)} {items : Fin T → List (Nat × Nat × Int)}
    (hrun : ∀ t, gesv_thread jk fact B L.n (rows t) = .ok (oks t, items t))
    {s : ASt (Nat × Nat × Int) T}
    (hs : AReach (ASt.init 0 (mkArr (L.n * B.n) fun k => (jk.nat k, jk.nat k, jk.int k)) items) s) :
    (∀ t r, astep t s = some r → ∃ s', r = .ok s') ∧
    (s.Finished ∨ ∃ t r, astep t s = some r) ∧
    (s.Finished → Ok (compress jk (s.toTriplet B.n L.n B.F)) (fun X =>
      X.WFV q ∧ X.n = B.n ∧ X.m = A.n ∧ X.NoDup ∧ X.NoZero ∧
      ∀ t i res, (i, res) ∈ oks t →
        (res = true ↔ InSpan q A (B.entry q i)) ∧
        (res = true → ∀ c, c < A.m →
          ∑ j ∈ range A.n, X.entry q i j * A.entry q j c = B.entry q i c))) := by
  have h2 := hB.good.two_le
  have hLn := hf.L_n
  have hlt : ∀ t, ∀ i ∈ rows t, i < B.n := by
    intro t i hi
    have : i ∈ ∑ t, (rows t : Multiset Nat) := (mem_sum_coe rows i).mpr ⟨t, hi⟩
    rw [hrows] at this; exact Multiset.mem_range.mp this
  have hth : ∀ t, ∃ rs : List (Nat × Bool × (Nat → Int)), rs.map (·.1) = rows t ∧
        oks t = rs.map (fun e => (e.1, e.2.1)) ∧
        items t = (rs.map (fun e => rowItems e.1 e.2.2 L.n)).flatten ∧
        ∀ e ∈ rs, GesvRowOk q A B e.1 e.2.1 e.2.2 := by
    intro t
    have := gesv_thread_spec jk hL hf hB hBm (rows t) (hlt t)
    rw [hrun t] at this
    exact this
  choose rs r1 r2 r3 r4 using hth
  have hfst : (∑ t, (rs t : Multiset (Nat × Bool × (Nat → Int)))).map (·.1) = Multiset.range B.n := by
    rw [map_sum_coe, ← hrows]
    exact Finset.sum_congr rfl (fun t _ => by rw [r1])
  have hitems : (∑ t, (items t : Multiset (Nat × Nat × Int))) =
      ((∑ t, (rs t : Multiset (Nat × Bool × (Nat → Int)))).map (fun e => (rowItems e.1 e.2.2 L.n : Multiset (Nat × Nat × Int)))).sum := by
    rw [← sum_flatten]
    exact Finset.sum_congr rfl (fun t _ => by rw [r3])
  have hMok : ∀ e ∈ (∑ t, (rs t : Multiset (Nat × Bool × (Nat → Int)))), GesvRowOk q A B e.1 e.2.1 e.2.2 := by
    intro e he
    obtain ⟨t, ht⟩ := (mem_sum_coe rs e).mp he
    exact r4 t e ht
  have hMem : ∀ t e, e ∈ rs t → e ∈ (∑ t, (rs t : Multiset (Nat × Bool × (Nat → Int)))) :=
    fun t e he => (mem_sum_coe rs e).mpr ⟨t, he⟩
  generalize (∑ t, (rs t : Multiset (Nat × Bool × (Nat → Int)))) = M at *
  have hcardM : Multiset.card M = B.n := by
    have := congrArg Multiset.card hfst
    simpa using this
  have hcard : Multiset.card (∑ t, (items t : Multiset (Nat × Nat × Int))) ≤ L.n * B.n := by
    rw [hitems, ← hcardM]
    clear hitems hMok hMem hfst hcardM
    induction M using Multiset.induction_on with
    | empty => simp
    | cons a M ih =>
      rw [Multiset.map_cons, Multiset.sum_cons, Multiset.card_add, Multiset.card_cons, Nat.mul_add]
      have := length_rowItems a.1 a.2.2 L.n
      simp only [Multiset.coe_card]
      omega
  obtain ⟨p1, p2, p3⟩ := append_spec (by simpa using hcard) hs
  refine ⟨p1, p2, fun hfin => ?_⟩
  obtain ⟨n1, n2, -, n4⟩ := p3 hfin
  rw [hitems] at n4
  simp only [size_mkArr, Nat.zero_add] at n1 n2
  have hsz : s.nz ≤ s.buf.size := by omega
  have hmemM : ∀ it ∈ (M.map (fun e => (rowItems e.1 e.2.2 L.n : Multiset (Nat × Nat × Int)))).sum,
      ∃ e ∈ M, it ∈ rowItems e.1 e.2.2 L.n := by
    clear * -
    induction M using Multiset.induction_on with
    | empty => simp
    | cons a M ih =>
      intro it
      rw [Multiset.map_cons, Multiset.sum_cons, Multiset.mem_add]
      rintro (h | h)
      · exact ⟨a, by simp, by simpa using h⟩
      · obtain ⟨e, h1, h2⟩ := ih it h
        exact ⟨e, by simp [h1], h2⟩
  have hsum : ∀ i j, j < L.n → (s.toTriplet B.n L.n B.F).sum q i j =
      (M.map (fun e => if e.1 = i then (e.2.2 j : ZMod q) else 0)).sum := by
    intro i j hj
    rw [toTriplet_sum _ _ _ _ _ hsz, n4]
    clear * - hj
    induction M using Multiset.induction_on with
    | empty => simp
    | cons a M ih =>
      rw [Multiset.map_cons, Multiset.sum_cons, Multiset.map_add, Multiset.sum_add, ih,
        Multiset.map_cons, Multiset.sum_cons]
      congr 1
      rw [Multiset.map_coe, Multiset.sum_coe]
      exact rowItems_sum q a.1 a.2.2 L.n i j hj
  have hval : ∀ e ∈ M, ∀ j, j < L.n → (s.toTriplet B.n L.n B.F).sum q e.1 j =
      (e.2.2 j : ZMod q) := by
    intro e he j hj
    rw [hsum _ _ hj]
    obtain ⟨M', rfl⟩ := Multiset.exists_cons_of_mem he
    rw [Multiset.map_cons, Multiset.sum_cons, if_pos rfl]
    have hnd : (Multiset.map (·.1) (e ::ₘ M')).Nodup := by
      rw [hfst]; exact Multiset.nodup_range _
    rw [Multiset.map_cons, Multiset.nodup_cons] at hnd
    have : (M'.map (fun e' : Nat × Bool × (Nat → Int) =>
        if e'.1 = e.1 then (e'.2.2 j : ZMod q) else 0)) = M'.map (fun _ => 0) := by
      refine Multiset.map_congr rfl ?_
      intro e' he'
      rw [if_neg]
      intro heq
      exact hnd.1 (Multiset.mem_map.mpr ⟨e', he', heq⟩)
    rw [this]; simp
  have hTk : ∀ k, k < s.nz → ∃ e ∈ M, (s.toTriplet B.n L.n B.F).i.g k = e.1 ∧
      (s.toTriplet B.n L.n B.F).j.g k < L.n ∧
      (s.toTriplet B.n L.n B.F).val k = e.2.2 ((s.toTriplet B.n L.n B.F).j.g k) ∧
      e.2.2 ((s.toTriplet B.n L.n B.F).j.g k) ≠ 0 := by
    intro k hk
    have h1 := toTriplet_mem s B.n L.n B.F hsz hk
    rw [n4] at h1
    obtain ⟨e, he, h1⟩ := hmemM _ h1
    rw [mem_rowItems] at h1
    exact ⟨e, he, h1⟩
  have hMlt : ∀ e ∈ M, e.1 < B.n := by
    intro e he
    have : e.1 ∈ M.map (·.1) := Multiset.mem_map_of_mem _ he
    rw [hfst] at this; exact Multiset.mem_range.mp this
  have hT : (s.toTriplet B.n L.n B.F).WFV q := by
    refine ⟨⟨by simpa [ASt.toTriplet] using hsz, by simp [ASt.toTriplet], ?_, ?_, ?_,
      hB.field_ok⟩, hB.good, rfl, ?_⟩
    · intro a ha
      simp only [ASt.toTriplet, Option.some.injEq] at ha
      subst ha; simp [ASt.toTriplet]
    · intro k hk
      obtain ⟨e, he, h1, -⟩ := hTk k hk
      rw [h1]; exact hMlt e he
    · intro k hk
      obtain ⟨e, he, -, h1, -⟩ := hTk k hk
      exact h1
    · intro k hk
      obtain ⟨e, he, -, h1, h2, h3⟩ := hTk k hk
      rw [h2]
      exact ⟨(hMok e he).bal _ (by omega), h3⟩
  refine (C10_compress_partial jk q _ hT ?_).mono ?_
  · rintro i j - ⟨k, hk, h1, h2⟩
    obtain ⟨e, he, g1, g2, g3, g4⟩ := hTk k hk
    rw [h1] at g1
    rw [h2] at g2 g4
    rw [g1, hval e he j g2]
    intro h0
    exact g4 ((small_eq_zero_iff hB.good.two_le ((hMok e he).bal j (by omega)).small).mp h0)
  · rintro X ⟨x1, x2, x3, x4, x5, x6⟩
    have x2 : X.n = B.n := x2
    have x3 : X.m = L.n := x3
    refine ⟨x1, x2, by omega, x4, x5, ?_⟩
    intro t i res hi
    rw [r2 t, List.mem_map] at hi
    obtain ⟨e, he, h1⟩ := hi
    simp only [Prod.mk.injEq] at h1
    obtain ⟨rfl, rfl⟩ := h1
    have hM := hMem t e he
    refine ⟨(hMok e hM).iff, fun hres c hc => ?_⟩
    rw [← (hMok e hM).sol hres c hc]
    refine Finset.sum_congr rfl fun j hj => ?_
    rw [mem_range] at hj
    rw [x6 e.1 j (hMlt e hM), hval e hM j (by omega)]

end Spasm
