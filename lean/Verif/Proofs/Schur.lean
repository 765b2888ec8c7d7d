import Verif.Proofs.SolveParts
import Verif.Spec.Schur

namespace Spasm

open Finset Commit

/-- The item of buffer 1 storing an entry of row `i` of `L`. -/
def ent1 (i : Nat) (e : Nat × Int) : List Int := [(i : Int), (e.1 : Int), e.2]

/-- The job of row `r`. -/
def SchurJob (q : ℕ) (A U : Csr) (qinv : Array Int) (hasL : Bool) (p_in : Option (Array Nat))
    (r : Nat) (job : Job) (es ts : List (Nat × Int)) : Prop :=
  SchurParts q A U qinv r es ts ∧ job.tag = permFun p_in r ∧
  ∃ its, Encodes (schurCfg A.m hasL) job its ∧
    comp 0 its = es.map ent0 ∧ (hasL = true → comp 1 its = ts.map (ent1 (permFun p_in r)))

/-- The items emitted for column `j`. -/
def schurItem (qinv x : Array Int) (hasL : Bool) (io j : Nat) : List (Nat × List Int) :=
  if x.g j = 0 then [] else if qinv.g j < 0 then [(0, [(j : Int), x.g j])]
  else if hasL then [(1, [(io : Int), qinv.g j, x.g j])] else []

theorem comp0_schurItem {qinv x : Array Int} {hasL : Bool} {io : Nat} (l : List Nat) :
    comp 0 (l.flatMap (schurItem qinv x hasL io)) =
      ((l.filter fun j => decide (x.g j ≠ 0 ∧ qinv.g j < 0)).map fun j => (j, x.g j)).map ent0 := by
  induction l with
  | nil => rfl
  | cons j l ih =>
    rw [List.flatMap_cons, comp_append, ih, schurItem]
    by_cases h1 : x.g j = 0
    · rw [if_pos h1, List.filter_cons_of_neg (by simp [h1])]; rfl
    · rw [if_neg h1]
      by_cases h2 : qinv.g j < 0
      · rw [if_pos h2, List.filter_cons_of_pos (by simp [h1, h2])]; rfl
      · rw [if_neg h2, List.filter_cons_of_neg (by simp [h2])]
        cases hasL <;> rfl

theorem comp1_schurItem {qinv x : Array Int} {hasL : Bool} {io : Nat} (l : List Nat) :
    comp 1 (l.flatMap (schurItem qinv x hasL io)) = if hasL then
      ((l.filter fun j => decide (x.g j ≠ 0 ∧ 0 ≤ qinv.g j)).map
        fun j => ((qinv.g j).toNat, x.g j)).map (ent1 io) else [] := by
  induction l with
  | nil => cases hasL <;> rfl
  | cons j l ih =>
    rw [List.flatMap_cons, comp_append, ih, schurItem]
    by_cases h1 : x.g j = 0
    · rw [if_pos h1, List.filter_cons_of_neg (by simp [h1])]; rfl
    · rw [if_neg h1]
      by_cases h2 : qinv.g j < 0
      · rw [if_pos h2, List.filter_cons_of_neg (by simp [h2])]; rfl
      · rw [if_neg h2, List.filter_cons_of_pos (by simp [h1]; omega)]
        cases hasL
        · rfl
        · have : ((qinv.g j).toNat : Int) = qinv.g j := by omega
          simp [comp, ent1, this]

theorem schur_row_spec {q : ℕ} {A U : Csr} {qinv : Array Int} (hA : A.WFV q)
    (hE : Echelon q U qinv) (hm : U.m = A.m) (hasL : Bool) {p_in : Option (Array Nat)}
    (hin : PermSize p_in A.n) {r : Nat} (hr : r < A.n) {w : Dfs} (hw : w.Ready A.m)
    {x : Array Int} (hx : A.m ≤ x.size) :
    Ok (schur_row A U qinv hasL p_in r w x) (fun o => o.1.Ready A.m ∧ A.m ≤ o.2.1.size ∧
      ∃ es ts, SchurJob q A U qinv hasL p_in r o.2.2 es ts) := by
  unfold schur_row
  rw [Ok_bind]
  refine (sparse_solve_parts hA hE hm hr hw hx).mono ?_
  rintro ⟨w', x'⟩ ⟨a1, a2, a3, a4, -, a12⟩
  simp only at a1 a2 a3 a4 a12
  have hq := hE.size
  rw [hm] at hq
  have hxs := a1.xs
  -- counting
  simp only [Ok_bind]
  refine Ok_forRange_cols w' a2 (fun l s =>
      s = ((l.filter fun j => decide (x'.g j ≠ 0 ∧ qinv.g j < 0)).length,
           (l.filter fun j => decide (x'.g j ≠ 0 ∧ 0 ≤ qinv.g j)).length)) rfl ?_ ?_
  · rintro px l s h1 h2 rfl
    have := a4 px h1 h2
    simp only [Ok_bind, Ok_rd]
    refine ⟨by omega, by omega, ?_⟩
    rw [List.filter_append, List.filter_append]
    by_cases h3 : x'.g (w'.xj.g px) = 0
    · rw [if_pos h3, Ok_ok]; simp [h3]
    · rw [if_neg h3]
      simp only [Ok_bind, Ok_rd]
      refine ⟨by omega, ?_⟩
      by_cases h4 : qinv.g (w'.xj.g px) < 0
      · rw [if_pos h4, Ok_ok]; simp [h3, h4]
      · have h5 : 0 ≤ qinv.g (w'.xj.g px) := by omega
        rw [if_neg h4, Ok_ok]; simp [h3, h5]
  rintro s rfl
  refine permAt_ok hin hr ?_
  set io := permFun p_in r with hio
  -- emission
  refine Ok_forRange_cols w' a2 (fun l s =>
      s = (enc (fun _ => 0) (l.flatMap (schurItem qinv x' hasL io)),
        (comp 0 (l.flatMap (schurItem qinv x' hasL io))).length,
        (comp 1 (l.flatMap (schurItem qinv x' hasL io))).length)) rfl ?_ ?_
  · rintro px l s h1 h2 rfl
    have := a4 px h1 h2
    simp only [Ok_bind, Ok_rd]
    refine ⟨by omega, by omega, ?_⟩
    rw [List.flatMap_append, comp_append, comp_append, enc_append, List.flatMap_singleton]
    rw [schurItem]
    by_cases h3 : x'.g (w'.xj.g px) = 0
    · rw [if_pos h3, if_pos h3, Ok_ok]; simp [enc, comp]
    · rw [if_neg h3, if_neg h3]
      simp only [Ok_bind, Ok_rd]
      refine ⟨by omega, ?_⟩
      by_cases h4 : qinv.g (w'.xj.g px) < 0
      · rw [if_pos h4, if_pos h4, Ok_ok]; simp [enc, comp, List.zipIdx]
      · rw [if_neg h4, if_neg h4]
        cases hasL
        · simp [enc, comp]
        · simp [enc, comp, List.zipIdx]
  rintro s rfl
  rw [Ok_ok]
  refine ⟨a1, by show A.m ≤ x'.size; omega, ?_⟩
  set l := w'.list A.m with hl
  refine ⟨(l.filter fun j => decide (x'.g j ≠ 0 ∧ qinv.g j < 0)).map fun j => (j, x'.g j),
    (l.filter fun j => decide (x'.g j ≠ 0 ∧ 0 ≤ qinv.g j)).map
      fun j => ((qinv.g j).toNat, x'.g j), ?_, rfl, l.flatMap (schurItem qinv x' hasL io), ?_,
    comp0_schurItem l, fun h => by rw [comp1_schurItem, if_pos h]⟩
  · exact a12
  · refine ⟨rfl, ?_, ?_⟩
    · intro b hb
      have hb' : b = 0 ∨ (b = 1 ∧ hasL = true) := by
        cases hasL
        · simp [schurCfg] at hb; omega
        · simp [schurCfg] at hb ⊢; omega
      rcases hb' with rfl | ⟨rfl, hb'⟩
      · rw [comp0_schurItem]; simp
      · rw [comp1_schurItem, if_pos hb']; simp
    · intro it hit
      rw [List.mem_flatMap] at hit
      obtain ⟨j, -, hj⟩ := hit
      unfold schurItem at hj
      cases hasL <;> simp only [schurCfg] <;> split_ifs at hj <;> simp_all

theorem schur_rows_spec {q : ℕ} {A U : Csr} {qinv : Array Int} (hA : A.WFV q)
    (hE : Echelon q U qinv) (hm : U.m = A.m) (hasL : Bool) {p_in : Option (Array Nat)}
    (hin : PermSize p_in A.n) {p : Array Nat} {n : Nat} (hps : n ≤ p.size)
    (hpn : ∀ k, k < n → p.g k < A.n) : ∀ (is : List Nat), (∀ i ∈ is, i < n) →
    ∀ (w : Dfs) (x : Array Int), w.Ready A.m → A.m ≤ x.size →
    Ok (schur_rows A U qinv hasL p_in p is w x) (fun jobs => List.Forall₂ (fun i job =>
      ∃ es ts, SchurJob q A U qinv hasL p_in (p.g i) job es ts) is jobs) := by
  intro is
  induction is with
  | nil => intro _ w x _ _; simp [schur_rows]
  | cons i is ih =>
    intro his w x hw hx
    have hi := his i (by simp)
    simp only [schur_rows, Ok_bind, Ok_rd]
    refine ⟨by omega, (schur_row_spec hA hE hm hasL hin (hpn i hi) hw hx).mono ?_⟩
    rintro ⟨w', x', job⟩ ⟨h1, h2, h3⟩
    refine (ih (fun i hi => his i (by simp [hi])) w' x' h1 h2).mono ?_
    intro jobs hj
    exact .cons h3 hj

theorem schur_thread_spec (jk : Junk) {q : ℕ} {A U : Csr} {qinv : Array Int} (hA : A.WFV q)
    (hE : Echelon q U qinv) (hm : U.m = A.m) (hasL : Bool) {p_in : Option (Array Nat)}
    (hin : PermSize p_in A.n) {p : Array Nat} {n : Nat} (hps : n ≤ p.size)
    (hpn : ∀ k, k < n → p.g k < A.n) (is : List Nat) (his : ∀ i ∈ is, i < n) :
    Ok (schur_thread jk A U qinv hasL p_in p is) (fun jobs => List.Forall₂ (fun i job =>
      ∃ es ts, SchurJob q A U qinv hasL p_in (p.g i) job es ts) is jobs) := by
  refine schur_rows_spec hA hE hm hasL hin hps hpn is his _ _ ?_ (by simp)
  refine ⟨by simp, by simp, by simp, ?_⟩
  intro j hj
  rw [g_mkArr _ _ _ hj]

theorem SchurJob.jobOk {q : ℕ} {A U : Csr} {qinv : Array Int} {hasL : Bool}
    {p_in : Option (Array Nat)} {r : Nat} {job : Job} {es ts : List (Nat × Int)}
    (h : SchurJob q A U qinv hasL p_in r job es ts) : JobOk (schurCfg A.m hasL) job := by
  obtain ⟨h1, -, its, h2, h3, h4⟩ := h
  have hnb : 0 < (schurCfg A.m hasL).nb := by cases hasL <;> simp [schurCfg]
  refine h2.jobOk hnb (by simp [schurCfg]) (fun b _ => le_refl _) ?_
  intro b hb k
  have : job.len b ≤ A.m := by
    rw [h2.len b hb]
    have hb' : b = 0 ∨ (b = 1 ∧ hasL = true) := by
      cases hasL
      · simp [schurCfg] at hb; omega
      · simp [schurCfg] at hb ⊢; omega
    rcases hb' with rfl | ⟨rfl, hb'⟩
    · rw [h3, List.length_map]; exact h1.es_len
    · rw [h4 hb', List.length_map]; exact h1.ts_len
  simp only [schurCfg]; omega

theorem schur_init_eq (S : Csr) (L : Option Triplet) (p_out : Array Nat) {T : Nat}
    (jobs : Fin T → List Job) : ∃ cap used mem, schur_init S L p_out jobs =
      St.init cap used mem S.p p_out ⟨fun _ => 0, [], 0⟩ jobs ∧ used 0 = 0 ∧
      (∀ T, L = some T → cap 1 = T.i.size ∧ used 1 = T.nz ∧ ∀ k, mem 1 0 k = (T.i.g k : Int) ∧
        mem 1 1 k = (T.j.g k : Int) ∧ mem 1 2 k = (T.x.getD #[]).g k) := by
  refine ⟨_, _, _, rfl, rfl, ?_⟩
  rintro T rfl
  exact ⟨rfl, rfl, fun k => ⟨rfl, rfl, rfl⟩⟩

theorem forall₂_card {T : Nat} {α : Type} {P : α → Job → Prop} {rows : Fin T → List α}
    {jobs : Fin T → List Job} (h : ∀ t, List.Forall₂ P (rows t) (jobs t)) :
    Multiset.card (∑ t, (jobs t : Multiset Job)) = Multiset.card (∑ t, (rows t : Multiset α)) := by
  have e1 := map_sum (Multiset.cardHom (α := Job)) (fun t => (jobs t : Multiset Job)) univ
  have e2 := map_sum (Multiset.cardHom (α := α)) (fun t => (rows t : Multiset α)) univ
  refine e1.trans (Eq.trans ?_ e2.symm)
  refine Finset.sum_congr rfl fun t _ => ?_
  exact (h t).length_eq.symm

/-- The hypotheses of the commit protocol. -/
theorem schur_reach {q : ℕ} {A U : Csr} {qinv : Array Int} {p_in : Option (Array Nat)}
    {p : Array Nat} {n : Nat} {L : Option Triplet} (hL : ∀ T, L = some T → T.WF)
    {p_out : Array Nat} (hout : n ≤ p_out.size) {T : Nat} {rows : Fin T → List Nat}
    (hrows : ∑ t, (rows t : Multiset Nat) = Multiset.range n) {jobs : Fin T → List Job}
    (hjobs : ∀ t, List.Forall₂ (fun i job =>
      ∃ es ts, SchurJob q A U qinv L.isSome p_in (p.g i) job es ts) (rows t) (jobs t))
    {S0 : Csr} {size : Nat} {G : Int} (hS0 : Fresh S0 n A.m size G true) :
    ∃ cap used mem, schur_init S0 L p_out jobs =
        St.init cap used mem S0.p p_out ⟨fun _ => 0, [], 0⟩ jobs ∧ used 0 = 0 ∧
      (∀ T, L = some T → cap 1 = T.i.size ∧ used 1 = T.nz ∧ ∀ k, mem 1 0 k = (T.i.g k : Int) ∧
        mem 1 1 k = (T.j.g k : Int) ∧ mem 1 2 k = (T.x.getD #[]).g k) ∧
      0 < (schurCfg A.m L.isSome).nb ∧
      (∀ b, b < (schurCfg A.m L.isSome).nb → used b ≤ cap b) ∧
      (∀ t, ∀ j ∈ jobs t, JobOk (schurCfg A.m L.isSome) j) ∧
      Multiset.card (∑ t, (jobs t : Multiset Job)) = n ∧
      Multiset.card (∑ t, (jobs t : Multiset Job)) < S0.p.size ∧
      Multiset.card (∑ t, (jobs t : Multiset Job)) ≤ p_out.size := by
  obtain ⟨cap, used, mem, h1, h2, h3⟩ := schur_init_eq S0 L p_out jobs
  have hc : Multiset.card (∑ t, (jobs t : Multiset Job)) = n := by
    rw [forall₂_card hjobs, hrows, Multiset.card_range]
  have hps := hS0.p_size
  refine ⟨cap, used, mem, h1, h2, h3, by cases L <;> simp [schurCfg], ?_, ?_, hc, by omega, by omega⟩
  · intro b hb
    have hb' : b = 0 ∨ (b = 1 ∧ L.isSome = true) := by
      cases L
      · simp [schurCfg] at hb; omega
      · simp [schurCfg] at hb ⊢; omega
    rcases hb' with rfl | ⟨rfl, hb'⟩
    · omega
    · obtain ⟨T, hT⟩ := Option.isSome_iff_exists.mp hb'
      obtain ⟨a1, a2, -⟩ := h3 T hT
      rw [a1, a2]; exact (hL T hT).i_size
  · intro t j hj
    obtain ⟨k, hk, rfl⟩ := List.getElem_of_mem hj
    have h := List.forall₂_iff_get.mp (hjobs t)
    obtain ⟨es, ts, h⟩ := h.2 k (by omega) hk
    exact h.jobOk

/-- The result once all the threads are done. -/
theorem lsum_of_mem_nodup {q : ℕ} {l : List (Nat × Int)} (hn : (l.map Prod.fst).Nodup)
    {e : Nat × Int} (he : e ∈ l) : lsum q l e.1 = (e.2 : ZMod q) := by
  induction l with
  | nil => simp at he
  | cons a l ih =>
    rw [List.map_cons, List.nodup_cons] at hn
    rw [lsum_cons]
    rcases List.mem_cons.mp he with rfl | he
    · rw [if_pos rfl, lsum_map_fst_not_mem hn.1, add_zero]
    · rw [if_neg, ih hn.2 he, zero_add]
      intro h
      exact hn.1 (List.mem_map.mpr ⟨e, he, h.symm⟩)

theorem schur_final (jk : Junk) {q : ℕ} {A U : Csr} {qinv : Array Int} (hA : A.WFV q)
    {p_in : Option (Array Nat)}
    {p : Array Nat} {n : Nat} {L : Option Triplet} (hL : ∀ T, L = some T → T.WF)
    (hLx : ∀ T, L = some T → T.x.isSome = true)
    (hLn : ∀ T, L = some T → U.n ≤ T.m ∧ ∀ k, k < n → permFun p_in (p.g k) < T.n)
    {p_out : Array Nat} (hout : n ≤ p_out.size) {T : Nat} {rows : Fin T → List Nat}
    (hrows : ∑ t, (rows t : Multiset Nat) = Multiset.range n) {jobs : Fin T → List Job}
    (hjobs : ∀ t, List.Forall₂ (fun i job =>
      ∃ es ts, SchurJob q A U qinv L.isSome p_in (p.g i) job es ts) (rows t) (jobs t))
    {S0 : Csr} {size : Nat} (hS0 : Fresh S0 n A.m size A.F.p true) (hF : S0.F.Good q)
    {s : St T} (hr : Reach (schurCfg A.m L.isSome) jk.int (schur_init S0 L p_out jobs) s)
    (hf : s.Finished) :
    s.tags.size = p_out.size ∧ Ok (schur_finish jk s n A.m S0.F L) (fun o => ∃ σ ℓ, IsPerm σ n ∧
      IsSchur q A U qinv n (fun k => p.g (σ k)) o.1 ℓ ∧
      (∀ k, k < n → s.tags.g k = permFun p_in (p.g (σ k))) ∧
      (L = none → o.2 = none) ∧
      ∀ Z, L = some Z → ∃ Z', o.2 = some Z' ∧ Z'.WF ∧ Z'.x.isSome = true ∧
        Z'.n = Z.n ∧ Z'.m = Z.m ∧ Z'.F = Z.F ∧ (Z.WFV q → Z'.WFV q) ∧
        (∀ i c, Z'.Has i c → Z.Has i c ∨
          ∃ k, k < n ∧ permFun p_in (p.g (σ k)) = i ∧ c < U.n ∧ ℓ k c ≠ 0) ∧
        ∀ i c, Z'.sum q i c = Z.sum q i c +
          ∑ k ∈ range n, if permFun p_in (p.g (σ k)) = i then ℓ k c else 0) := by
  obtain ⟨cap, used, mem, h1, h2, h3, h4, h5, h6, h7, h8, h9⟩ := schur_reach hL hout hrows hjobs hS0
  rw [h1] at hr
  obtain ⟨⟨log, hI⟩, h0⟩ := reach_inv h4 h5 h6 h8 h9 hr
  obtain ⟨hlog, hl⟩ := hI.laid hf
  have hrs := hI.rsize
  refine ⟨hI.tsize, ?_⟩
  obtain ⟨σ, hσ, hσl⟩ := log_perm hjobs hlog
  rw [hrows] at hσ
  have hσlen : σ.length = n := by rw [← Multiset.coe_card, hσ, Multiset.card_range]
  rw [List.forall₂_iff_get] at hσl
  obtain ⟨hll, hσl⟩ := hσl
  have hloglen : log.length = n := by omega
  -- the rows
  have hex : ∀ k, ∃ es ts its, k < n → ∃ job, log[k]? = some job ∧
      SchurParts q A U qinv (p.g (σ.getD k 0)) es ts ∧
      job.tag = permFun p_in (p.g (σ.getD k 0)) ∧ Encodes (schurCfg A.m L.isSome) job its ∧
      comp 0 its = es.map ent0 ∧
      (L.isSome = true → comp 1 its = ts.map (ent1 (permFun p_in (p.g (σ.getD k 0))))) := by
    intro k
    by_cases hk : k < n
    · obtain ⟨es, ts, b1, b2, its, b3, b4, b5⟩ := hσl k (by omega) (by omega)
      have e : σ.getD k 0 = σ.get ⟨k, by omega⟩ := by
        rw [getD_lt _ _ (by omega)]; rfl
      rw [← e] at b1 b2 b5
      exact ⟨es, ts, its, fun _ => ⟨_, List.getElem?_eq_getElem (by omega), b1, b2, b3, b4, b5⟩⟩
    · exact ⟨[], [], [], fun h => absurd h hk⟩
  choose R τ its hex using hex
  have henc : ∀ i j, log[i]? = some j → Encodes (schurCfg A.m L.isSome) j (its i) := by
    intro i j hj
    have hi : i < n := by rw [List.getElem?_eq_some_iff] at hj; rw [← hloglen]; exact hj.1
    obtain ⟨job, c1, -, -, c2, -⟩ := hex i hi
    rw [c1] at hj; cases hj; exact c2
  have hperm : IsPerm (fun k => σ.getD k 0) n := by
    have hnd : σ.Nodup := by
      have := Multiset.nodup_range n
      rw [← hσ] at this; exact this
    constructor
    · intro k hk
      have : σ.getD k 0 ∈ (σ : Multiset Nat) := by
        rw [getD_lt _ _ (by omega)]; exact List.getElem_mem _
      rw [hσ] at this
      exact Multiset.mem_range.mp this
    · intro i k hi hk he
      simp only at he
      rw [getD_lt _ _ (by omega), getD_lt _ _ (by omega)] at he
      exact (List.Nodup.getElem_inj_iff hnd).mp he
  -- the matrix
  obtain ⟨hwf, hrow, hnnz⟩ := hl.toCsr (m := A.m) (F := S0.F) h4 h2 (by rw [h0]; exact hS0.p_zero)
    (by rw [hrs, hloglen, hS0.p_size]; omega) hloglen
    (by rw [hS0.F_p]; exact hA.field_ok) henc (R := R)
    (fun i hi => by obtain ⟨job, -, -, -, -, c, -⟩ := hex i hi; exact c)
    (fun i hi e he => by
      obtain ⟨job, -, c, -⟩ := hex i hi; exact (c.es_ok e he).1)
  unfold schur_finish
  rw [Ok_bind]
  refine (csr_realloc_spec jk hwf (nzmax := -1) (.inl (by omega))).mono ?_
  rintro S ⟨d1, d2, d3, d4, d5, d6, d7, d8, d9, d10, d11⟩
  rw [Ok_ok]
  have d2' : S.n = n := d2
  have d3' : S.m = A.m := d3
  simp only
  have hSrow : ∀ k, k < n → S.row k = R k := fun k hk => by rw [d6 k hk, hrow k hk]
  refine ⟨_, fun k i => lsum q (τ k) i, hperm, ⟨?_, d2', d3', ?_, ?_, ?_, ?_⟩, ?_, ?_, ?_⟩
  · refine d1.toWFV (by rw [d5]; exact hF) ?_ ?_
    · intro h
      rw [d7 (.inl (by rw [← d2, ← d4]; exact h))]; rfl
    · intro i hi e he
      rw [hSrow i (by omega)] at he
      obtain ⟨job, -, c, -⟩ := hex i (by omega)
      exact (c.es_ok e he).2.2.1.small
  · rw [nodup_row_iff]
    intro i hi
    rw [hSrow i (by omega)]
    obtain ⟨job, -, c, -⟩ := hex i (by omega)
    exact c.es_nodup
  · rw [noZero_iff d1]
    intro i hi e he
    rw [hSrow i (by omega)] at he
    obtain ⟨job, -, c, -⟩ := hex i (by omega)
    exact (c.es_ok e he).2.2.2
  · intro k hk c hc
    rw [Csr.inRow_iff, hSrow k hk] at hc
    obtain ⟨e, he, rfl⟩ := hc
    obtain ⟨job, -, c, -⟩ := hex k hk
    exact (c.es_ok e he).2.1
  · intro k hk c hc
    rw [S.entry_eq_lsum, hSrow k hk]
    obtain ⟨job, -, c', -⟩ := hex k hk
    exact c'.eq c hc
  · intro k hk
    obtain ⟨job, c1, -, c2, -⟩ := hex k hk
    rw [hl.tags k job c1, c2]
  · rintro rfl; rfl
  · -- the triplets
    rintro Z rfl
    obtain ⟨g1, g2, g3⟩ := h3 Z rfl
    have hZ := hL Z rfl
    obtain ⟨a, ha⟩ := Option.isSome_iff_exists.mp (hLx Z rfl)
    have hb1 : 1 < (schurCfg A.m (some Z).isSome).nb := by simp [schurCfg]
    have hlen : ∀ t j, log[t]? = some j → j.len 1 = (τ t).length := by
      intro t j hj
      have ht : t < n := by rw [List.getElem?_eq_some_iff] at hj; rw [← hloglen]; exact hj.1
      rw [(henc t j hj).len 1 hb1]
      obtain ⟨job, -, -, -, -, -, c⟩ := hex t ht
      rw [c rfl, List.length_map]
    have hused := hl.used 1 hb1
    have hroom := hl.room 1 hb1
    -- contents of the old and of the new part
    have hold : ∀ k, k < Z.nz → (s.toTriplet Z.n Z.m Z.F).i.g k = Z.i.g k ∧
        (s.toTriplet Z.n Z.m Z.F).j.g k = Z.j.g k ∧
        (s.toTriplet Z.n Z.m Z.F).val k = Z.val k := by
      intro k hk
      have hlt : k < s.cap 1 := by
        have := start_mono (u0 := used) (log := log) (b := 1) (Nat.zero_le log.length)
        rw [← hused] at this
        simp only [start, List.take_zero, List.map_nil, List.sum_nil] at this
        omega
      obtain ⟨e1, e2, e3⟩ := g3 k
      simp only [St.toTriplet, Triplet.val]
      rw [g_mkArr _ _ _ hlt, g_mkArr _ _ _ hlt, g_mkArr _ _ _ hlt,
        hl.old 1 0 k hb1 (by omega), hl.old 1 1 k hb1 (by omega), hl.old 1 2 k hb1 (by omega),
        e1, e2, e3, ha]
      simp
    have hnew : ∀ t o, t < n → o < (τ t).length →
        (s.toTriplet Z.n Z.m Z.F).i.g (start used log 1 t + o) =
          permFun p_in (p.g (σ.getD t 0)) ∧
        (s.toTriplet Z.n Z.m Z.F).j.g (start used log 1 t + o) = ((τ t).getD o (0, 0)).1 ∧
        (s.toTriplet Z.n Z.m Z.F).val (start used log 1 t + o) = ((τ t).getD o (0, 0)).2 := by
      intro t o ht ho
      obtain ⟨job, c1, -, -, c2, -, c3⟩ := hex t ht
      have hlt : start used log 1 t + o < s.cap 1 := by
        have := start_mono (u0 := used) (log := log) (b := 1) (show t + 1 ≤ log.length by omega)
        rw [← hused, start_succ c1, hlen t job c1] at this
        omega
      have hg : (comp 1 (its t))[o]? = some (ent1 (permFun p_in (p.g (σ.getD t 0)))
          ((τ t).getD o (0, 0))) := by
        rw [c3 rfl, List.getElem?_map, List.getElem?_eq_getElem ho,
          getD_lt _ _ ho]; rfl
      have m0 := c2.mem hl c1 hg (c := 0) rfl
      have m1 := c2.mem hl c1 hg (c := 1) rfl
      have m2 := c2.mem hl c1 hg (c := 2) rfl
      simp only [St.toTriplet, Triplet.val]
      rw [g_mkArr _ _ _ hlt, g_mkArr _ _ _ hlt, g_mkArr _ _ _ hlt, m0, m1, m2]
      simp
    have hcase : ∀ k, k < s.used 1 → k < Z.nz ∨
        ∃ t o, t < n ∧ o < (τ t).length ∧ k = start used log 1 t + o := by
      intro k hk
      rw [hused] at hk
      rcases lt_start hlen log.length (le_refl _) k hk with h | ⟨t, o, e1, e2, e3⟩
      · left; omega
      · exact .inr ⟨t, o, by omega, e2, e3⟩
    have hts : ∀ t o, t < n → o < (τ t).length → ((τ t).getD o (0, 0)).1 < U.n ∧
        Bal q ((τ t).getD o (0, 0)).2 ∧ ((τ t).getD o (0, 0)).2 ≠ 0 := by
      intro t o ht ho
      obtain ⟨job, -, c, -⟩ := hex t ht
      refine c.ts_ok _ ?_
      rw [getD_lt _ _ ho]; exact List.getElem_mem _
    obtain ⟨hn1, hn2⟩ := hLn Z rfl
    have hwfZ : (s.toTriplet Z.n Z.m Z.F).WF := by
      refine ⟨by simpa [St.toTriplet] using hroom, by simp [St.toTriplet],
        by simp [St.toTriplet], ?_, ?_, hZ.field_ok⟩
      · intro k hk
        rcases hcase k hk with h | ⟨t, o, e1, e2, rfl⟩
        · rw [(hold k h).1]; exact hZ.i_lt k h
        · rw [(hnew t o e1 e2).1]; exact hn2 _ (hperm.1 t e1)
      · intro k hk
        rcases hcase k hk with h | ⟨t, o, e1, e2, rfl⟩
        · rw [(hold k h).2.1]; exact hZ.j_lt k h
        · rw [(hnew t o e1 e2).2.1]
          show _ < Z.m
          have := (hts t o e1 e2).1
          omega
    refine ⟨_, rfl, hwfZ, rfl, rfl, rfl, rfl, ?_, ?_, ?_⟩
    · intro hv
      refine ⟨hwfZ, hv.good, rfl, ?_⟩
      intro k hk
      rcases hcase k hk with h | ⟨t, o, e1, e2, rfl⟩
      · rw [(hold k h).2.2]; exact hv.bal k h
      · rw [(hnew t o e1 e2).2.2]; exact (hts t o e1 e2).2
    · rintro i c ⟨k, hk, rfl, rfl⟩
      rcases hcase k hk with h | ⟨t, o, e1, e2, rfl⟩
      · exact .inl ⟨k, h, (hold k h).1.symm, (hold k h).2.1.symm⟩
      · right
        obtain ⟨f1, f2, f3⟩ := hnew t o e1 e2
        obtain ⟨f4, f5, f6⟩ := hts t o e1 e2
        refine ⟨t, e1, f1.symm, by rw [f2]; exact f4, ?_⟩
        obtain ⟨job, -, c, -⟩ := hex t e1
        beta_reduce
        rw [f2, lsum_of_mem_nodup c.ts_nodup (by rw [getD_lt _ _ e2]; exact List.getElem_mem _)]
        intro h0
        exact f6 ((small_eq_zero_iff hA.good.two_le f5.small).mp h0)
    · intro i c
      unfold Triplet.sum
      have e : (s.toTriplet Z.n Z.m Z.F).nz = start used log 1 log.length := hused
      rw [e, sum_start _ hlen log.length (le_refl _), g2, hloglen]
      congr 1
      · refine Finset.sum_congr rfl fun k hk => ?_
        obtain ⟨e1, e2, e3⟩ := hold k (mem_range.mp hk)
        rw [e1, e2, e3]
      · refine Finset.sum_congr rfl fun t ht => ?_
        have ht := mem_range.mp ht
        have : ∀ o ∈ range (τ t).length,
            (if (s.toTriplet Z.n Z.m Z.F).i.g (start used log 1 t + o) = i ∧
              (s.toTriplet Z.n Z.m Z.F).j.g (start used log 1 t + o) = c then
              (((s.toTriplet Z.n Z.m Z.F).val (start used log 1 t + o) : Int) : ZMod q) else 0) =
            (fun e : Nat × Int => if permFun p_in (p.g (σ.getD t 0)) = i ∧ e.1 = c then
              (e.2 : ZMod q) else 0) ((τ t).getD o (0, 0)) := by
          intro o ho
          obtain ⟨e1, e2, e3⟩ := hnew t o ht (mem_range.mp ho)
          rw [e1, e2, e3]
        rw [Finset.sum_congr rfl this, sum_range_getD (fun e : Nat × Int =>
          if permFun p_in (p.g (σ.getD t 0)) = i ∧ e.1 = c then (e.2 : ZMod q) else 0)]
        by_cases hi : permFun p_in (p.g (σ.getD t 0)) = i
        · simp only [hi, true_and, if_true]; rfl
        · simp only [hi, false_and, if_false]
          simp

end Spasm
