import Verif.Proofs.Commit
import Verif.Proofs.Submatrix
import Mathlib.Data.List.Perm.Basic

/-
From the rows computed by the threads to the matrix held by the shared memory at the end of the
commit protocol.
-/

namespace Spasm.Commit

open Finset

variable {T : Nat}

/-- The writes storing a sequence of items: item `(b, vs)` goes to the next slot of buffer `b`. -/
def enc (c : Nat → Nat) : List (Nat × List Int) → List Wr
  | [] => []
  | (b, vs) :: r => (vs.zipIdx.map fun e => ⟨b, c b, e.2, e.1⟩) ++ enc (upd c b (c b + 1)) r

/-- The items of buffer `b`. -/
def comp (b : Nat) (its : List (Nat × List Int)) : List (List Int) :=
  (its.filter fun it => decide (it.1 = b)).map (·.2)

theorem comp_append (b : Nat) (l l' : List (Nat × List Int)) :
    comp b (l ++ l') = comp b l ++ comp b l' := by
  simp [comp]

theorem comp_cons_eq (b : Nat) (vs : List Int) (l : List (Nat × List Int)) :
    comp b ((b, vs) :: l) = vs :: comp b l := by simp [comp]

theorem comp_cons_ne {b b' : Nat} (h : b' ≠ b) (vs : List Int) (l : List (Nat × List Int)) :
    comp b ((b', vs) :: l) = comp b l := by simp [comp, h]

theorem enc_append (its its' : List (Nat × List Int)) : ∀ c : Nat → Nat,
    enc c (its ++ its') = enc c its ++ enc (fun b => c b + (comp b its).length) its' := by
  induction its with
  | nil => intro c; simp [enc, comp]
  | cons it its ih =>
    intro c
    obtain ⟨b, vs⟩ := it
    simp only [List.cons_append, enc]
    rw [ih, List.append_assoc]
    congr 3
    funext b'
    by_cases hb : b' = b
    · subst hb; rw [upd_self, comp_cons_eq, List.length_cons]; omega
    · rw [upd_ne _ _ hb, comp_cons_ne (fun h => hb h.symm)]

theorem mem_block {b o : Nat} {vs : List Int} {w : Wr} :
    w ∈ (vs.zipIdx.map fun e => (⟨b, o, e.2, e.1⟩ : Wr)) ↔
      w.b = b ∧ w.off = o ∧ vs[w.c]? = some w.v := by
  rw [List.mem_map]
  constructor
  · rintro ⟨⟨v, k⟩, he, rfl⟩
    exact ⟨rfl, rfl, List.mem_zipIdx_iff_getElem?.mp he⟩
  · obtain ⟨wb, wo, wc, wv⟩ := w
    rintro ⟨rfl, rfl, h⟩
    exact ⟨(wv, wc), List.mem_zipIdx_iff_getElem?.mpr h, rfl⟩

theorem mem_enc (its : List (Nat × List Int)) : ∀ (c : Nat → Nat) (w : Wr),
    w ∈ enc c its ↔ ∃ o vs, (comp w.b its)[o]? = some vs ∧ w.off = c w.b + o ∧
      vs[w.c]? = some w.v := by
  induction its with
  | nil => intro c w; simp [enc, comp]
  | cons it its ih =>
    intro c w
    obtain ⟨b, vs⟩ := it
    simp only [enc]
    rw [List.mem_append, mem_block, ih]
    by_cases hb : w.b = b
    · subst hb
      rw [comp_cons_eq, upd_self]
      constructor
      · rintro (⟨-, h1, h2⟩ | ⟨o, vs', h1, h2, h3⟩)
        · exact ⟨0, vs, by simp, by omega, h2⟩
        · exact ⟨o + 1, vs', by simpa using h1, by omega, h3⟩
      · rintro ⟨o, vs', h1, h2, h3⟩
        cases o with
        | zero =>
          simp at h1; subst h1
          exact Or.inl ⟨rfl, by omega, h3⟩
        | succ o =>
          exact Or.inr ⟨o, vs', by simpa using h1, by omega, h3⟩
    · rw [comp_cons_ne (fun h => hb h.symm), upd_ne _ _ hb]
      constructor
      · rintro (⟨h1, -⟩ | h1)
        · exact absurd h1 hb
        · exact h1
      · exact Or.inr

theorem enc_nodup (its : List (Nat × List Int)) : ∀ c : Nat → Nat,
    ((enc c its).map fun w => (w.b, w.off, w.c)).Nodup := by
  induction its with
  | nil => intro c; simp [enc]
  | cons it its ih =>
    intro c
    obtain ⟨b, vs⟩ := it
    simp only [enc, List.map_append]
    refine List.nodup_append.mpr ⟨?_, ih _, ?_⟩
    · rw [List.map_map]
      have : ((fun w : Wr => (w.b, w.off, w.c)) ∘ fun e : Int × Nat => (⟨b, c b, e.2, e.1⟩ : Wr)) =
          (fun k => (b, c b, k)) ∘ Prod.snd := by funext e; rfl
      rw [this, ← List.map_map, List.zipIdx_map_snd]
      refine List.Nodup.map ?_ List.nodup_range'
      intro x y hxy
      simpa using hxy
    · intro a ha a' ha' he
      subst he
      rw [List.mem_map] at ha ha'
      obtain ⟨w, hw, rfl⟩ := ha
      obtain ⟨v, hv, hv'⟩ := ha'
      rw [mem_block] at hw
      rw [mem_enc] at hv
      obtain ⟨o, vs', -, h2, -⟩ := hv
      simp only [Prod.mk.injEq] at hv'
      rw [hv'.1, hw.1, upd_self] at h2
      have := hw.2.1
      omega

theorem enc_emitted (its : List (Nat × List Int)) (h : ∀ vs ∈ comp 0 its, vs ≠ []) :
    ∀ c : Nat → Nat, ((enc c its).filter fun w => decide (w.b = 0 ∧ w.c = 0)).length =
      (comp 0 its).length := by
  induction its with
  | nil => intro c; simp [enc, comp]
  | cons it its ih =>
    intro c
    obtain ⟨b, vs⟩ := it
    simp only [enc, List.filter_append, List.length_append]
    by_cases hb : b = 0
    · subst hb
      rw [comp_cons_eq] at h ⊢
      rw [ih (fun vs hvs => h vs (List.mem_cons_of_mem _ hvs))]
      have hne := h vs List.mem_cons_self
      cases vs with
      | nil => exact absurd rfl hne
      | cons v vs =>
        rw [List.zipIdx_cons]
        simp only [List.map_cons, List.filter_cons, List.length_cons]
        rw [if_pos (by simp)]
        have : (((vs.zipIdx (0 + 1)).map fun e => (⟨0, c 0, e.2, e.1⟩ : Wr)).filter
            fun w => decide (w.b = 0 ∧ w.c = 0)) = [] := by
          rw [List.filter_eq_nil_iff]
          intro w hw
          rw [List.mem_map] at hw
          obtain ⟨⟨v', k⟩, he, rfl⟩ := hw
          have := List.le_snd_of_mem_zipIdx he
          simp only at this
          simp; omega
        rw [this]
        simp only [List.length_cons, List.length_nil]; omega
    · rw [comp_cons_ne hb] at h ⊢
      rw [ih h]
      have : ((vs.zipIdx.map fun e => (⟨b, c b, e.2, e.1⟩ : Wr)).filter
          fun w => decide (w.b = 0 ∧ w.c = 0)) = [] := by
        rw [List.filter_eq_nil_iff]
        intro w hw
        rw [mem_block] at hw
        simp [hw.1, hb]
      rw [this]; simp

theorem mem_comp {b : Nat} {its : List (Nat × List Int)} {vs : List Int} :
    vs ∈ comp b its ↔ (b, vs) ∈ its := by
  unfold comp
  rw [List.mem_map]
  constructor
  · rintro ⟨⟨b', vs'⟩, h, rfl⟩
    simp at h
    obtain ⟨h1, rfl⟩ := h
    exact h1
  · intro h
    exact ⟨(b, vs), by simp [h], rfl⟩

/-- A row whose writes are those of the items `its`. -/
structure Encodes (cfg : Cfg) (j : Job) (its : List (Nat × List Int)) : Prop where
  ws : j.ws = enc (fun _ => 0) its
  len : ∀ b, b < cfg.nb → j.len b = (comp b its).length
  wid : ∀ it ∈ its, it.1 < cfg.nb ∧ it.2.length = cfg.wid it.1

theorem Encodes.jobOk {cfg : Cfg} {j : Job} {its : List (Nat × List Int)} (h : Encodes cfg j its)
    (hnb : 0 < cfg.nb) (hw0 : 0 < cfg.wid 0)
    (hneed : ∀ b, b < cfg.nb → j.len b ≤ cfg.need b (j.len b))
    (hgrow : ∀ b, b < cfg.nb → ∀ k, k + j.len b ≤ cfg.grow b k (j.len b)) : JobOk cfg j := by
  refine ⟨?_, by rw [h.ws]; exact enc_nodup its _, ?_, ?_, hneed, hgrow⟩
  · intro w hw
    rw [h.ws, mem_enc] at hw
    obtain ⟨o, vs, h1, h2, h3⟩ := hw
    obtain ⟨a1, a2⟩ := h.wid _ (mem_comp.mp (List.mem_of_getElem? h1))
    simp only at a1 a2
    rw [List.getElem?_eq_some_iff] at h1 h3
    obtain ⟨h1, -⟩ := h1
    obtain ⟨h3, -⟩ := h3
    refine ⟨a1, by omega, ?_⟩
    rw [h.len _ a1]; omega
  · intro b hb c hc o ho
    rw [h.len b hb] at ho
    have hm : (comp b its)[o] ∈ comp b its := List.getElem_mem ho
    obtain ⟨a1, a2⟩ := h.wid _ (mem_comp.mp hm)
    simp only at a1 a2
    refine ⟨⟨b, o, c, ((comp b its)[o])[c]'(by omega)⟩, ?_, rfl, rfl, rfl⟩
    rw [h.ws, mem_enc]
    exact ⟨o, (comp b its)[o], List.getElem?_eq_getElem ho, by simp, List.getElem?_eq_getElem _⟩
  · unfold Job.emitted
    rw [h.ws, h.len 0 hnb]
    refine enc_emitted its ?_ _
    intro vs hvs he
    have := (h.wid _ (mem_comp.mp hvs)).2
    simp only [he, List.length_nil] at this
    omega

/-- Contents of the shared memory for a row. -/
theorem Encodes.mem {cfg : Cfg} {j : Job} {its : List (Nat × List Int)} (h : Encodes cfg j its)
    {u0 : Nat → Nat} {mem0 : Nat → Nat → Nat → Int} {log : List Job} {s : St T}
    (hl : Laid cfg u0 mem0 log s) {i : Nat} (hj : log[i]? = some j) {b o c : Nat} {vs : List Int}
    {v : Int} (h1 : (comp b its)[o]? = some vs) (h2 : vs[c]? = some v) :
    s.mem b c (start u0 log b i + o) = v := by
  refine hl.mem i j ⟨b, o, c, v⟩ hj ?_
  rw [h.ws, mem_enc]
  exact ⟨o, vs, h1, by simp, h2⟩

/-- The item of buffer 0 storing an entry of a matrix. -/
def ent0 (e : Nat × Int) : List Int := [(e.1 : Int), e.2]

theorem _root_.Spasm.Csr.of_rows {B : Csr} {R : Nat → List (Nat × Int)} (hps : B.n < B.p.size)
    (hp : ∀ i, i ≤ B.n → B.p.g i = offs R i)
    (hent : ∀ i, i < B.n → ∀ o e, (R i)[o]? = some e → B.ent (offs R i + o) = e)
    (hsz : offs R B.n ≤ B.j.size)
    (hx : ∀ a, B.x = some a → offs R B.n ≤ a.size)
    (hm : ∀ i, i < B.n → ∀ e ∈ R i, e.1 < B.m)
    (hF : B.F.p < 0 ∨ (2 ≤ B.F.p ∧ B.F.p ≤ 0xfffffffb)) :
    B.WF ∧ ∀ i, i < B.n → B.row i = R i := by
  refine Csr.of_flat hps hp ?_ hsz hx hm hF
  have key : ∀ n, n ≤ B.n → B.seg 0 (offs R n) = flat R n := by
    intro n
    induction n with
    | zero => intro _; simp [offs, flat, Csr.seg_self]
    | succ n ih =>
      intro hn
      simp only [flat]
      rw [← ih (by omega)]
      have h1 : offs R n ≤ offs R (n + 1) := offs_mono R (by omega)
      rw [← B.seg_append (Nat.zero_le _) h1]
      congr 1
      refine List.ext_getElem? fun o => ?_
      unfold Csr.seg
      rw [List.getElem?_map]
      by_cases ho : o < (R n).length
      · rw [List.getElem?_range' (by simp only [offs]; omega), List.getElem?_eq_getElem ho]
        simp only [Option.map_some, Nat.one_mul]
        congr 1
        exact hent n (by omega) o _ (List.getElem?_eq_getElem ho)
      · rw [List.getElem?_eq_none (by simp [offs]; omega), List.getElem?_eq_none (by omega)]
        rfl
  exact key B.n (le_refl _)

/-- The matrix read from the shared memory has the rows of the log. -/
theorem Laid.toCsr {cfg : Cfg} {u0 : Nat → Nat} {mem0 : Nat → Nat → Nat → Int} {log : List Job}
    {s : St T} (hl : Laid cfg u0 mem0 log s) (hnb : 0 < cfg.nb) (hu0 : u0 0 = 0)
    (h0 : s.rowp.g 0 = 0) (hsz : log.length < s.rowp.size) {n m : Nat} {F : Field}
    (hn : log.length = n) (hF : F.p < 0 ∨ (2 ≤ F.p ∧ F.p ≤ 0xfffffffb))
    {R : Nat → List (Nat × Int)} {its : Nat → List (Nat × List Int)}
    (henc : ∀ i j, log[i]? = some j → Encodes cfg j (its i))
    (hR : ∀ i, i < n → comp 0 (its i) = (R i).map ent0)
    (hm : ∀ i, i < n → ∀ e ∈ R i, e.1 < m) :
    (s.toCsr n m F).WF ∧ (∀ i, i < n → (s.toCsr n m F).row i = R i) ∧
      s.rowp.g n = offs R n := by
  have hlen : ∀ i j, log[i]? = some j → j.len 0 = (R i).length := by
    intro i j hj
    have hi : i < n := by rw [List.getElem?_eq_some_iff] at hj; rw [← hn]; exact hj.1
    rw [(henc i j hj).len 0 hnb, hR i hi, List.length_map]
  have hstart : ∀ i, i ≤ n → start u0 log 0 i = offs R i := by
    intro i
    induction i with
    | zero => intro _; simp [start, offs, hu0]
    | succ i ih =>
      intro hi
      have hj : log[i]? = some (log[i]'(by omega)) := List.getElem?_eq_getElem _
      rw [start_succ hj, ih (by omega), hlen i _ hj]; rfl
  have hp : ∀ i, i ≤ n → s.rowp.g i = offs R i := by
    intro i hi
    cases i with
    | zero => exact h0
    | succ i => rw [hl.rowp i (by omega), hstart _ hi]
  have hcap : offs R n ≤ s.cap 0 := by
    have h1 := hl.used 0 hnb
    have h2 := hl.room 0 hnb
    rw [hn, hstart n (le_refl _)] at h1
    omega
  have := Csr.of_rows (B := s.toCsr n m F) (R := R) (by simp only [St.toCsr]; omega) hp ?_
    (by simpa [St.toCsr] using hcap) (by intro a ha; simp [St.toCsr] at ha; rw [← ha]; rw [size_mkArr]; exact hcap)
    hm hF
  · exact ⟨this.1, this.2, hp n (le_refl _)⟩
  · intro i hi o e he
    have hi' : i < n := hi
    have hj : log[i]? = some (log[i]'(by omega)) := List.getElem?_eq_getElem _
    have hc : (comp 0 (its i))[o]? = some (ent0 e) := by
      rw [hR i hi', List.getElem?_map, he]; rfl
    have ho : o < (R i).length := by rw [List.getElem?_eq_some_iff] at he; exact he.1
    have hle : offs R (i + 1) ≤ offs R n := offs_mono R hi'
    simp only [offs] at hle
    have h1 := (henc i _ hj).mem hl hj hc (c := 0) (v := e.1) rfl
    have h2 := (henc i _ hj).mem hl hj hc (c := 1) (v := e.2) rfl
    rw [hstart i (by omega)] at h1 h2
    unfold Csr.ent Csr.val St.toCsr
    simp only
    rw [g_mkArr _ _ _ (by omega), g_mkArr _ _ _ (by omega), h1, h2]
    simp

theorem sum_start {M : Type} [AddCommMonoid M] (F : Nat → M) {u0 : Nat → Nat} {log : List Job}
    {b : Nat} {len : Nat → Nat} (hlen : ∀ t j, log[t]? = some j → j.len b = len t) :
    ∀ i, i ≤ log.length → ∑ k ∈ range (start u0 log b i), F k =
      ∑ k ∈ range (u0 b), F k +
        ∑ t ∈ range i, ∑ o ∈ range (len t), F (start u0 log b t + o) := by
  intro i
  induction i with
  | zero => intro _; simp [start]
  | succ i ih =>
    intro hi
    have hj : log[i]? = some (log[i]'(by omega)) := List.getElem?_eq_getElem _
    rw [start_succ hj, hlen i _ hj, Finset.sum_range_add, ih (by omega), Finset.sum_range_succ,
      add_assoc]

theorem lt_start {u0 : Nat → Nat} {log : List Job} {b : Nat} {len : Nat → Nat}
    (hlen : ∀ t j, log[t]? = some j → j.len b = len t) :
    ∀ i, i ≤ log.length → ∀ k, k < start u0 log b i →
      k < u0 b ∨ ∃ t o, t < i ∧ o < len t ∧ k = start u0 log b t + o := by
  intro i
  induction i with
  | zero => intro _ k hk; left; simpa [start] using hk
  | succ i ih =>
    intro hi k hk
    have hj : log[i]? = some (log[i]'(by omega)) := List.getElem?_eq_getElem _
    rw [start_succ hj, hlen i _ hj] at hk
    rcases Nat.lt_or_ge k (start u0 log b i) with h | h
    · rcases ih (by omega) k h with h | ⟨t, o, h1, h2, h3⟩
      · exact .inl h
      · exact .inr ⟨t, o, by omega, h2, h3⟩
    · exact .inr ⟨i, k - start u0 log b i, by omega, by omega, by omega⟩

theorem getD_lt {α : Type} (l : List α) (d : α) {k : Nat} (h : k < l.length) :
    l.getD k d = l[k] := by
  rw [List.getD_eq_getElem?_getD, List.getElem?_eq_getElem h]; rfl

theorem sum_range_getD {α M : Type} [AddCommMonoid M] (f : α → M) (d : α) (l : List α) :
    ∑ o ∈ range l.length, f (l.getD o d) = (l.map f).sum := by
  induction l with
  | nil => rfl
  | cons a l ih =>
    rw [List.length_cons, Finset.sum_range_succ', List.map_cons, List.sum_cons, ← ih, add_comm]
    rfl

/-- The rows found in the shared memory are those of the threads, in some order. -/
theorem log_perm {α : Type} {P : α → Job → Prop} {rows : Fin T → List α} {jobs : Fin T → List Job}
    (h : ∀ t, List.Forall₂ P (rows t) (jobs t)) {log : List Job}
    (hlog : (log : Multiset Job) = ∑ t, (jobs t : Multiset Job)) :
    ∃ σ : List α, (σ : Multiset α) = ∑ t, (rows t : Multiset α) ∧ List.Forall₂ P σ log := by
  have key : ∀ S : Finset (Fin T), ∃ r : List α, ∃ l : List Job,
      (r : Multiset α) = ∑ t ∈ S, (rows t : Multiset α) ∧
      (l : Multiset Job) = ∑ t ∈ S, (jobs t : Multiset Job) ∧ List.Forall₂ P r l := by
    intro S
    induction S using Finset.induction_on with
    | empty => exact ⟨[], [], by simp, by simp, .nil⟩
    | insert a S ha ih =>
      obtain ⟨r, l, h1, h2, h3⟩ := ih
      refine ⟨rows a ++ r, jobs a ++ l, ?_, ?_, ?_⟩
      · rw [Finset.sum_insert ha, ← h1, Multiset.coe_add]
      · rw [Finset.sum_insert ha, ← h2, Multiset.coe_add]
      · exact List.rel_append (h a) h3
  obtain ⟨r, l, h1, h2, h3⟩ := key univ
  have hp : l.Perm log := by
    rw [← Multiset.coe_eq_coe, h2, hlog]
  have h4 : Relation.Comp (List.Forall₂ P) List.Perm r log := ⟨l, h3, hp⟩
  rw [List.forall₂_comp_perm_eq_perm_comp_forall₂] at h4
  obtain ⟨σ, h5, h6⟩ := h4
  exact ⟨σ, by rw [← h1, Multiset.coe_eq_coe]; exact h5.symm, h6⟩

end Spasm.Commit
