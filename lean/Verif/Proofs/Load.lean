import Verif.Proofs.Text
import Verif.Proofs.Triplet
import Verif.Proofs.WpE
import Verif.Proofs.Sha256
import Verif.Spec.Loaded

namespace Spasm

open Sha

/-! ### One entry -/

theorem Triplet.lst_eq {S T : Triplet} (h : S.nz = T.nz)
    (hs : ∀ t, t < T.nz → S.i.g t = T.i.g t ∧ S.j.g t = T.j.g t ∧ S.val t = T.val t) : S.lst = T.lst := by
  unfold Triplet.lst
  rw [h]
  refine List.map_congr_left fun t ht => ?_
  obtain ⟨h1, h2, h3⟩ := hs t (List.mem_range.mp ht)
  rw [h1, h2, h3]

theorem Triplet.lst_snoc {S T : Triplet} {i j : Nat} {v : Int} (h : S.nz = T.nz + 1)
    (hs : ∀ t, t < T.nz → S.i.g t = T.i.g t ∧ S.j.g t = T.j.g t ∧ S.val t = T.val t)
    (h1 : S.i.g T.nz = i) (h2 : S.j.g T.nz = j) (h3 : S.val T.nz = v) : S.lst = T.lst ++ [(i, j, v)] := by
  unfold Triplet.lst
  rw [h, List.range_succ, List.map_append, List.map_singleton, h1, h2, h3]
  congr 1
  refine List.map_congr_left fun t ht => ?_
  obtain ⟨h1, h2, h3⟩ := hs t (List.mem_range.mp ht)
  rw [h1, h2, h3]

/-- The exact effect of `spasm_add_entry`, with or without values. -/
theorem add_entry_exact (jk : Junk) {T : Triplet} {q : ℕ} (hT : T.WF) (hg : T.x.isSome = true → T.F.Good q)
    (i j : Nat) (x : Int) :
    Ok (add_entry jk T i j x) (fun S => S.WF ∧ S.F = T.F ∧ S.x.isSome = T.x.isSome ∧
      ((T.x.isSome = true ∧ (x : ZMod q) = 0 ∧ S.n = T.n ∧ S.m = T.m ∧ S.lst = T.lst) ∨
       (¬ (T.x.isSome = true ∧ (x : ZMod q) = 0) ∧ S.n = max T.n (i + 1) ∧ S.m = max T.m (j + 1) ∧
        ∃ v, (if T.x.isSome = true then Bal q v ∧ (v : ZMod q) = x else v = 1) ∧
          S.lst = T.lst ++ [(i, j, v)]))) := by
  unfold add_entry
  simp only [Ok_bind, Ok_cassert]
  refine ⟨by simp, ?_⟩
  have e1 : ((i : Int)).toNat = i := by omega
  have e2 : ((j : Int)).toNat = j := by omega
  have main : ∀ S : Triplet, S.WF → S.n = T.n → S.m = T.m → S.nz = T.nz → S.F = T.F →
      S.x.isSome = T.x.isSome → T.nz < S.i.size →
      (∀ t, t < T.nz → S.i.g t = T.i.g t ∧ S.j.g t = T.j.g t ∧ S.val t = T.val t) →
      Ok (match S.x with
        | some a => do
          let xp ← ZZp_init S.F x
          if xp = 0 then .ok S
          else do
            let a ← wr a T.nz xp
            (do
              let ti ← wr S.i T.nz (i : Int).toNat
              let tj ← wr S.j T.nz (j : Int).toNat
              .ok { S with x := some a, i := ti, j := tj, nz := S.nz + 1,
                           n := max S.n ((i : Int).toNat + 1),
                           m := max S.m ((j : Int).toNat + 1) } : C Triplet)
        | none => do
          let ti ← wr S.i T.nz (i : Int).toNat
          let tj ← wr S.j T.nz (j : Int).toNat
          .ok { S with i := ti, j := tj, nz := S.nz + 1, n := max S.n ((i : Int).toNat + 1),
                       m := max S.m ((j : Int).toNat + 1) })
      (fun S => S.WF ∧ S.F = T.F ∧ S.x.isSome = T.x.isSome ∧
      ((T.x.isSome = true ∧ (x : ZMod q) = 0 ∧ S.n = T.n ∧ S.m = T.m ∧ S.lst = T.lst) ∨
       (¬ (T.x.isSome = true ∧ (x : ZMod q) = 0) ∧ S.n = max T.n (i + 1) ∧ S.m = max T.m (j + 1) ∧
        ∃ v, (if T.x.isSome = true then Bal q v ∧ (v : ZMod q) = x else v = 1) ∧
          S.lst = T.lst ++ [(i, j, v)]))) := by
    intro S hS hn hm hz hF hx hsz hsame
    have hjs := hS.j_size
    have wf : ∀ X : Option (Array Int), (∀ b, X = some b → b.size = S.i.size) →
        ({ S with x := X, i := S.i.upd T.nz i, j := S.j.upd T.nz j, nz := S.nz + 1, n := max S.n (i + 1),
                  m := max S.m (j + 1) } : Triplet).WF := by
      intro X hX
      refine ⟨?_, ?_, ?_, ?_, ?_, hS.field_ok⟩
      · simp only [size_upd]; omega
      · simp only [size_upd]; omega
      · intro b hb; simp only [size_upd]; exact hX b hb
      · intro k hk
        simp only at hk ⊢
        by_cases he : k = T.nz
        · subst he; rw [g_upd_eq _ _ _ (by omega)]; omega
        · rw [g_upd_ne _ _ _ _ (by omega)]
          have := hS.i_lt k (by omega)
          omega
      · intro k hk
        simp only at hk ⊢
        by_cases he : k = T.nz
        · subst he; rw [g_upd_eq _ _ _ (by omega)]; omega
        · rw [g_upd_ne _ _ _ _ (by omega)]
          have := hS.j_lt k (by omega)
          omega
    cases ha : S.x with
    | none =>
      have hTn : T.x.isSome = false := by rw [← hx, ha]; rfl
      simp only [Ok_bind, Ok_wr, Ok_ok, e1, e2]
      refine ⟨by omega, by omega, ?_⟩
      refine ⟨?_, hF, ?_, .inr ⟨by simp [hTn], by rw [hn], by rw [hm], 1, by simp [hTn], ?_⟩⟩
      · exact wf none (by simp)
      · simp only [hTn]; rfl
      · refine Triplet.lst_snoc (by simp only; omega) ?_ ?_ ?_ ?_
        · intro t ht
          obtain ⟨h1, h2, h3⟩ := hsame t ht
          simp only
          rw [g_upd_ne _ _ _ _ (by omega), g_upd_ne _ _ _ _ (by omega)]
          refine ⟨h1, h2, ?_⟩
          rw [← h3]
          unfold Triplet.val
          simp only [ha]
        · simp only; rw [g_upd_eq _ _ _ (by omega)]
        · simp only; rw [g_upd_eq _ _ _ (by omega)]
        · rfl
    | some a =>
      have hTs : T.x.isSome = true := by rw [← hx, ha]; rfl
      have hG := hg hTs
      simp only [Ok_bind]
      refine init_zmod (by rw [hF]; exact hG) ?_
      intro r hr hrv
      have has := hS.x_size a ha
      by_cases h0 : r = 0
      · rw [if_pos h0, Ok_ok]
        refine ⟨hS, hF, hx, .inl ⟨hTs, by rw [← hrv, h0]; simp, hn, hm, Triplet.lst_eq hz hsame⟩⟩
      · rw [if_neg h0]
        simp only [Ok_bind, Ok_wr, Ok_ok, e1, e2]
        refine ⟨by omega, by omega, by omega, ?_⟩
        refine ⟨wf _ ?_, hF, by simp only [hTs]; rfl, .inr ⟨?_, by rw [hn], by rw [hm], r, ?_, ?_⟩⟩
        · intro b hb
          simp only [Option.some.injEq] at hb
          rw [← hb, size_upd]; omega
        · rintro ⟨-, h⟩
          rw [← hrv] at h
          exact h0 ((small_eq_zero_iff hG.two_le hr.small).mp h)
        · rw [if_pos hTs]; exact ⟨hr, hrv⟩
        · refine Triplet.lst_snoc (by simp only; omega) ?_ ?_ ?_ ?_
          · intro t ht
            obtain ⟨h1, h2, h3⟩ := hsame t ht
            simp only
            rw [g_upd_ne _ _ _ _ (by omega), g_upd_ne _ _ _ _ (by omega)]
            refine ⟨h1, h2, ?_⟩
            rw [← h3]
            unfold Triplet.val
            simp only [ha]
            rw [g_upd_ne _ _ _ _ (by omega)]
          · simp only; rw [g_upd_eq _ _ _ (by omega)]
          · simp only; rw [g_upd_eq _ _ _ (by omega)]
          · unfold Triplet.val; simp only; rw [g_upd_eq _ _ _ (by omega)]
  by_cases hc : T.nz = T.i.size
  · rw [if_pos hc, Ok_bind]
    refine (triplet_realloc_spec jk hT (k := 1 + 2 * (T.i.size : Int)) (by omega)).mono ?_
    rintro S ⟨h1, h2, h3, h4, h5, h6, h7, h8⟩
    exact main S h1 h2 h3 h4 h5 h6 (by omega) h8
  · rw [if_neg hc, Ok_bind, Ok_ok]
    have := hT.i_size
    exact main T hT rfl rfl rfl rfl rfl (by omega) (fun t _ => ⟨rfl, rfl, rfl⟩)

/-! ### Reading lines -/

/-- The hash context after the bytes of `done`. -/
def Hashed (done : List Char) (c : Ctx) : Prop :=
  ∀ f : Nat → B, (∀ i (h : i < done.length), f i = byte done[i]) → Rep f done.length c

def CtxOk (done : List Char) (ctx : Option Ctx) : Prop := ∀ c, ctx = some c → Hashed done c

theorem Hashed.init : Hashed [] SHA256_init := fun f _ => Rep.init f

theorem Hashed.update (jw : Nat → W) {done b : List Char} {c : Ctx} (h : Hashed done c) :
    Ok (SHA256_update jw c (b.map byte).toArray b.length) (Hashed (done ++ b)) := by
  have key : ∀ f : Nat → B, (∀ i (h : i < (done ++ b).length), f i = byte (done ++ b)[i]) →
      Ok (SHA256_update jw c (b.map byte).toArray b.length) (Rep f (done ++ b).length) := by
    intro f hf
    rw [List.length_append]
    refine update_spec jw f done.length c _ b.length (h f ?_) (by simp) ?_
    · intro i hi
      rw [hf i (by simp; omega), List.getElem_append_left hi]
    · intro i hi
      rw [hf (done.length + i) (by simp; omega), g_eq _ _ (by simpa using hi)]
      simp [List.getElem_append_right]
  obtain ⟨c', h1, -⟩ := Ok_iff.mp (key (fun i => if h : i < (done ++ b).length then byte (done ++ b)[i] else 0)
    (fun i hi => by rw [dif_pos hi]))
  rw [h1, Ok_ok]
  intro f hf
  have := key f hf
  rw [h1, Ok_ok] at this
  exact this

/-- Reading one line of any file. -/
theorem read_line_spec (jw : Nat → W) (f done : List Char) {ctx : Option Ctx} (hc : CtxOk done ctx) :
    WpE (fun e => e = .exitErr) (read_line jw f ctx) (fun r => (f = [] ∧ r = (none, f, ctx)) ∨
      ∃ l b, r.1 = some b ∧ f = l ++ r.2.1 ∧ b = cstr l ∧ b ≠ [] ∧ b.length ≤ 1023 ∧
        r.2.2.isSome = ctx.isSome ∧ CtxOk (done ++ b) r.2.2) := by
  unfold read_line
  by_cases hf : f.isEmpty = true
  · rw [if_pos hf, WpE_ok]
    exact .inl ⟨by simpa using hf, rfl⟩
  · rw [if_neg hf]
    obtain ⟨h1, h2⟩ := takeLine_spec 1023 f
    simp only
    by_cases h3 : (cstr (takeLine 1023 f).1).length = 0
    · rw [if_pos h3]; rfl
    · rw [if_neg h3]
      split
      · rfl
      · have hl : (cstr (takeLine 1023 f).1).length ≤ 1023 :=
          (List.takeWhile_prefix _).length_le.trans h2
        have hne : cstr (takeLine 1023 f).1 ≠ [] := fun h => h3 (by rw [h]; rfl)
        cases ctx with
        | none =>
          refine .inr ⟨_, _, rfl, h1.symm, rfl, hne, hl, rfl, ?_⟩
          intro c h; cases h
        | some c =>
          simp only
          rw [WpE_bind]
          refine (Hashed.update jw (hc c rfl)).wpe.mono ?_
          intro c' hc'
          refine .inr ⟨_, _, rfl, h1.symm, rfl, hne, hl, rfl, ?_⟩
          intro d h
          simp only [Option.some.injEq] at h
          rw [← h]; exact hc'

/-- Reading a short line. -/
theorem read_line_short (jw : Nat → W) {b : List Char} (hb : Short b) (s done : List Char) {ctx : Option Ctx}
    (hc : CtxOk done ctx) :
    Ok (read_line jw (b ++ '\n' :: s) ctx) (fun r => r.1 = some (b ++ ['\n']) ∧ r.2.1 = s ∧
      r.2.2.isSome = ctx.isSome ∧ CtxOk (done ++ (b ++ ['\n'])) r.2.2) := by
  unfold read_line
  rw [if_neg (by simp), takeLine_line 1023 b s (by have := hb.len; omega) hb.nonl]
  have e : cstr (b ++ ['\n']) = b ++ ['\n'] := by
    refine cstr_eq ?_
    intro c hc
    rcases List.mem_append.mp hc with h | h
    · exact hb.nonul c h
    · rw [List.mem_singleton.mp h]; decide
  simp only
  rw [e, if_neg (by simp), if_neg (by simp)]
  cases ctx with
  | none =>
    refine ⟨rfl, rfl, rfl, ?_⟩
    intro c h; cases h
  | some c =>
    simp only
    rw [Ok_bind]
    refine (Hashed.update jw (hc c rfl)).mono ?_
    intro c' hc'
    refine ⟨rfl, rfl, rfl, ?_⟩
    intro d h
    simp only [Option.some.injEq] at h
    rw [← h]; exact hc'

/-! ### Entries -/

/-- The matrix after the entries `l`. -/
structure LInv (vals : Bool) (q : ℕ) (F : Field) (n m : Int) (l : List (Int × Int × Int)) (T : Triplet) : Prop
    extends Loaded vals q n m l T where
  field : T.F = F
  isSome : T.x.isSome = vals

theorem kept_iff {vals : Bool} {q : ℕ} {e : Int × Int × Int} :
    kept vals q e = true ↔ ¬ (vals = true ∧ (e.2.2 : ZMod q) = 0) := by
  unfold kept
  cases vals <;> simp

theorem LInv.add (jk : Junk) {vals : Bool} {q : ℕ} {F : Field} {n m : Int} {l : List (Int × Int × Int)}
    {T : Triplet} (h : LInv vals q F n m l T) (hF : vals = true → F.Good q) {e : Int × Int × Int}
    {i j : Nat} (hi : (i : Int) + 1 = e.1) (hj : (j : Int) + 1 = e.2.1) :
    Ok (add_entry jk T i j e.2.2) (LInv vals q F n m (l ++ [e])) := by
  refine (add_entry_exact jk h.wf (q := q) (fun hx => by rw [h.field]; exact hF (h.isSome ▸ hx)) i j e.2.2).mono ?_
  rintro S ⟨h1, h2, h3, h4⟩
  rw [h.isSome] at h3 h4
  have hn := h.n_eq
  have hm := h.m_eq
  rcases h4 with ⟨a1, a2, a3, a4, a5⟩ | ⟨a1, a3, a4, v, a5, a6⟩
  · have hk : (l ++ [e]).filter (kept vals q) = l.filter (kept vals q) := by
      have : kept vals q e = false := by
        rw [← Bool.not_eq_true, kept_iff]; exact fun h => h ⟨a1, a2⟩
      simp [List.filter_append, this]
    exact ⟨⟨h1, by rw [hk, a3, hn], by rw [hk, a4, hm], by rw [hk, a5]; exact h.lst⟩, h2.trans h.field, h3⟩
  · have hk : (l ++ [e]).filter (kept vals q) = l.filter (kept vals q) ++ [e] := by
      simp [List.filter_append, kept_iff.mpr a1]
    refine ⟨⟨h1, ?_, ?_, ?_⟩, h2.trans h.field, h3⟩
    · rw [hk, List.foldl_append, List.foldl_cons, List.foldl_nil, ← hn, a3]; omega
    · rw [hk, List.foldl_append, List.foldl_cons, List.foldl_nil, ← hm, a4]; omega
    · rw [hk, a6]
      exact List.rel_append h.lst (.cons ⟨hi, hj, a5⟩ .nil)

/-- An entry that fits in the types of the program. -/
structure FitsEntry (e : Int × Int × Int) : Prop where
  i_pos : 1 ≤ e.1
  i_lt : e.1 < 2 ^ 31
  j_pos : 1 ≤ e.2.1
  j_lt : e.2.1 < 2 ^ 31
  x_ge : -2 ^ 63 ≤ e.2.2
  x_lt : e.2.2 < 2 ^ 63

theorem load_line_entry (jk : Junk) {vals : Bool} {q : ℕ} {F : Field} {n m : Int} {l : List (Int × Int × Int)}
    {s : LoadSt} (h : LInv vals q F n m l s.T) (hF : vals = true → F.Good q) (hd : Header) {e : Int × Int × Int}
    (he : FitsEntry e) {b : List Char} (hb : EntryLine b e) (f : List Char) (ctx : Option Ctx) :
    Ok (load_line jk hd (b ++ ['\n']) f ctx s) (fun s' => LInv vals q F n m (l ++ [e]) s'.T ∧ s'.f = f ∧
      s'.ctx = ctx ∧ s'.fin = (hd.mm && decide (((s.entries + 1 : Nat) : Int) = hd.nnz)) ∧
      s'.entries = s.entries + 1) := by
  unfold load_line
  rw [scan3_entry hb ⟨by have := he.i_pos; omega, he.i_lt⟩ ⟨by have := he.j_pos; omega, he.j_lt⟩
    ⟨he.x_ge, he.x_lt⟩, Ok_bind, Ok_ok]
  obtain ⟨i, j, x⟩ := e
  have h1 := he.i_pos
  have h2 := he.i_lt
  have h3 := he.j_pos
  have h4 := he.j_lt
  simp only at h1 h2 h3 h4 ⊢
  rw [if_neg (by omega), Ok_bind, Ok_i32]
  refine ⟨⟨by omega, by omega⟩, ?_⟩
  rw [Ok_bind, Ok_i32]
  refine ⟨⟨by omega, by omega⟩, ?_⟩
  rw [Ok_bind]
  have := h.add jk hF (e := (i, j, x)) (i := (i - 1).toNat) (j := (j - 1).toNat) (by simp only; omega)
    (by simp only; omega)
  rw [show (((i - 1).toNat : Nat) : Int) = i - 1 by omega, show (((j - 1).toNat : Nat) : Int) = j - 1 by omega] at this
  refine this.mono ?_
  intro T hT
  exact ⟨hT, rfl, rfl, rfl, rfl⟩

theorem Ok_whileFuel_succ {σ : Type} {f : σ → C (Step σ)} {k : Nat} {s : σ} {Q : σ → Prop} (hk : 0 < k)
    (h : Ok (f s) (fun r => match r with | .cont s' => Ok (whileFuel (k - 1) s' f) Q | .brk s' => Q s')) :
    Ok (whileFuel k s f) Q := by
  obtain ⟨k, rfl⟩ : ∃ j, k = j + 1 := ⟨k - 1, by omega⟩
  rw [whileFuel, Ok_bind]
  refine h.mono ?_
  rintro (s' | s') h'
  · exact h'
  · exact h'

/-- The entries are read. -/
theorem load_entries (jk : Junk) (jw : Nat → W) {vals : Bool} {q : ℕ} {F : Field} {n m : Int} (hd : Header)
    (hF : vals = true → F.Good q) {Q : LoadSt → Prop} (rest : List Char) {tl : List (List Char)}
    {l : List (Int × Int × Int)} (hl : List.Forall₂ EntryLine tl l) (hfit : ∀ e ∈ l, FitsEntry e) :
    ∀ (l0 : List (Int × Int × Int)) (s : LoadSt) (fuel : Nat) (done : List Char), tl.length ≤ fuel →
      LInv vals q F n m l0 s.T → s.f = unlines tl ++ rest → s.fin = false → CtxOk done s.ctx →
      (hd.mm = true → ((s.entries + l.length : Nat) : Int) ≤ hd.nnz) →
      (∀ s' done', LInv vals q F n m (l0 ++ l) s'.T → s'.f = rest → s'.entries = s.entries + l.length →
        s'.fin = (hd.mm && decide (l ≠ []) && decide ((s'.entries : Int) = hd.nnz)) → CtxOk done' s'.ctx →
        s'.ctx.isSome = s.ctx.isSome →
        Ok (whileFuel (fuel - tl.length) s' fun s => load_step jk jw hd s) Q) →
      Ok (whileFuel fuel s fun s => load_step jk jw hd s) Q := by
  induction hl with
  | nil =>
    intro l0 s fuel done _ hT hf hfin hc _ hQ
    refine hQ s done (by rwa [List.append_nil]) (by rw [hf]; rfl) rfl (by simp [hfin]) hc rfl
  | @cons b e tl l hb hl ih =>
    intro l0 s fuel done hfuel hT hf hfin hc hmm hQ
    simp only [List.length_cons] at hfuel hmm
    refine Ok_whileFuel_succ (by omega) ?_
    unfold load_step
    rw [Ok_bind, hf, unlines_cons, List.append_assoc, List.cons_append]
    refine (read_line_short jw hb.1 _ done hc).mono ?_
    rintro ⟨x, f', ctx'⟩ ⟨h1, h2, h3, h4⟩
    simp only at h1 h2 h3 h4
    subst h1 h2
    simp only
    rw [if_neg (by simp [hfin]), Ok_bind]
    refine (load_line_entry jk hT hF hd (hfit e (by simp)) hb _ _).mono ?_
    rintro s' ⟨a1, a2, a3, a4, a5⟩
    simp only [Ok_ok]
    have hfin' : l ≠ [] → s'.fin = false := by
      intro hne
      rw [a4]
      by_cases hm : hd.mm = true
      · have := hmm hm
        have hpos : 0 < l.length := List.length_pos_iff.mpr hne
        rw [hm]; simp; omega
      · simp [hm]
    by_cases hne : l = []
    · subst hne
      have : tl = [] := by cases hl; rfl
      subst this
      refine hQ s' _ a1 (by rw [a2]; rfl) (by rw [a5]; rfl) ?_ (by rw [a3]; exact h4) (by rw [a3, h3])
      rw [a4, a5]; simp
    · refine ih (fun e he => hfit e (by simp [he])) (l0 ++ [e]) s' (fuel - 1) _ (by omega) a1 a2 (hfin' hne)
        (by rw [a3]; exact h4) (fun hm => by have := hmm hm; rw [a5]; omega) ?_
      intro s'' done'' b1 b2 b3 b4 b5 b6
      rw [show fuel - 1 - tl.length = fuel - (b :: tl).length by simp; omega]
      refine hQ s'' done'' (by simpa using b1) b2 (by rw [b3, a5]; simp; omega) (by rw [b4]; simp [hne]) b5
        (by rw [b6, a3, h3])

/-- What follows the end is ignored. -/
theorem load_garbage (jk : Junk) (jw : Nat → W) (hd : Header) :
    ∀ (g : List (List Char)), (∀ b ∈ g, Short b) → ∀ (s : LoadSt) (fuel : Nat) (done : List Char),
      g.length < fuel → s.f = unlines g → s.fin = true → CtxOk done s.ctx →
      Ok (whileFuel fuel s fun s => load_step jk jw hd s) (fun s' => s'.T = s.T ∧
        s'.ctx.isSome = s.ctx.isSome ∧ ∃ done', CtxOk done' s'.ctx) := by
  intro g
  induction g with
  | nil =>
    intro _ s fuel done hfuel hf hfin hc
    refine Ok_whileFuel_succ (by simpa using hfuel) ?_
    unfold load_step read_line
    rw [hf, if_pos (by rfl)]
    simp only [Ok_bind, Ok_ok, hfin, if_true]
    exact ⟨trivial, trivial, done, hc⟩
  | cons b g ih =>
    intro hg s fuel done hfuel hf hfin hc
    simp only [List.length_cons] at hfuel
    refine Ok_whileFuel_succ (by omega) ?_
    unfold load_step
    rw [Ok_bind, hf, unlines_cons]
    refine (read_line_short jw (hg b (by simp)) _ done hc).mono ?_
    rintro ⟨x, f', ctx'⟩ ⟨h1, h2, h3, h4⟩
    simp only at h1 h2 h3 h4
    subst h1 h2
    simp only [hfin, if_true, Ok_ok]
    refine (ih (fun b hb => hg b (by simp [hb])) ⟨s.T, unlines g, ctx', true, s.entries⟩ (fuel - 1) _ (by omega) rfl rfl h4).mono ?_
    rintro s' ⟨c1, c2, c3⟩
    exact ⟨c1, c2.trans h3, c3⟩

/-! ### The end -/

theorem load_end_spec (jk : Junk) (jw : Nat → W) {vals : Bool} {q : ℕ} {F : Field} {n m : Int}
    {l : List (Int × Int × Int)} (hd : Header) {s : LoadSt} (hT : LInv vals q F n m l s.T) {done : List Char}
    (hc : CtxOk done s.ctx) {hash : Option (Array B)} (hh : ∀ md, hash = some md → md.size = 32) :
    Ok (load_end jk jw hd s hash) (fun r => Loaded vals q n m l r.1 ∧ r.1.F = F ∧
      (0 < r.1.nz → r.1.x.isSome = vals)) := by
  unfold load_end
  rw [Ok_bind]
  have h1 : Ok (load_trim jk hd.mm s.T) (fun T => Loaded vals q n m l T ∧ T.F = F ∧
      (0 < T.nz → T.x.isSome = vals)) := by
    unfold load_trim
    split
    · exact ⟨hT.toLoaded, hT.field, fun _ => hT.isSome⟩
    · unfold triplet_realloc
      rw [if_pos (by decide)]
      simp only [Ok_ok]
      have hw := hT.wf
      have a1 := hw.i_size
      have a2 := hw.j_size
      have hi : ∀ t, t < s.T.nz → (reallocArr s.T.i s.T.nz jk.nat).g t = s.T.i.g t := by
        intro t ht; rw [g_reallocArr _ _ _ _ (by omega) (by omega)]
      have hj : ∀ t, t < s.T.nz → (reallocArr s.T.j s.T.nz jk.nat).g t = s.T.j.g t := by
        intro t ht; rw [g_reallocArr _ _ _ _ (by omega) (by omega)]
      refine ⟨⟨⟨?_, by simp, ?_, ?_, ?_, hw.field_ok⟩, hT.n_eq, hT.m_eq, ?_⟩, hT.field, ?_⟩
      · simp
      · intro a ha
        split at ha
        · cases ha
        · simp only [Option.map_eq_some_iff] at ha
          obtain ⟨b, -, rfl⟩ := ha
          simp
      · intro t ht; simp only at ht ⊢; rw [hi t ht]; exact hw.i_lt t ht
      · intro t ht; simp only at ht ⊢; rw [hj t ht]; exact hw.j_lt t ht
      · have key : ∀ S : Triplet, S.nz = s.T.nz →
            (∀ t, t < s.T.nz → S.i.g t = s.T.i.g t ∧ S.j.g t = s.T.j.g t ∧ S.val t = s.T.val t) →
            List.Forall₂ (Stored vals q) (l.filter (kept vals q)) S.lst := fun S h1 h2 => by
          rw [Triplet.lst_eq h1 h2]; exact hT.lst
        refine key _ rfl ?_
        intro t ht
        refine ⟨hi t ht, hj t ht, ?_⟩
        unfold Triplet.val
        rw [if_neg (by rintro ⟨h, -⟩; omega)]
        cases hx : s.T.x with
        | none => rfl
        | some a =>
          simp only [Option.map_some]
          rw [g_reallocArr _ _ _ _ (by omega) (by rw [hw.x_size a hx]; omega)]
      · intro h0
        have h0 : 0 < s.T.nz := h0
        rw [if_neg (by rintro ⟨h, -⟩; omega), Option.isSome_map, hT.isSome]
  refine h1.mono ?_
  intro T hT'
  cases hs : s.ctx with
  | none => exact hT'
  | some c =>
    cases hash with
    | none => exact hT'
    | some md =>
      simp only
      rw [Ok_bind]
      refine (final_spec jw md (done.map byte) c (hh md rfl) ?_).mono ?_
      · have := hc c hs (fun i => (Fips.pad (done.map byte)).getD i 0) ?_
        · simpa using this
        · intro i hi
          rw [pad_lt _ _ (by simpa using hi)]
          simp [hi]
      · intro r _
        exact hT'

end Spasm
