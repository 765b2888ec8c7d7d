import Verif.Spec.Scc
import Verif.Proofs.Csr
import Mathlib.Tactic.Linarith

namespace Spasm

open Relation

/-- Rule for `whileFuel` with a ghost bound. -/
theorem Ok_whileFuel' {σ : Type} {I : Nat → σ → Prop} {Q : σ → Prop} {f : σ → C (Step σ)}
    (hs : ∀ b s, I b s →
      Ok (f s) (fun r => match r with | .cont s' => ∃ b', b' < b ∧ I b' s' | .brk s' => Q s')) :
    ∀ (k b : Nat) (s : σ), I b s → b < k → Ok (whileFuel k s f) Q := by
  intro k
  induction k with
  | zero => intro b s _ h; omega
  | succ k ih =>
    intro b s hI hk
    rw [whileFuel]
    refine Ok.bind (hs b s hI) ?_
    intro r hr
    cases r with
    | cont s' =>
      obtain ⟨b', h1, h2⟩ := hr
      exact ih b' s' h2 (by omega)
    | brk s' => exact hr

/-- Node `v` is on the stack. -/
def Scc.On (s : Scc) (v : Nat) : Prop := ∃ t, t < s.top ∧ s.stack.g t = v

/-- Node `v` belongs to a finished component. -/
def Scc.Em (s : Scc) (v : Nat) : Prop := ∃ t, t < s.ptop ∧ s.p.g t = v

/-- The chain of predecessors. -/
def PrevChain (prev : Array Int) : List Nat → Prop
  | [] => True
  | [a] => prev.g a = -1
  | a :: b :: l => prev.g a = (b : Int) ∧ PrevChain prev (b :: l)

/-- The edge from `v` to `w` has been examined. -/
def Exam (A : Csr) (path : List Nat) (ps : Array Nat) (v w : Nat) : Prop :=
  ∃ k, A.p.g v + k < A.p.g (v + 1) ∧ (v ∈ path → k < ps.g v) ∧ A.j.g (A.p.g v + k) = w

structure SccInv (A : Csr) (path : List Nat) (ps : Array Nat) (s : Scc) : Prop where
  p_size : s.p.size = A.n
  ps_size : ps.size = A.n
  marks_size : s.marks.size = A.n
  prev_size : s.prev.size = A.n
  stack_size : s.stack.size = A.n
  low_size : s.low.size = A.n
  rr_size : A.n < s.rr.size
  st_lt : ∀ t, t < s.top → s.stack.g t < A.n
  st_vis : ∀ t, t < s.top → 0 ≤ s.marks.g (s.stack.g t)
  ord : ∀ t u, t < u → u < s.top → s.marks.g (s.stack.g t) < s.marks.g (s.stack.g u)
  em_lt : ∀ t, t < s.ptop → s.p.g t < A.n
  em_vis : ∀ t, t < s.ptop → 0 ≤ s.marks.g (s.p.g t)
  em_low : ∀ t, t < s.ptop → s.low.g (s.p.g t) = A.n
  em_inj : ∀ t u, t < u → u < s.ptop → s.p.g t ≠ s.p.g u
  disj : ∀ t u, t < s.top → u < s.ptop → s.stack.g t ≠ s.p.g u
  vis : ∀ v, v < A.n → 0 ≤ s.marks.g v → s.On v ∨ s.Em v
  idx : ∀ v, v < A.n → s.marks.g v < s.index
  total : s.top + s.ptop = s.index
  unvis : ∀ v, v < A.n → s.marks.g v < 0 → ps.g v = 0 ∧ s.prev.g v = -1
  ps_le : ∀ v, v < A.n → A.p.g v + ps.g v ≤ A.p.g (v + 1)
  path_on : ∀ c, c ∈ path → s.On c
  path_dec : path.Pairwise fun a b => s.marks.g b < s.marks.g a
  chain : PrevChain s.prev path
  reach : ∀ t u, t ≤ u → u < s.top → Path A (s.stack.g t) (s.stack.g u)
  gray : ∀ v, s.On v → ∃ c, c ∈ path ∧ s.marks.g c ≤ s.marks.g v ∧ Path A v c
  low_le : ∀ v, s.On v → s.low.g v ≤ s.marks.g v
  low_wit : ∀ v, s.On v → ∃ w, s.On w ∧ s.low.g v = s.marks.g w ∧ Path A v w
  exam : ∀ v w, v < A.n → 0 ≤ s.marks.g v → Exam A path ps v w → 0 ≤ s.marks.g w
  seg : ∀ v w, s.On v → Exam A path ps v w → s.On w → ∃ c, c ∈ path ∧
    s.marks.g c ≤ s.marks.g v ∧
    (∀ d, d ∈ path → s.marks.g d ≤ s.marks.g v → s.marks.g d ≤ s.marks.g c) ∧
    s.low.g c ≤ s.marks.g w
  rr_zero : s.rr.g 0 = 0
  rr_last : s.rr.g s.nscc = s.ptop
  rr_lt : ∀ b, b < s.nscc → s.rr.g b < s.rr.g (b + 1)
  nscc_le : s.nscc ≤ s.ptop
  block_conn : ∀ b, b < s.nscc → ∀ t u : Nat, s.rr.g b ≤ t → t < s.rr.g (b + 1) →
    s.rr.g b ≤ u → u < s.rr.g (b + 1) → Path A (s.p.g t) (s.p.g u)
  block_edge : ∀ b, b < s.nscc → ∀ t : Nat, t < s.rr.g (b + 1) → ∀ w, A.InRow (s.p.g t) w →
    ∃ u : Nat, u < s.rr.g (b + 1) ∧ s.p.g u = w

namespace SccInv

variable {A : Csr} {path : List Nat} {ps : Array Nat} {s : Scc}

theorem on_lt (h : SccInv A path ps s) {v : Nat} (hv : s.On v) : v < A.n := by
  obtain ⟨t, ht, rfl⟩ := hv; exact h.st_lt t ht

theorem on_vis (h : SccInv A path ps s) {v : Nat} (hv : s.On v) : 0 ≤ s.marks.g v := by
  obtain ⟨t, ht, rfl⟩ := hv; exact h.st_vis t ht

/-- Positions on the stack are ordered as marks. -/
theorem pos_le (h : SccInv A path ps s) {t u : Nat} (ht : t < s.top)
    (hm : s.marks.g (s.stack.g t) ≤ s.marks.g (s.stack.g u)) : t ≤ u := by
  by_contra hn
  have := h.ord u t (by omega) ht
  omega

theorem on_reach (h : SccInv A path ps s) {v w : Nat} (hv : s.On v) (hw : s.On w)
    (hm : s.marks.g v ≤ s.marks.g w) : Path A v w := by
  obtain ⟨t, ht, rfl⟩ := hv
  obtain ⟨u, hu, rfl⟩ := hw
  exact h.reach t u (h.pos_le ht hm) hu

theorem on_inj (h : SccInv A path ps s) {v w : Nat} (hv : s.On v) (hw : s.On w)
    (hm : s.marks.g v = s.marks.g w) : v = w := by
  obtain ⟨t, ht, rfl⟩ := hv
  obtain ⟨u, hu, rfl⟩ := hw
  rw [show t = u from le_antisymm (h.pos_le ht hm.le) (h.pos_le hu hm.ge)]

theorem on_not_em (h : SccInv A path ps s) {v : Nat} (hv : s.On v) : ¬ s.Em v := by
  obtain ⟨t, ht, rfl⟩ := hv
  rintro ⟨u, hu, he⟩
  exact h.disj t u ht hu he.symm

/-- Nodes seen are distinct, so there are at most `n`, less if some node has not been seen. -/
theorem count (h : SccInv A path ps s) : s.index ≤ A.n ∧
    ∀ k, k < A.n → s.marks.g k < 0 → s.index < A.n := by
  let f : Nat → Nat := fun t => if t < s.top then s.stack.g t else s.p.g (t - s.top)
  have hinj : ∀ t u, t < s.index → u < s.index → f t = f u → t = u := by
    intro t u ht hu
    have := h.total
    simp only [f]
    split <;> split <;> intro he
    · rcases Nat.lt_trichotomy t u with hlt | hlt | hlt
      · have := h.ord t u hlt (by omega); rw [he] at this; omega
      · exact hlt
      · have := h.ord u t hlt (by omega); rw [he] at this; omega
    · exact absurd he (h.disj t _ (by omega) (by omega))
    · exact absurd he.symm (h.disj u _ (by omega) (by omega))
    · rcases Nat.lt_trichotomy t u with hlt | hlt | hlt
      · exact absurd he (h.em_inj _ _ (by omega) (by omega))
      · exact hlt
      · exact absurd he.symm (h.em_inj _ _ (by omega) (by omega))
  have hmap : ∀ t, t < s.index → f t < A.n ∧ 0 ≤ s.marks.g (f t) := by
    intro t ht
    have := h.total
    simp only [f]
    split
    · exact ⟨h.st_lt _ (by omega), h.st_vis _ (by omega)⟩
    · exact ⟨h.em_lt _ (by omega), h.em_vis _ (by omega)⟩
  constructor
  · have := Finset.card_le_card_of_injOn (s := Finset.range s.index) (t := Finset.range A.n) f
      (fun t ht => by simpa using (hmap t (by simpa using ht)).1)
      (fun t ht u hu he => hinj t u (by simpa using ht) (by simpa using hu) he)
    simpa using this
  · intro k hk hm
    have := Finset.card_le_card_of_injOn (s := Finset.range s.index)
      (t := (Finset.range A.n).erase k) f
      (fun t ht => by
        have := hmap t (by simpa using ht)
        simp only [Finset.coe_erase, Finset.coe_range, Set.mem_sdiff, Set.mem_Iio,
          Set.mem_singleton_iff]
        refine ⟨this.1, fun he => ?_⟩
        rw [he] at this; omega)
      (fun t ht u hu he => hinj t u (by simpa using ht) (by simpa using hu) he)
    rw [Finset.card_erase_of_mem (by simpa using hk)] at this
    simp only [Finset.card_range] at this
    omega

theorem low_lt (h : SccInv A path ps s) {v : Nat} (hv : s.On v) : s.low.g v < A.n := by
  have h1 := h.low_le v hv
  have h2 := h.idx v (h.on_lt hv)
  have h3 := h.count.1
  omega

/-- Without a path, the stack is empty. -/
theorem top_zero (h : SccInv A [] ps s) : s.top = 0 := by
  by_contra hn
  obtain ⟨c, hc, -⟩ := h.gray (s.stack.g 0) ⟨0, by omega, rfl⟩
  cases hc

/-- Lowering the low link of a node of the path. -/
theorem setlow (h : SccInv A path ps s) {c : Nat} {x : Int} (hc : c ∈ path) (hx : x ≤ s.low.g c)
    (hw : ∃ w, s.On w ∧ x = s.marks.g w ∧ Path A c w) :
    SccInv A path ps { s with low := s.low.upd c x } := by
  have hcn : c < s.low.size := by rw [h.low_size]; exact h.on_lt (h.path_on c hc)
  have hle : ∀ v, (s.low.upd c x).g v ≤ s.low.g v := by
    intro v
    by_cases he : v = c
    · rw [he, g_upd_eq _ _ _ hcn]; exact hx
    · rw [g_upd_ne _ _ _ _ he]
  have hne : ∀ t, t < s.ptop → s.p.g t ≠ c := by
    intro t ht he
    exact h.on_not_em (h.path_on c hc) ⟨t, ht, he⟩
  refine { h with low_size := by simpa using h.low_size, em_low := ?_, low_le := ?_, low_wit := ?_,
                  seg := ?_ }
  · intro t ht
    show (s.low.upd c x).g _ = _
    rw [g_upd_ne _ _ _ _ (hne t ht)]; exact h.em_low t ht
  · intro v hv
    exact le_trans (hle v) (h.low_le v hv)
  · intro v hv
    by_cases he : v = c
    · subst he
      obtain ⟨w, h1, h2, h3⟩ := hw
      exact ⟨w, h1, by show (s.low.upd v x).g v = _; rw [g_upd_eq _ _ _ hcn]; exact h2, h3⟩
    · obtain ⟨w, h1, h2, h3⟩ := h.low_wit v hv
      exact ⟨w, h1, by show (s.low.upd c x).g v = _; rw [g_upd_ne _ _ _ _ he]; exact h2, h3⟩
  · intro v w hv he hw'
    obtain ⟨d, h1, h2, h3, h4⟩ := h.seg v w hv he hw'
    exact ⟨d, h1, h2, h3, le_trans (hle d) h4⟩

/-- Changing `pstack` for nodes which are finished. -/
theorem setps (h : SccInv A path ps s) {ps' : Array Nat} (hs : ps'.size = A.n)
    (hle : ∀ v, v < A.n → A.p.g v + ps'.g v ≤ A.p.g (v + 1))
    (hu : ∀ v, v < A.n → s.marks.g v < 0 → ps'.g v = ps.g v)
    (hp : ∀ v, v ∈ path → ps'.g v = ps.g v) :
    SccInv A path ps' s := by
  have hE : ∀ v w, Exam A path ps' v w → Exam A path ps v w := by
    rintro v w ⟨k, h1, h2, h3⟩
    exact ⟨k, h1, fun hv => by rw [← hp v hv]; exact h2 hv, h3⟩
  refine { h with ps_size := hs, unvis := ?_, ps_le := hle, exam := ?_, seg := ?_ }
  · intro v hv hm
    obtain ⟨h1, h2⟩ := h.unvis v hv hm
    exact ⟨by rw [← h1]; exact hu v hv hm, h2⟩
  · intro v w h1 h2 h3
    exact h.exam v w h1 h2 (hE v w h3)
  · intro v w h1 h2 h3
    exact h.seg v w h1 (hE v w h2) h3

/-- One more edge of a node of the path is examined. -/
theorem advance (h : SccInv A path ps s) {c x : Nat} (hc : c ∈ path) (hx : x = ps.g c)
    (hlt : A.p.g c + x < A.p.g (c + 1)) (hv : 0 ≤ s.marks.g (A.j.g (A.p.g c + x)))
    (hlow : s.On (A.j.g (A.p.g c + x)) → s.low.g c ≤ s.marks.g (A.j.g (A.p.g c + x))) :
    SccInv A path (ps.upd c (x + 1)) s := by
  have hcn := h.on_lt (h.path_on c hc)
  have hcs : c < ps.size := by rw [h.ps_size]; exact hcn
  have hE : ∀ v w, Exam A path (ps.upd c (x + 1)) v w → Exam A path ps v w ∨
      (v = c ∧ w = A.j.g (A.p.g c + x)) := by
    rintro v w ⟨k, h1, h2, h3⟩
    by_cases he : v = c
    · subst he
      have := h2 hc
      rw [g_upd_eq _ _ _ hcs] at this
      by_cases hk : k = x
      · right; exact ⟨rfl, by rw [← h3, hk]⟩
      · left; exact ⟨k, h1, fun _ => by omega, h3⟩
    · left
      exact ⟨k, h1, fun hv => by rw [← g_upd_ne _ _ _ _ he]; exact h2 hv, h3⟩
  refine { h with ps_size := by simpa using h.ps_size, unvis := ?_, ps_le := ?_, exam := ?_,
                  seg := ?_ }
  · intro v h1 h2
    have hne : v ≠ c := by
      intro he; rw [he] at h2
      have := h.on_vis (h.path_on c hc)
      omega
    show (ps.upd c (x + 1)).g v = _ ∧ _
    rw [g_upd_ne _ _ _ _ hne]
    exact h.unvis v h1 h2
  · intro v h1
    show A.p.g v + (ps.upd c (x + 1)).g v ≤ _
    by_cases he : v = c
    · subst he; rw [g_upd_eq _ _ _ hcs]; omega
    · rw [g_upd_ne _ _ _ _ he]; exact h.ps_le v h1
  · intro v w h1 h2 h3
    rcases hE v w h3 with h4 | ⟨h4, h5⟩
    · exact h.exam v w h1 h2 h4
    · rw [h5]; exact hv
  · intro v w h1 h2 h3
    rcases hE v w h2 with h4 | ⟨h4, h5⟩
    · exact h.seg v w h1 h4 h3
    · subst h4
      refine ⟨v, hc, le_refl _, fun d _ hd => hd, ?_⟩
      rw [h5]; rw [h5] at h3; exact hlow h3

/-- State after `k` is pushed and initialised. -/
def pushed (s : Scc) (k : Nat) (pr : Array Int) : Scc :=
  { s with stack := s.stack.upd s.top k, top := s.top + 1, prev := pr,
           low := s.low.upd k s.index, marks := s.marks.upd k s.index, index := s.index + 1 }

/-- An unvisited node is pushed. -/
theorem push (h : SccInv A path ps s) {k : Nat} {pr : Array Int} (hk : k < A.n)
    (hm : s.marks.g k < 0) (hr : ∀ c, c ∈ path → Path A c k) (hps : pr.size = A.n)
    (hpr : ∀ v, v ≠ k → pr.g v = s.prev.g v) (hch : PrevChain pr (k :: path)) :
    SccInv A (k :: path) ps (pushed s k pr) := by
  have hcnt := h.count.2 k hk hm
  have htot := h.total
  have hms : k < s.marks.size := by rw [h.marks_size]; exact hk
  have hls : k < s.low.size := by rw [h.low_size]; exact hk
  have hss : s.top < s.stack.size := by rw [h.stack_size]; omega
  have mk_self : (pushed s k pr).marks.g k = s.index := g_upd_eq _ _ _ hms
  have mk_ne : ∀ v, v ≠ k → (pushed s k pr).marks.g v = s.marks.g v :=
    fun v hv => g_upd_ne _ _ _ _ hv
  have lw_self : (pushed s k pr).low.g k = s.index := g_upd_eq _ _ _ hls
  have lw_ne : ∀ v, v ≠ k → (pushed s k pr).low.g v = s.low.g v :=
    fun v hv => g_upd_ne _ _ _ _ hv
  have st_top : (pushed s k pr).stack.g s.top = k := g_upd_eq _ _ _ hss
  have st_ne : ∀ t, t ≠ s.top → (pushed s k pr).stack.g t = s.stack.g t :=
    fun t ht => g_upd_ne _ _ _ _ ht
  have htop : (pushed s k pr).top = s.top + 1 := rfl
  have hst_ne : ∀ t, t < s.top → s.stack.g t ≠ k := by
    intro t ht he
    have := h.st_vis t ht
    rw [he] at this; omega
  have hem_ne : ∀ t, t < s.ptop → s.p.g t ≠ k := by
    intro t ht he
    have := h.em_vis t ht
    rw [he] at this; omega
  have hon_ne : ∀ v, s.On v → v ≠ k := by
    rintro v ⟨t, ht, rfl⟩; exact hst_ne t ht
  have hon : ∀ v, (pushed s k pr).On v ↔ s.On v ∨ v = k := by
    intro v
    constructor
    · rintro ⟨t, ht, he⟩
      rw [htop] at ht
      by_cases hte : t = s.top
      · right; rw [← he, hte, st_top]
      · left; exact ⟨t, by omega, by rw [← he, st_ne t hte]⟩
    · rintro (⟨t, ht, he⟩ | he)
      · exact ⟨t, by rw [htop]; omega, by rw [st_ne t (by omega)]; exact he⟩
      · exact ⟨s.top, by rw [htop]; omega, by rw [st_top, he]⟩
  have hk_path : k ∉ path := fun hp => hon_ne k (h.path_on k hp) rfl
  have hmk_lt : ∀ v, s.On v → s.marks.g v < s.index := fun v hv => h.idx v (h.on_lt hv)
  have hreach : ∀ v, s.On v → Path A v k := by
    intro v hv
    obtain ⟨c, h1, h2, h3⟩ := h.gray v hv
    exact h3.trans (hr c h1)
  have hE : ∀ v w, v ≠ k → Exam A (k :: path) ps v w → Exam A path ps v w := by
    rintro v w hv ⟨e, h1, h2, h3⟩
    exact ⟨e, h1, fun hp => h2 (List.mem_cons_of_mem _ hp), h3⟩
  have hEk : ∀ w, ¬ Exam A (k :: path) ps k w := by
    rintro w ⟨e, h1, h2, h3⟩
    have := h2 (List.mem_cons_self ..)
    rw [(h.unvis k hk hm).1] at this
    omega
  have hmk_mono : ∀ v, 0 ≤ s.marks.g v → 0 ≤ (pushed s k pr).marks.g v := by
    intro v hv
    by_cases he : v = k
    · rw [he, mk_self]; omega
    · rw [mk_ne v he]; exact hv
  refine { p_size := h.p_size, ps_size := h.ps_size, marks_size := ?_, prev_size := hps,
           stack_size := ?_, low_size := ?_, rr_size := h.rr_size, st_lt := ?_, st_vis := ?_,
           ord := ?_, em_lt := h.em_lt, em_vis := ?_, em_low := ?_, em_inj := h.em_inj, disj := ?_,
           vis := ?_, idx := ?_, total := ?_, unvis := ?_, ps_le := h.ps_le, path_on := ?_,
           path_dec := ?_, chain := hch, reach := ?_, gray := ?_, low_le := ?_, low_wit := ?_,
           exam := ?_, seg := ?_, rr_zero := h.rr_zero, rr_last := h.rr_last, rr_lt := h.rr_lt,
           nscc_le := h.nscc_le, block_conn := h.block_conn, block_edge := h.block_edge }
  · show (s.marks.upd _ _).size = _; rw [size_upd]; exact h.marks_size
  · show (s.stack.upd _ _).size = _; rw [size_upd]; exact h.stack_size
  · show (s.low.upd _ _).size = _; rw [size_upd]; exact h.low_size
  · intro t ht
    rw [htop] at ht
    by_cases he : t = s.top
    · rw [he, st_top]; exact hk
    · rw [st_ne t he]; exact h.st_lt t (by omega)
  · intro t ht
    rw [htop] at ht
    by_cases he : t = s.top
    · rw [he, st_top, mk_self]; omega
    · rw [st_ne t he]; exact hmk_mono _ (h.st_vis t (by omega))
  · intro t u htu hu
    rw [htop] at hu
    rw [st_ne t (by omega), mk_ne _ (hst_ne t (by omega))]
    by_cases he : u = s.top
    · rw [he, st_top, mk_self]; exact hmk_lt _ ⟨t, by omega, rfl⟩
    · rw [st_ne u he, mk_ne _ (hst_ne u (by omega))]; exact h.ord t u htu (by omega)
  · intro t ht; exact hmk_mono _ (h.em_vis t ht)
  · intro t ht
    show (pushed s k pr).low.g (s.p.g t) = _
    rw [lw_ne _ (hem_ne t ht)]; exact h.em_low t ht
  · intro t u ht hu
    rw [htop] at ht
    show _ ≠ s.p.g u
    by_cases he : t = s.top
    · rw [he, st_top]; exact (hem_ne u hu).symm
    · rw [st_ne t he]; exact h.disj t u (by omega) hu
  · intro v hv hmv
    by_cases he : v = k
    · left; exact (hon v).2 (Or.inr he)
    · rw [mk_ne v he] at hmv
      rcases h.vis v hv hmv with h1 | h1
      · left; exact (hon v).2 (Or.inl h1)
      · right; exact h1
  · intro v hv
    show _ < ((s.index + 1 : Nat) : Int)
    by_cases he : v = k
    · rw [he, mk_self]; omega
    · rw [mk_ne v he]; have := h.idx v hv; omega
  · show s.top + 1 + s.ptop = s.index + 1; omega
  · intro v hv hmv
    have hne : v ≠ k := by
      intro he; rw [he, mk_self] at hmv; omega
    rw [mk_ne v hne] at hmv
    obtain ⟨h1, h2⟩ := h.unvis v hv hmv
    exact ⟨h1, by show pr.g v = -1; rw [hpr v hne]; exact h2⟩
  · intro c hc
    rw [hon]
    rcases List.mem_cons.1 hc with h1 | h1
    · right; exact h1
    · left; exact h.path_on c h1
  · rw [List.pairwise_cons]
    constructor
    · intro b hb
      rw [mk_self, mk_ne _ (hon_ne b (h.path_on b hb))]
      exact hmk_lt b (h.path_on b hb)
    · refine h.path_dec.imp_of_mem ?_
      intro a b ha hb hab
      rw [mk_ne _ (hon_ne b (h.path_on b hb)), mk_ne _ (hon_ne a (h.path_on a ha))]
      exact hab
  · intro t u htu hu
    rw [htop] at hu
    by_cases he : u = s.top
    · rw [he, st_top]
      by_cases he' : t = s.top
      · rw [he', st_top]; exact ReflTransGen.refl
      · rw [st_ne t he']; exact hreach _ ⟨t, by omega, rfl⟩
    · rw [st_ne u he, st_ne t (by omega)]; exact h.reach t u htu (by omega)
  · intro v hv
    rcases (hon v).1 hv with h1 | h1
    · obtain ⟨c, h2, h3, h4⟩ := h.gray v h1
      refine ⟨c, List.mem_cons_of_mem _ h2, ?_, h4⟩
      rw [mk_ne _ (hon_ne v h1), mk_ne _ (hon_ne c (h.path_on c h2))]; exact h3
    · exact ⟨k, List.mem_cons_self .., by rw [h1], by rw [h1]; exact ReflTransGen.refl⟩
  · intro v hv
    rcases (hon v).1 hv with h1 | h1
    · rw [mk_ne _ (hon_ne v h1), lw_ne _ (hon_ne v h1)]; exact h.low_le v h1
    · rw [h1, lw_self, mk_self]
  · intro v hv
    rcases (hon v).1 hv with h1 | h1
    · obtain ⟨w, h2, h3, h4⟩ := h.low_wit v h1
      refine ⟨w, (hon w).2 (Or.inl h2), ?_, h4⟩
      rw [mk_ne _ (hon_ne w h2), lw_ne _ (hon_ne v h1)]; exact h3
    · exact ⟨k, (hon k).2 (Or.inr rfl), by rw [h1, lw_self, mk_self],
        by rw [h1]; exact ReflTransGen.refl⟩
  · intro v w h1 h2 h3
    by_cases he : v = k
    · subst he; exact absurd h3 (hEk w)
    · rw [mk_ne v he] at h2
      exact hmk_mono _ (h.exam v w h1 h2 (hE v w he h3))
  · intro v w h1 h2 h3
    rcases (hon v).1 h1 with h4 | h4
    · have hvk := hon_ne v h4
      have hE' := hE v w hvk h2
      rcases (hon w).1 h3 with h5 | h5
      · obtain ⟨c, g1, g2, g3, g4⟩ := h.seg v w h4 hE' h5
        have hck := hon_ne c (h.path_on c g1)
        refine ⟨c, List.mem_cons_of_mem _ g1, ?_, ?_, ?_⟩
        · rw [mk_ne _ hck, mk_ne _ hvk]; exact g2
        · intro d hd hdv
          rcases List.mem_cons.1 hd with e | e
          · rw [e, mk_self, mk_ne _ hvk] at hdv
            have := hmk_lt v h4; omega
          · have hdk := hon_ne d (h.path_on d e)
            rw [mk_ne _ hdk, mk_ne _ hvk] at hdv
            rw [mk_ne _ hdk, mk_ne _ hck]; exact g3 d e hdv
        · rw [lw_ne _ hck, mk_ne _ (hon_ne w h5)]; exact g4
      · -- impossible: `k` has not been visited
        exfalso
        have := h.exam v w (h.on_lt h4) (h.on_vis h4) hE'
        rw [h5] at this; omega
    · rw [h4] at h2; exact absurd h2 (hEk w)

theorem head_max {j : Nat} {l : List Nat} (h : SccInv A (j :: l) ps s) {d : Nat} (hd : d ∈ j :: l) :
    s.marks.g d ≤ s.marks.g j := by
  rcases List.mem_cons.1 hd with e | e
  · rw [e]
  · exact ((List.pairwise_cons.1 h.path_dec).1 d e).le

theorem head_not_mem {j : Nat} {l : List Nat} (h : SccInv A (j :: l) ps s) : j ∉ l := by
  intro hj
  have := (List.pairwise_cons.1 h.path_dec).1 j hj
  omega

theorem chain_tail {pr : Array Int} {j : Nat} {l : List Nat} (h : PrevChain pr (j :: l)) :
    PrevChain pr l := by
  cases l with
  | nil => trivial
  | cons b l => exact h.2

/-- If `j` is not the root of a component, some node before it in the path is reachable. -/
theorem up {j : Nat} {l : List Nat} (h : SccInv A (j :: l) ps s) (hne : s.low.g j ≠ s.marks.g j) :
    ∃ c, c ∈ l ∧ s.marks.g c < s.marks.g j ∧ Path A j c := by
  have hj := h.path_on j (List.mem_cons_self ..)
  obtain ⟨w, h1, h2, h3⟩ := h.low_wit j hj
  have h4 := h.low_le j hj
  obtain ⟨c, g1, g2, g3⟩ := h.gray w h1
  rcases List.mem_cons.1 g1 with e | e
  · rw [e] at g2; omega
  · exact ⟨c, e, by omega, h3.trans g3⟩

theorem exam_tail {j : Nat} {l : List Nat} (hfull : A.p.g j + ps.g j = A.p.g (j + 1))
    {v w : Nat} (h : Exam A l ps v w) : Exam A (j :: l) ps v w := by
  obtain ⟨k, h1, h2, h3⟩ := h
  refine ⟨k, h1, fun hp => ?_, h3⟩
  rcases List.mem_cons.1 hp with e | e
  · subst e; omega
  · exact h2 e

/-- A node which is not the root of a component is finished. -/
theorem merge {j c : Nat} {l : List Nat} (h : SccInv A (j :: c :: l) ps s)
    (hfull : A.p.g j + ps.g j = A.p.g (j + 1)) (hne : s.low.g j ≠ s.marks.g j)
    (hle : s.low.g c ≤ s.low.g j) : SccInv A (c :: l) ps s := by
  have hc_max : ∀ d, d ∈ c :: l → s.marks.g d ≤ s.marks.g c := by
    intro d hd
    rcases List.mem_cons.1 hd with e | e
    · rw [e]
    · exact ((List.pairwise_cons.1 (List.pairwise_cons.1 h.path_dec).2).1 d e).le
  refine { h with path_on := ?_, path_dec := ?_, chain := ?_, gray := ?_, exam := ?_, seg := ?_ }
  · exact fun d hd => h.path_on d (List.mem_cons_of_mem _ hd)
  · exact (List.pairwise_cons.1 h.path_dec).2
  · exact chain_tail h.chain
  · intro v hv
    obtain ⟨d, h1, h2, h3⟩ := h.gray v hv
    rcases List.mem_cons.1 h1 with e | e
    · obtain ⟨d', g1, g2, g3⟩ := h.up hne
      rw [e] at h2 h3
      exact ⟨d', g1, by omega, h3.trans g3⟩
    · exact ⟨d, e, h2, h3⟩
  · intro v w h1 h2 h3
    exact h.exam v w h1 h2 (exam_tail hfull h3)
  · intro v w h1 h2 h3
    obtain ⟨d, g1, g2, g3, g4⟩ := h.seg v w h1 (exam_tail hfull h2) h3
    rcases List.mem_cons.1 g1 with e | e
    · rw [e] at g2 g4
      have hcj := (List.pairwise_cons.1 h.path_dec).1 c (List.mem_cons_self ..)
      exact ⟨c, List.mem_cons_self .., by omega, fun d' hd' _ => hc_max d' hd', by omega⟩
    · exact ⟨d, e, g2, fun d' hd' => g3 d' (List.mem_cons_of_mem _ hd'), g4⟩

/-- `s'` is obtained from `s` by emitting the nodes at positions `tj, ..., top - 1` of the stack. -/
structure Emitted (s s' : Scc) (n tj : Nat) : Prop where
  top : s'.top = tj
  le : tj ≤ s.top
  ptop : s'.ptop = s.ptop + (s.top - tj)
  psize : s'.p.size = s.p.size
  p_old : ∀ t, t < s.ptop → s'.p.g t = s.p.g t
  p_new : ∀ t, s.ptop ≤ t → t < s'.ptop → s'.p.g t = s.stack.g (s.top - 1 - (t - s.ptop))
  lsize : s'.low.size = s.low.size
  low_new : ∀ t, tj ≤ t → t < s.top → s'.low.g (s.stack.g t) = n
  low_old : ∀ v, (∀ t, tj ≤ t → t < s.top → s.stack.g t ≠ v) → s'.low.g v = s.low.g v
  index : s'.index = s.index
  pstack : s'.pstack = s.pstack
  marks : s'.marks = s.marks
  prev : s'.prev = s.prev
  stack : s'.stack = s.stack

/-- A component is emitted. -/
theorem emit {j tj : Nat} {l : List Nat} {s' : Scc} (h : SccInv A (j :: l) ps s) (hAn : A.WF)
    (hnm : A.n = A.m)
    (hfull : A.p.g j + ps.g j = A.p.g (j + 1)) (hroot : s.low.g j = s.marks.g j)
    (htj : tj < s.top) (hj : s.stack.g tj = j) (e : Emitted s s' A.n tj)
    (hrr : s'.rr = s.rr.upd (s.nscc + 1) s'.ptop) (hnscc : s'.nscc = s.nscc + 1) :
    SccInv A l ps s' := by
  have hjn : j < A.n := by rw [← hj]; exact h.st_lt tj htj
  have htot := h.total
  have hcnt := h.count.1
  have hptop := e.ptop
  -- the segment
  have seg_iff : ∀ t, t < s.top → (tj ≤ t ↔ s.marks.g j ≤ s.marks.g (s.stack.g t)) := by
    intro t ht
    rw [← hj]
    constructor
    · intro h1
      rcases Nat.eq_or_lt_of_le h1 with h2 | h2
      · rw [h2]
      · exact (h.ord tj t h2 ht).le
    · intro h1; exact h.pos_le htj h1
  have seg_edge : ∀ t, tj ≤ t → t < s.top → ∀ w, A.InRow (s.stack.g t) w →
      (∃ u, tj ≤ u ∧ u < s.top ∧ s.stack.g u = w) ∨ s.Em w := by
    intro t h1 h2 w hw
    have hvn := h.st_lt t h2
    have hwn : w < A.n := by rw [hnm]; exact hAn.inRow_lt hvn hw
    obtain ⟨k, k1, k2, k3⟩ := hw
    have hEx : Exam A (j :: l) ps (s.stack.g t) w := by
      refine ⟨k - A.p.g (s.stack.g t), by omega, fun hp => ?_, by
        rw [show A.p.g (s.stack.g t) + (k - A.p.g (s.stack.g t)) = k by omega]; exact k3⟩
      have hm := h.head_max hp
      have : s.stack.g t = j := by
        refine h.on_inj ⟨t, h2, rfl⟩ ⟨tj, htj, hj⟩ ?_
        have := (seg_iff t h2).1 h1
        omega
      rw [this] at k1 k2 ⊢
      omega
    have hwv := h.exam _ w hvn (h.st_vis t h2) hEx
    rcases h.vis w hwn hwv with hon | hem
    · left
      obtain ⟨c, g1, g2, g3, g4⟩ := h.seg _ w ⟨t, h2, rfl⟩ hEx hon
      have hcj : s.marks.g j ≤ s.marks.g c := g3 j (List.mem_cons_self ..) ((seg_iff t h2).1 h1)
      have hc : c = j := by
        refine h.on_inj (h.path_on c g1) ⟨tj, htj, hj⟩ ?_
        have := h.head_max g1
        omega
      rw [hc] at g4
      obtain ⟨u, hu, rfl⟩ := hon
      exact ⟨u, (seg_iff u hu).2 (by omega), hu, rfl⟩
    · right; exact hem
  have em_edge : ∀ v, s.Em v → ∀ w, A.InRow v w → s.Em w := by
    rintro v ⟨t, ht, rfl⟩ w hw
    have h0 : s.nscc ≠ 0 := by
      intro h0
      have h1 := h.rr_zero
      have h2 := h.rr_last
      rw [h0] at h2; omega
    have hb := h.block_edge (s.nscc - 1) (by omega) t
    rw [show s.nscc - 1 + 1 = s.nscc by omega, h.rr_last] at hb
    obtain ⟨u, h1, h2⟩ := hb (by omega) w hw
    exact ⟨u, by omega, h2⟩
  have closed : ∀ v w, ((∃ u, tj ≤ u ∧ u < s.top ∧ s.stack.g u = v) ∨ s.Em v) → Path A v w →
      ((∃ u, tj ≤ u ∧ u < s.top ∧ s.stack.g u = w) ∨ s.Em w) := by
    intro v w hv hp
    induction hp with
    | refl => exact hv
    | tail _ hb ih =>
      rcases ih with ⟨u, h1, h2, h3⟩ | h1
      · subst h3
        exact seg_edge u h1 h2 _ hb.2
      · exact Or.inr (em_edge _ h1 _ hb.2)
  have to_j : ∀ t, tj ≤ t → t < s.top → Path A (s.stack.g t) j := by
    intro t h1 h2
    obtain ⟨c, g1, g2, g3⟩ := h.gray _ ⟨t, h2, rfl⟩
    rcases closed _ c (Or.inl ⟨t, h1, h2, rfl⟩) g3 with ⟨u, k1, k2, k3⟩ | hem
    · have h4 := (seg_iff u k2).1 k1
      rw [k3] at h4
      have h5 := h.head_max g1
      rw [← h.on_inj (h.path_on c g1) ⟨tj, htj, hj⟩ (by omega)]
      exact g3
    · exact absurd hem (h.on_not_em (h.path_on c g1))
  have conn : ∀ t u, tj ≤ t → t < s.top → tj ≤ u → u < s.top →
      Path A (s.stack.g t) (s.stack.g u) := by
    intro t u h1 h2 h3 h4
    refine (to_j t h1 h2).trans ?_
    rw [← hj]; exact h.reach tj u h3 h4
  -- nodes emitted and left
  have hon : ∀ v, s'.On v ↔ ∃ t, t < tj ∧ s.stack.g t = v := by
    intro v; unfold Scc.On; rw [e.top, e.stack]
  have hon' : ∀ v, s'.On v → s.On v := by
    intro v hv
    obtain ⟨t, ht, h1⟩ := (hon v).1 hv
    exact ⟨t, by omega, h1⟩
  have hon_lt : ∀ v, s'.On v → s.marks.g v < s.marks.g j := by
    intro v hv
    obtain ⟨t, ht, rfl⟩ := (hon v).1 hv
    rw [← hj]; exact h.ord t tj ht htj
  have hon_of : ∀ v, s.On v → s.marks.g v < s.marks.g j → s'.On v := by
    rintro v ⟨t, ht, rfl⟩ hm
    refine (hon _).2 ⟨t, ?_, rfl⟩
    by_contra hn
    have := (seg_iff t ht).1 (by omega)
    omega
  have hlow : ∀ v, s'.On v → s'.low.g v = s.low.g v := by
    intro v hv
    refine e.low_old v ?_
    intro t h1 h2 he
    have h3 := hon_lt v hv
    have h4 := (seg_iff t h2).1 h1
    rw [he] at h4; omega
  have hem : ∀ v, s'.Em v ↔ s.Em v ∨ ∃ t, tj ≤ t ∧ t < s.top ∧ s.stack.g t = v := by
    intro v
    constructor
    · rintro ⟨t, ht, rfl⟩
      by_cases h1 : t < s.ptop
      · left; exact ⟨t, h1, (e.p_old t h1).symm⟩
      · right; exact ⟨_, by omega, by omega, (e.p_new t (by omega) ht).symm⟩
    · rintro (⟨t, ht, rfl⟩ | ⟨t, h1, h2, rfl⟩)
      · exact ⟨t, by omega, e.p_old t ht⟩
      · refine ⟨s.ptop + (s.top - 1 - t), by omega, ?_⟩
        rw [e.p_new _ (by omega) (by omega)]
        congr 1; omega
  have hl_on : ∀ c, c ∈ l → s'.On c := fun c hc =>
    hon_of c (h.path_on c (List.mem_cons_of_mem _ hc)) ((List.pairwise_cons.1 h.path_dec).1 c hc)
  have hrs : s.nscc + 1 < s.rr.size := by
    have := h.nscc_le
    have := h.rr_size
    omega
  have hrr_old : ∀ b, b ≤ s.nscc → s'.rr.g b = s.rr.g b := by
    intro b hb; rw [hrr]; exact g_upd_ne _ _ _ _ (by omega)
  have hrr_new : s'.rr.g (s.nscc + 1) = s'.ptop := by
    rw [hrr]; exact g_upd_eq _ _ _ hrs
  have hrr_mono : ∀ b, b ≤ s.nscc → s.rr.g b ≤ s.ptop := by
    intro b hb
    rw [← h.rr_last]
    obtain ⟨d, hd⟩ := Nat.exists_eq_add_of_le hb
    clear hb
    induction d generalizing b with
    | zero => rw [hd]; simp
    | succ d ih =>
      have h1 := ih (b + 1) (by omega)
      have h2 := h.rr_lt b (by omega)
      omega
  refine { p_size := by rw [e.psize]; exact h.p_size, ps_size := by exact h.ps_size,
           marks_size := by rw [e.marks]; exact h.marks_size,
           prev_size := by rw [e.prev]; exact h.prev_size,
           stack_size := by rw [e.stack]; exact h.stack_size,
           low_size := by rw [e.lsize]; exact h.low_size,
           rr_size := by rw [hrr, size_upd]; exact h.rr_size,
           st_lt := ?_, st_vis := ?_, ord := ?_, em_lt := ?_, em_vis := ?_, em_low := ?_,
           em_inj := ?_, disj := ?_, vis := ?_, idx := ?_, total := ?_, unvis := ?_, ps_le := ?_,
           path_on := hl_on, path_dec := ?_, chain := ?_, reach := ?_, gray := ?_, low_le := ?_,
           low_wit := ?_, exam := ?_, seg := ?_, rr_zero := ?_, rr_last := ?_, rr_lt := ?_,
           nscc_le := ?_, block_conn := ?_, block_edge := ?_ }
  · intro t ht; rw [e.top] at ht; rw [e.stack]; exact h.st_lt t (by omega)
  · intro t ht; rw [e.top] at ht; rw [e.stack, e.marks]; exact h.st_vis t (by omega)
  · intro t u htu hu; rw [e.top] at hu; rw [e.stack, e.marks]; exact h.ord t u htu (by omega)
  · intro t ht
    by_cases h1 : t < s.ptop
    · rw [e.p_old t h1]; exact h.em_lt t h1
    · rw [e.p_new t (by omega) ht]; exact h.st_lt _ (by omega)
  · intro t ht
    rw [e.marks]
    by_cases h1 : t < s.ptop
    · rw [e.p_old t h1]; exact h.em_vis t h1
    · rw [e.p_new t (by omega) ht]; exact h.st_vis _ (by omega)
  · intro t ht
    by_cases h1 : t < s.ptop
    · rw [e.p_old t h1, e.low_old, h.em_low t h1]
      intro u _ hu; exact h.disj u t hu h1
    · rw [e.p_new t (by omega) ht]; exact e.low_new _ (by omega) (by omega)
  · intro t u htu hu
    by_cases h1 : t < s.ptop
    · rw [e.p_old t h1]
      by_cases h2 : u < s.ptop
      · rw [e.p_old u h2]; exact h.em_inj t u htu h2
      · rw [e.p_new u (by omega) hu]; exact (h.disj _ t (by omega) h1).symm
    · rw [e.p_new t (by omega) (by omega), e.p_new u (by omega) hu]
      intro he
      have := h.ord (s.top - 1 - (u - s.ptop)) (s.top - 1 - (t - s.ptop)) (by omega) (by omega)
      rw [he] at this; omega
  · intro t u ht hu
    rw [e.top] at ht
    rw [e.stack]
    by_cases h1 : u < s.ptop
    · rw [e.p_old u h1]; exact h.disj t u (by omega) h1
    · rw [e.p_new u (by omega) hu]
      intro he
      have := h.ord t (s.top - 1 - (u - s.ptop)) (by omega) (by omega)
      rw [he] at this; omega
  · intro v hv hm
    rw [e.marks] at hm
    rcases h.vis v hv hm with h1 | h1
    · by_cases h2 : s.marks.g v < s.marks.g j
      · left; exact hon_of v h1 h2
      · right
        obtain ⟨t, ht, rfl⟩ := h1
        exact (hem _).2 (Or.inr ⟨t, (seg_iff t ht).2 (by omega), ht, rfl⟩)
    · right; exact (hem v).2 (Or.inl h1)
  · intro v hv; rw [e.marks, e.index]; exact h.idx v hv
  · rw [e.top, e.ptop, e.index]; omega
  · intro v hv hm; rw [e.marks] at hm; rw [e.prev]; exact h.unvis v hv hm
  · intro v hv; exact h.ps_le v hv
  · rw [e.marks]; exact (List.pairwise_cons.1 h.path_dec).2
  · rw [e.prev]; exact chain_tail h.chain
  · intro t u htu hu; rw [e.top] at hu; rw [e.stack]; exact h.reach t u htu (by omega)
  · intro v hv
    obtain ⟨c, h1, h2, h3⟩ := h.gray v (hon' v hv)
    rw [e.marks]
    rcases List.mem_cons.1 h1 with h4 | h4
    · rw [h4] at h2
      have := hon_lt v hv; omega
    · exact ⟨c, h4, h2, h3⟩
  · intro v hv; rw [hlow v hv, e.marks]; exact h.low_le v (hon' v hv)
  · intro v hv
    obtain ⟨w, h1, h2, h3⟩ := h.low_wit v (hon' v hv)
    refine ⟨w, hon_of w h1 ?_, by rw [hlow v hv, e.marks]; exact h2, h3⟩
    have h4 := h.low_le v (hon' v hv)
    have h5 := hon_lt v hv
    omega
  · intro v w h1 h2 h3
    rw [e.marks] at h2 ⊢
    exact h.exam v w h1 h2 (exam_tail hfull h3)
  · intro v w h1 h2 h3
    rw [e.marks]
    obtain ⟨c, g1, g2, g3, g4⟩ := h.seg v w (hon' v h1) (exam_tail hfull h2) (hon' w h3)
    rcases List.mem_cons.1 g1 with h4 | h4
    · rw [h4] at g2
      have := hon_lt v h1; omega
    · refine ⟨c, h4, g2, fun d hd => g3 d (List.mem_cons_of_mem _ hd), ?_⟩
      rw [hlow c (hl_on c h4)]; exact g4
  · rw [hrr_old 0 (by omega)]; exact h.rr_zero
  · rw [hnscc]; exact hrr_new
  · intro b hb
    rw [hnscc] at hb
    rw [hrr_old b (by omega)]
    by_cases h1 : b = s.nscc
    · rw [h1, hrr_new, h.rr_last]; omega
    · rw [hrr_old (b + 1) (by omega)]; exact h.rr_lt b (by omega)
  · have := h.nscc_le; omega
  · intro b hb t u
    rw [hnscc] at hb
    rw [hrr_old b (by omega)]
    by_cases h1 : b = s.nscc
    · rw [h1, hrr_new, h.rr_last]
      intro a1 a2 a3 a4
      rw [e.p_new t (by omega) (by omega), e.p_new u (by omega) (by omega)]
      exact conn _ _ (by omega) (by omega) (by omega) (by omega)
    · have h2 := hrr_mono (b + 1) (by omega)
      rw [hrr_old (b + 1) (by omega)]
      intro a1 a2 a3 a4
      rw [e.p_old t (by omega), e.p_old u (by omega)]
      exact h.block_conn b (by omega) t u a1 a2 a3 a4
  · intro b hb t
    rw [hnscc] at hb
    by_cases h1 : b = s.nscc
    · rw [h1, hrr_new]
      intro a1 w hw
      suffices hs : s'.Em w by
        obtain ⟨u, h2, h3⟩ := hs; exact ⟨u, by omega, h3⟩
      rw [hem]
      by_cases h2 : t < s.ptop
      · rw [e.p_old t h2] at hw; left; exact em_edge _ ⟨t, h2, rfl⟩ w hw
      · rw [e.p_new t (by omega) (by omega)] at hw
        exact (seg_edge _ (by omega) (by omega) w hw).symm
    · have h2 := hrr_mono (b + 1) (by omega)
      rw [hrr_old (b + 1) (by omega)]
      intro a1 w hw
      rw [e.p_old t (by omega)] at hw
      obtain ⟨u, h3, h4⟩ := h.block_edge b (by omega) t a1 w hw
      exact ⟨u, h3, by rw [e.p_old u (by omega)]; exact h4⟩

end SccInv

end Spasm
