import Verif.Spec.Heap
import Mathlib.Algebra.Order.Group.Multiset

/-
A separation logic for the heap of `Model/Heap.lean`.
-/

namespace Spasm
namespace Heap

/-- Assertions about a part of the heap. -/
def SL : Type := Cells → Prop

namespace SL

def mul' (P Q : SL) : SL := fun R => ∃ R₁ R₂, R = R₁ + R₂ ∧ P R₁ ∧ Q R₂
def one' : SL := fun R => R = 0

instance : CommMonoid SL where
  mul := mul'
  one := one'
  mul_assoc P Q S := by
    funext R; apply propext; constructor
    · rintro ⟨_, R₃, rfl, ⟨R₁, R₂, rfl, h1, h2⟩, h3⟩
      exact ⟨R₁, R₂ + R₃, by rw [add_assoc], h1, R₂, R₃, rfl, h2, h3⟩
    · rintro ⟨R₁, _, rfl, h1, R₂, R₃, rfl, h2, h3⟩
      exact ⟨R₁ + R₂, R₃, by rw [add_assoc], ⟨R₁, R₂, rfl, h1, h2⟩, h3⟩
  one_mul P := by
    funext R; apply propext; constructor
    · rintro ⟨R₁, R₂, rfl, h1, h2⟩
      have : R₁ = 0 := h1
      rw [this, zero_add]; exact h2
    · intro h; exact ⟨0, R, by rw [zero_add], rfl, h⟩
  mul_one P := by
    funext R; apply propext; constructor
    · rintro ⟨R₁, R₂, rfl, h1, h2⟩
      have : R₂ = 0 := h2
      rw [this, add_zero]; exact h1
    · intro h; exact ⟨R, 0, by rw [add_zero], h, rfl⟩
  mul_comm P Q := by
    funext R; apply propext; constructor
    · rintro ⟨R₁, R₂, rfl, h1, h2⟩; exact ⟨R₂, R₁, add_comm _ _, h2, h1⟩
    · rintro ⟨R₁, R₂, rfl, h1, h2⟩; exact ⟨R₂, R₁, add_comm _ _, h2, h1⟩

theorem mul_iff {P Q : SL} {R : Cells} : (P * Q) R ↔ ∃ R₁ R₂, R = R₁ + R₂ ∧ P R₁ ∧ Q R₂ := Iff.rfl
theorem one_iff {R : Cells} : (1 : SL) R ↔ R = 0 := Iff.rfl

/-- Existential quantification. -/
def ex {ι : Type} (P : ι → SL) : SL := fun R => ∃ i, P i R

/-- A fact about no block. -/
def pure (φ : Prop) : SL := fun R => R = 0 ∧ φ

/-- Entailment. -/
def Le (P Q : SL) : Prop := ∀ R, P R → Q R

theorem Le.rfl {P : SL} : P.Le P := fun _ h => h
theorem Le.trans {P Q S : SL} (h : P.Le Q) (k : Q.Le S) : P.Le S := fun R hR => k R (h R hR)
theorem Le.of_eq {P Q : SL} (h : P = Q) : P.Le Q := h ▸ Le.rfl
theorem Le.mul {P P' Q Q' : SL} (h : P.Le P') (k : Q.Le Q') : (P * Q).Le (P' * Q') := by
  rintro R ⟨R₁, R₂, e, h1, h2⟩; exact ⟨R₁, R₂, e, h R₁ h1, k R₂ h2⟩
theorem Le.ex {ι : Type} {P : SL} {Q : ι → SL} (i : ι) (h : P.Le (Q i)) : P.Le (SL.ex Q) := fun R hR => ⟨i, h R hR⟩
theorem Le.ex_left {ι : Type} {P : ι → SL} {Q : SL} (h : ∀ i, (P i).Le Q) : (SL.ex P).Le Q := by
  rintro R ⟨i, hR⟩; exact h i R hR

theorem ex_mul {ι : Type} (P : ι → SL) (F : SL) : SL.ex P * F = SL.ex fun i => P i * F := by
  funext R; apply propext; constructor
  · rintro ⟨R₁, R₂, e, ⟨i, h⟩, k⟩; exact ⟨i, R₁, R₂, e, h, k⟩
  · rintro ⟨i, R₁, R₂, e, h, k⟩; exact ⟨R₁, R₂, e, ⟨i, h⟩, k⟩

theorem mul_ex {ι : Type} (P : ι → SL) (F : SL) : F * SL.ex P = SL.ex fun i => F * P i := by
  rw [mul_comm, ex_mul]; congr 1; funext i; rw [mul_comm]

end SL

/-- A block. -/
def cell (q : Ptr) (o : Obj) : SL := fun R => ∃ a, q = some a ∧ R = {(a, o)}

/-- An array, or `NULL`. -/
def arr (q : Ptr) : SL := fun R => R = arrCells q

/-- Hoare triples, with the frame rule built in. -/
def Tr {α : Type} (P : SL) (x : M α) (Q : α → SL) : Prop :=
  ∀ s F R, s.Good → s.cells = R + F → P R →
    match x s with
    | .ok (v, s') => s'.Good ∧ ∃ R', s'.cells = R' + F ∧ Q v R'
    | .error e => e = .null

theorem Tr.frame {α : Type} {P : SL} {x : M α} {Q : α → SL} (h : Tr P x Q) (F : SL) :
    Tr (P * F) x (fun v => Q v * F) := by
  rintro s G R hg he ⟨R₁, R₂, rfl, h1, h2⟩
  have := h s (R₂ + G) R₁ hg (by rw [he, add_assoc]) h1
  revert this
  rcases x s with e | ⟨v, s'⟩
  · exact id
  · rintro ⟨hg', R', he', hq⟩
    exact ⟨hg', R' + R₂, by rw [he', add_assoc], R', R₂, rfl, hq, h2⟩

theorem Tr.conseq {α : Type} {P P' : SL} {x : M α} {Q Q' : α → SL} (h : Tr P x Q) (hp : P'.Le P)
    (hq : ∀ v, (Q v).Le (Q' v)) : Tr P' x Q' := by
  intro s F R hg he hP
  have := h s F R hg he (hp R hP)
  revert this
  rcases x s with e | ⟨v, s'⟩
  · exact id
  · rintro ⟨hg', R', he', hQ⟩; exact ⟨hg', R', he', hq v R' hQ⟩

theorem Tr.pre {α : Type} {P P' : SL} {x : M α} {Q : α → SL} (h : Tr P x Q) (hp : P'.Le P) : Tr P' x Q :=
  h.conseq hp fun _ => SL.Le.rfl

theorem Tr.post {α : Type} {P : SL} {x : M α} {Q Q' : α → SL} (h : Tr P x Q) (hq : ∀ v, (Q v).Le (Q' v)) : Tr P x Q' :=
  h.conseq SL.Le.rfl hq

theorem Tr.bind {α β : Type} {P : SL} {x : M α} {Q : α → SL} {f : α → M β} {S : β → SL} (h : Tr P x Q)
    (k : ∀ v, Tr (Q v) (f v) S) : Tr P (x >>= f) S := by
  intro s F R hg he hP
  have := h s F R hg he hP
  show match (match x s with | .ok (a, s') => f a s' | .error e => .error e) with
    | .ok (v, s') => s'.Good ∧ ∃ R', s'.cells = R' + F ∧ S v R'
    | .error e => e = .null
  revert this
  rcases x s with e | ⟨v, s'⟩
  · exact id
  · rintro ⟨hg', R', he', hQ⟩
    exact k v s' F R' hg' he' hQ

theorem Tr.ret {α : Type} {P : SL} {a : α} {Q : α → SL} (h : P.Le (Q a)) : Tr P (pure a : M α) Q :=
  fun _ _ R hg he hP => ⟨hg, R, he, h R hP⟩

theorem Tr.exI {α ι : Type} {P : ι → SL} {x : M α} {Q : α → SL} (h : ∀ i, Tr (P i) x Q) : Tr (SL.ex P) x Q := by
  rintro s F R hg he ⟨i, hP⟩; exact h i s F R hg he hP

theorem Tr.pureI {α : Type} {φ : Prop} {P : SL} {x : M α} {Q : α → SL} (h : φ → Tr P x Q) :
    Tr (SL.pure φ * P) x Q := by
  rintro s F R hg he ⟨R₁, R₂, rfl, ⟨h1, hφ⟩, h2⟩
  subst h1
  exact h hφ s F R₂ hg (by rw [he, zero_add]) h2

/-- `P` is `a` beside `F`. -/
class Ext (a P : SL) (F : outParam SL) : Prop where
  eq : P = a * F

instance (priority := 2000) Ext.all {P : SL} : Ext P P 1 := ⟨(mul_one P).symm⟩
instance (priority := 1000) Ext.hd {a F : SL} : Ext a (a * F) F := ⟨rfl⟩
instance (priority := 900) Ext.right {a P R F : SL} [h : Ext a R F] : Ext a (P * R) (P * F) :=
  ⟨by rw [h.eq, mul_left_comm]⟩
instance (priority := 800) Ext.left {a P R F : SL} [h : Ext a P F] : Ext a (P * R) (F * R) :=
  ⟨by rw [h.eq, mul_assoc]⟩
instance (priority := 3000) Ext.two {a b P F G : SL} [h : Ext a P F] [k : Ext b F G] : Ext (a * b) P G :=
  ⟨by rw [h.eq, k.eq, mul_assoc]⟩
instance (priority := 4000) Ext.one {P : SL} : Ext 1 P P := ⟨(one_mul P).symm⟩

theorem Tr.step {α β : Type} {P P₀ F : SL} {x : M α} {Q₀ : α → SL} {f : α → M β} {S : β → SL} (h : Tr P₀ x Q₀)
    [e : Ext P₀ P F] (k : ∀ v, Tr (Q₀ v * F) (f v) S) : Tr P (x >>= f) S := by
  rw [e.eq]; exact (h.frame F).bind k

theorem Tr.last {α : Type} {P P₀ F : SL} {x : M α} {Q₀ : α → SL} {S : α → SL} (h : Tr P₀ x Q₀)
    [e : Ext P₀ P F] (k : ∀ v, (Q₀ v * F).Le (S v)) : Tr P x S := by
  rw [e.eq]; exact (h.frame F).post k

/-- An operation that only reads. -/
theorem Tr.read {α β : Type} {P P₀ F : SL} {x : M α} {f : α → M β} {S : β → SL} (h : Tr P₀ x (fun _ => P₀))
    [e : Ext P₀ P F] (k : ∀ v, Tr P (f v) S) : Tr P (x >>= f) S := by
  have := (h.frame F); rw [← e.eq] at this; exact this.bind k

theorem Tr.read_last {P P₀ F : SL} {x : M Unit} (h : Tr P₀ x (fun _ => P₀)) [e : Ext P₀ P F] : Tr P x (fun _ => P) := by
  have := (h.frame F); rw [← e.eq] at this; exact this

/-! ### Primitives -/

theorem good_of_mem {s : St} (hg : s.Good) {a : Nat} {o : Obj} {F : Cells} (h : s.cells = {(a, o)} + F) :
    (s.mem.map Prod.fst).contains a = true ∧ (s.mem.find? fun c => c.1 == a) = some (a, o) ∧
      ((s.mem.filter fun c => c.1 != a : List (Nat × Obj)) : Cells) = F := by
  have hp : (s.mem : Cells) = (a, o) ::ₘ F := by
    have : s.cells = (s.mem : Cells) := rfl
    rw [← this, h, Multiset.singleton_add]
  obtain ⟨l, rfl⟩ := Quot.exists_rep F
  have hq : s.mem.Perm ((a, o) :: l) := Multiset.coe_eq_coe.mp hp
  have hn : (((a, o) :: l).map Prod.fst).Nodup := (hq.map Prod.fst).nodup_iff.mp hg.nodup
  rw [List.map_cons, List.nodup_cons] at hn
  have hm : (a, o) ∈ s.mem := hq.symm.subset List.mem_cons_self
  refine ⟨?_, ?_, ?_⟩
  · rw [List.contains_iff_mem]; exact List.mem_map.mpr ⟨(a, o), hm, rfl⟩
  · rcases hf : s.mem.find? fun c => c.1 == a with _ | c
    · have := List.find?_eq_none.mp hf (a, o) hm
      simp at this
    · have h1 := List.mem_of_find?_eq_some hf
      have h2 : c.1 = a := by simpa using List.find?_some hf
      have h3 := hq.subset h1
      rcases List.mem_cons.mp h3 with h | h
      · rw [hf, h]
      · exact absurd (List.mem_map.mpr ⟨c, h, h2⟩) hn.1
  · have : (s.mem.filter fun c => c.1 != a).Perm (((a, o) :: l).filter fun c => c.1 != a) := hq.filter _
    have e2 : (((a, o) :: l).filter fun c => c.1 != a) = l := by
      rw [List.filter_cons]
      simp only [bne_self_eq_false, Bool.false_eq_true, ↓reduceIte]
      rw [List.filter_eq_self]
      intro c hc
      have : c.1 ≠ a := fun h => hn.1 (List.mem_map.mpr ⟨c, hc, h⟩)
      simpa using this
    rw [e2] at this
    exact Multiset.coe_eq_coe.mpr this

theorem Tr.chooseT {P : SL} : Tr P choose (fun _ => P) := by
  rintro ⟨mem, next, orc⟩ F R hg he hP
  cases orc with
  | nil => exact ⟨⟨hg.nodup, hg.lt⟩, R, he, hP⟩
  | cons n l => exact ⟨⟨hg.nodup, hg.lt⟩, R, he, hP⟩

theorem Tr.flipT {P : SL} : Tr P flip (fun _ => P) := Tr.chooseT.bind fun _ => Tr.ret SL.Le.rfl

theorem malloc_tr (o : Obj) : Tr 1 (malloc o) (fun q => cell q o) := by
  intro s F R hg he hP
  have hP : R = 0 := hP
  subst hP
  refine ⟨⟨?_, ?_⟩, {(s.next, o)}, ?_, s.next, rfl, rfl⟩
  · show (s.next :: s.mem.map Prod.fst).Nodup
    refine List.nodup_cons.mpr ⟨fun h => ?_, hg.nodup⟩
    obtain ⟨c, hc, e⟩ := List.mem_map.mp h
    have := hg.lt c hc; omega
  · intro c hc
    rcases List.mem_cons.mp hc with h | h
    · rw [h]; exact Nat.lt_succ_self _
    · exact Nat.lt_succ_of_lt (hg.lt c h)
  · have : s.cells = F := by rw [he, zero_add]
    rw [← this]
    show ((s.next, o) ::ₘ (s.mem : Cells)) = {(s.next, o)} + (s.mem : Cells)
    rw [Multiset.singleton_add]

theorem cell_arr {q : Ptr} : (cell q .arr).Le (arr q) := by
  rintro R ⟨a, rfl, rfl⟩; rfl

theorem malloc_arr_tr : Tr 1 (malloc .arr) (fun q => arr q) := (malloc_tr .arr).post fun _ => cell_arr

theorem filter_good {s : St} (hg : s.Good) (a : Nat) : St.Good { s with mem := s.mem.filter fun c => c.1 != a } :=
  ⟨hg.nodup.sublist (List.filter_sublist.map Prod.fst), fun c hc => hg.lt c (List.mem_of_mem_filter hc)⟩

theorem free_cell_tr (q : Ptr) (o : Obj) : Tr (cell q o) (free q) (fun _ => 1) := by
  rintro s F R hg he ⟨a, rfl, rfl⟩
  obtain ⟨h1, -, h3⟩ := good_of_mem hg he
  have : free (some a) s = .ok ((), { s with mem := s.mem.filter fun c => c.1 != a }) := by
    show (if _ then _ else _) = _
    rw [if_pos h1]
  rw [this]
  exact ⟨filter_good hg a, 0, by rw [zero_add]; exact h3, rfl⟩

theorem free_arr_tr (q : Ptr) : Tr (arr q) (free q) (fun _ => 1) := by
  rcases q with _ | a
  · intro s F R hg he hP
    exact ⟨hg, R, he, hP⟩
  · refine (free_cell_tr (some a) .arr).pre ?_
    intro R hR
    exact ⟨a, rfl, hR⟩

theorem look_cell_tr (q : Ptr) (o : Obj) : Tr (cell q o) (look q) (fun v => SL.pure (v = o) * cell q o) := by
  rintro s F R hg he ⟨a, rfl, rfl⟩
  obtain ⟨-, h2, -⟩ := good_of_mem hg he
  have : look (some a) s = .ok (o, s) := by
    show (match s.mem.find? fun c => c.1 == a with | none => _ | some c => _) = _
    rw [h2]
  rw [this]
  exact ⟨hg, {(a, o)}, he, 0, _, (zero_add _).symm, ⟨rfl, rfl⟩, a, rfl, rfl⟩

theorem store_cell_tr (q : Ptr) (o o' : Obj) : Tr (cell q o) (store q o') (fun _ => cell q o') := by
  rintro s F R hg he ⟨a, rfl, rfl⟩
  obtain ⟨h1, -, h3⟩ := good_of_mem hg he
  have : store (some a) o' s = .ok ((), { s with mem := (a, o') :: s.mem.filter fun c => c.1 != a }) := by
    show (if _ then _ else _) = _
    rw [if_pos h1]
  rw [this]
  have hg' := filter_good hg a
  have ha : a < s.next := by
    obtain ⟨c, hc, e⟩ := List.mem_map.mp (List.contains_iff_mem.mp h1)
    have := hg.lt c hc; omega
  refine ⟨⟨?_, ?_⟩, {(a, o')}, ?_, a, rfl, rfl⟩
  · show (a :: (s.mem.filter fun c => c.1 != a).map Prod.fst).Nodup
    refine List.nodup_cons.mpr ⟨fun h => ?_, hg'.nodup⟩
    obtain ⟨c, hc, e⟩ := List.mem_map.mp h
    have := (List.mem_filter.mp hc).2
    simp [e] at this
  · intro c hc
    rcases List.mem_cons.mp hc with h | h
    · rw [h]; exact ha
    · exact hg'.lt c h
  · show ((a, o') ::ₘ ((s.mem.filter fun c => c.1 != a : List (Nat × Obj)) : Cells)) = {(a, o')} + F
    rw [h3, Multiset.singleton_add]

theorem null_tr {α : Type} {P : SL} {x : M α} {Q : α → SL} (h : ∀ s, x s = .error .null) : Tr P x Q := by
  intro s F R _ _ _
  rw [h s]

theorem touch_tr (q : Ptr) : Tr (arr q) (touch q) (fun _ => arr q) := by
  rcases q with _ | a
  · exact null_tr fun s => rfl
  · have h : (arr (some a)).Le (cell (some a) .arr) := fun R hR => ⟨a, rfl, hR⟩
    refine Tr.pre ?_ h
    refine (look_cell_tr (some a) .arr).bind fun v => ?_
    refine Tr.pureI fun e => ?_
    subst e
    exact Tr.ret cell_arr

theorem touch?_tr (q : Ptr) : Tr (arr q) (touch? q) (fun _ => arr q) := by
  unfold touch?
  split
  · exact touch_tr q
  · exact Tr.ret SL.Le.rfl

theorem getCsr_tr (A p j x : Ptr) : Tr (cell A (.csr p j x)) (getCsr A)
    (fun v => SL.pure (v = (p, j, x)) * cell A (.csr p j x)) := by
  refine (look_cell_tr A _).bind fun v => Tr.pureI fun e => ?_
  subst e
  exact Tr.ret fun R hR => ⟨0, R, (zero_add _).symm, ⟨rfl, rfl⟩, hR⟩

theorem getTriplet_tr (A p j x : Ptr) : Tr (cell A (.triplet p j x)) (getTriplet A)
    (fun v => SL.pure (v = (p, j, x)) * cell A (.triplet p j x)) := by
  refine (look_cell_tr A _).bind fun v => Tr.pureI fun e => ?_
  subst e
  exact Tr.ret fun R hR => ⟨0, R, (zero_add _).symm, ⟨rfl, rfl⟩, hR⟩

theorem getLu_tr (A U qinv p L Lt : Ptr) : Tr (cell A (.lu U qinv p L Lt)) (getLu A)
    (fun v => SL.pure (v = (U, qinv, p, L, Lt)) * cell A (.lu U qinv p L Lt)) := by
  refine (look_cell_tr A _).bind fun v => Tr.pureI fun e => ?_
  subst e
  exact Tr.ret fun R hR => ⟨0, R, (zero_add _).symm, ⟨rfl, rfl⟩, hR⟩

theorem getDm_tr (A p q r c : Ptr) : Tr (cell A (.dm p q r c)) (getDm A)
    (fun v => SL.pure (v = (p, q, r, c)) * cell A (.dm p q r c)) := by
  refine (look_cell_tr A _).bind fun v => Tr.pureI fun e => ?_
  subst e
  exact Tr.ret fun R hR => ⟨0, R, (zero_add _).symm, ⟨rfl, rfl⟩, hR⟩

theorem getCert_tr (A p q r c : Ptr) : Tr (cell A (.cert p q r c)) (getCert A)
    (fun v => SL.pure (v = (p, q, r, c)) * cell A (.cert p q r c)) := by
  refine (look_cell_tr A _).bind fun v => Tr.pureI fun e => ?_
  subst e
  exact Tr.ret fun R hR => ⟨0, R, (zero_add _).symm, ⟨rfl, rfl⟩, hR⟩

theorem realloc_tr (q : Ptr) : Tr (arr q) (realloc q) (fun q' => arr q') := by
  refine Tr.chooseT.bind fun n => ?_
  rcases n with _ | _ | n
  · exact (free_arr_tr q).bind fun _ => Tr.ret fun R hR => hR
  · show Tr (arr q) (if q.isSome = true then _ else _) _
    split
    · exact (touch_tr q).bind fun _ => Tr.ret SL.Le.rfl
    · rename_i h
      have : q = none := by simpa using h
      subst this
      exact malloc_arr_tr
  · exact (free_arr_tr q).bind fun _ => malloc_arr_tr

/-! ### Loops and parallel regions -/

theorem Tr.repeatST {σ : Type} {body : σ → M σ} {I : σ → SL} (h : ∀ s, Tr (I s) (body s) I) :
    ∀ n s, Tr (I s) (repeatS body n s) I
  | 0, _ => Tr.ret SL.Le.rfl
  | n + 1, s => (h s).bind fun v => Tr.repeatST h n v

theorem Tr.loopST {σ : Type} {body : σ → M σ} {I : σ → SL} (h : ∀ s, Tr (I s) (body s) I) (s : σ) :
    Tr (I s) (loopS body s) I := Tr.chooseT.bind fun n => Tr.repeatST h n s

theorem Tr.loopT {body : M Unit} {I : SL} (h : Tr I body (fun _ => I)) : Tr I (loop body) (fun _ => I) :=
  Tr.loopST (I := fun _ => I) (fun _ => h) ()

theorem Tr.repeatBT {σ : Type} {body : σ → M (σ × Bool)} {I : σ → SL} (h : ∀ s, Tr (I s) (body s) (fun v => I v.1)) :
    ∀ n s, Tr (I s) (repeatB body n s) I
  | 0, _ => Tr.ret SL.Le.rfl
  | n + 1, s => (h s).bind fun v => by
    show Tr (I v.1) (if v.2 = true then _ else _) I
    split
    · exact Tr.ret SL.Le.rfl
    · exact Tr.repeatBT h n v.1

theorem Tr.loopBT {σ : Type} {body : σ → M (σ × Bool)} {I : σ → SL} (h : ∀ s, Tr (I s) (body s) (fun v => I v.1))
    (s : σ) : Tr (I s) (loopB body s) I := Tr.chooseT.bind fun n => Tr.repeatBT h n s

theorem Tr.maybeT {P : SL} {x : M Unit} (h : Tr P x (fun _ => P)) : Tr P (maybe x) (fun _ => P) := by
  refine Tr.flipT.bind fun b => ?_
  show Tr P (if b = true then _ else _) _
  split
  · exact h
  · exact Tr.ret SL.Le.rfl

theorem Tr.iteT {α : Type} {P : SL} {x y : M α} {Q : α → SL} {φ : Prop} [Decidable φ] (h : φ → Tr P x Q)
    (k : ¬ φ → Tr P y Q) : Tr P (if φ then x else y) Q := by
  split
  · exact h ‹_›
  · exact k ‹_›

/-- Several arrays. -/
def arrs : List Ptr → SL
  | [] => 1
  | q :: l => arr q * arrs l

theorem mallocs_tr : ∀ n, Tr 1 (mallocs n) arrs
  | 0 => Tr.ret SL.Le.rfl
  | n + 1 => by
    refine Tr.step malloc_arr_tr fun q => ?_
    refine Tr.step (mallocs_tr n) fun l => Tr.ret (SL.Le.of_eq ?_)
    show arrs l * (arr q * 1) = arr q * arrs l
    rw [mul_one, mul_comm]

theorem frees_tr : ∀ l, Tr (arrs l) (frees l) (fun _ => 1)
  | [] => Tr.ret SL.Le.rfl
  | q :: l => by
    refine Tr.step (P := arr q * arrs l) (free_arr_tr q) fun _ => ?_
    rw [one_mul]
    exact frees_tr l

theorem touchAny_tr (ws : List Ptr) : Tr (arrs ws) (touchAny ws) (fun _ => arrs ws) := by
  refine Tr.chooseT.bind fun n => ?_
  have : ∀ (l : List Ptr) (n : Nat), Tr (arrs l) (match l[n]? with | some q => touch q | none => pure ()) (fun _ => arrs l) := by
    intro l
    induction l with
    | nil => intro n; exact Tr.ret SL.Le.rfl
    | cons q l ih =>
      intro n
      rcases n with _ | n
      · exact Tr.read_last (P := arr q * arrs l) (touch_tr q)
      · exact Tr.read_last (P := arr q * arrs l) (ih n)
  exact this ws n

theorem parallel_tr {α : Type} {k : Nat} {body : List Ptr → M α} {P : SL} {Q : α → SL}
    (h : ∀ ws, Tr (arrs ws * P) (body ws) (fun v => arrs ws * Q v)) : Tr P (parallel k body) Q := by
  refine Tr.chooseT.bind fun n => ?_
  refine Tr.step (mallocs_tr (k * n)) fun ws => ?_
  refine (h ws).bind fun v => ?_
  refine Tr.step (frees_tr ws) fun _ => Tr.ret (SL.Le.of_eq (one_mul (Q v)))

theorem Tr.onT {P : SL} {b : Bool} {x : M Unit} (h : b = true → Tr P x (fun _ => P)) : Tr P (on b x) (fun _ => P) :=
  Tr.iteT h fun _ => Tr.ret SL.Le.rfl

theorem Tr.stepP {α β : Type} {P P₀ F : SL} {x : M α} {φ : α → Prop} {Q₀ : α → SL} {f : α → M β} {S : β → SL}
    (h : Tr P₀ x (fun v => SL.pure (φ v) * Q₀ v)) [e : Ext P₀ P F] (k : ∀ v, φ v → Tr (Q₀ v * F) (f v) S) :
    Tr P (x >>= f) S :=
  Tr.step h fun v => by rw [mul_assoc]; exact Tr.pureI (k v)

theorem Tr.stepE {α β ι : Type} {P P₀ F : SL} {x : M α} {Q₀ : α → ι → SL} {f : α → M β} {S : β → SL}
    (h : Tr P₀ x (fun v => SL.ex (Q₀ v))) [e : Ext P₀ P F] (k : ∀ v i, Tr (Q₀ v i * F) (f v) S) : Tr P (x >>= f) S :=
  Tr.step h fun v => by rw [SL.ex_mul]; exact Tr.exI (k v)

/-- Weakening a part of the precondition. -/
theorem Tr.weaken {α : Type} {P P₀ P₁ F : SL} {x : M α} {S : α → SL} (h : P₀.Le P₁) [e : Ext P₀ P F]
    (k : Tr (P₁ * F) x S) : Tr P x S := by
  rw [e.eq]; exact k.pre (h.mul SL.Le.rfl)

theorem Tr.exE {α ι : Type} {P F : SL} {P₀ : ι → SL} {x : M α} {S : α → SL} [e : Ext (SL.ex P₀) P F]
    (k : ∀ i, Tr (P₀ i * F) x S) : Tr P x S := by
  rw [e.eq, SL.ex_mul]; exact Tr.exI k

theorem arr_none : arr none = 1 := rfl

instance (priority := 5000) Ext.none {P : SL} : Ext (arr none) P P := ⟨(one_mul P).symm⟩

/-- Arrays that are there. -/
class Has (l : List Ptr) (P : SL) : Prop where
  tr : Tr P (touches l) (fun _ => P)

instance {P : SL} : Has [] P := ⟨Tr.ret SL.Le.rfl⟩
instance {q : Ptr} {l : List Ptr} {P F : SL} [e : Ext (arr q) P F] [h : Has l P] : Has (q :: l) P :=
  ⟨Tr.read (touch_tr q) fun _ => h.tr⟩

theorem use_tr' {l : List Ptr} {P : SL} [h : Has l P] : Tr P (loop (touches l)) (fun _ => P) := Tr.loopT h.tr

theorem Le_of_ext {P Q F : SL} [e : Ext Q P F] (h : F = 1) : P.Le Q := by
  rw [e.eq, h, mul_one]; exact SL.Le.rfl

/-- Simplification of a goal about entailment of sums of blocks. -/
macro "sl_ac" : tactic => `(tactic|
  first
  | exact SL.Le.rfl
  | (dsimp only; refine Le_of_ext ?_; simp only [one_mul, mul_one]; done)
  | (refine Le_of_ext ?_; simp only [one_mul, mul_one]; done)
  | (refine Le_of_ext ?_; rfl)
  | (apply SL.Le.of_eq; simp only [one_mul, mul_one]; done)
  | (apply SL.Le.of_eq; simp only [one_mul, mul_one]; ac_rfl)
  | (apply SL.Le.of_eq; simp only [one_mul, mul_one, mul_assoc, mul_comm, mul_left_comm]))

end Heap
end Spasm
