import Verif.Model.Tools
import Verif.Proofs.Save
import Verif.Spec.Stack

/-! The tools which only rename rows and columns. -/

namespace Spasm

open Sha

theorem stack_zero_spec (jk : Junk) (n : Nat) :
    Ok (stack_zero jk n) (fun p => p.size = n ∧ ∀ i, i < n → p.g i = 0) := by
  unfold stack_zero
  refine (Ok_forRange (I := fun i p => p.size = n ∧ ∀ t, t < i → p.g t = 0) (Nat.zero_le _) ⟨by simp, by simp⟩
    ?_).mono fun p h => h
  rintro i p - hi ⟨h1, h2⟩
  rw [Ok_wr]
  refine ⟨by omega, by simp [h1], ?_⟩
  intro t ht
  by_cases hti : t = i
  · subst hti; rw [g_upd_eq _ _ _ (by omega)]
  · rw [g_upd_ne _ _ _ _ (by omega)]; exact h2 t (by omega)

/-- An array of marks. -/
def Marks (p : Array Int) (n : Nat) (P : Nat → Prop) : Prop :=
  p.size = n ∧ ∀ i, i < n → p.g i = 0 ∧ ¬ P i ∨ p.g i = 1 ∧ P i

theorem Marks.set {p : Array Int} {n : Nat} {P P' : Nat → Prop} (h : Marks p n P) {i : Nat} (hi : i < n)
    (hP : ∀ t, P' t ↔ P t ∨ t = i) : Marks (p.upd i 1) n P' := by
  refine ⟨by simp [h.1], ?_⟩
  intro t ht
  by_cases hti : t = i
  · subst hti
    right
    exact ⟨g_upd_eq _ _ _ (by rw [h.1]; omega), (hP t).mpr (.inr rfl)⟩
  · rw [g_upd_ne _ _ _ _ (by omega), hP]
    rcases h.2 t ht with ⟨h1, h2⟩ | ⟨h1, h2⟩
    · exact .inl ⟨h1, by tauto⟩
    · exact .inr ⟨h1, .inl h2⟩

theorem stack_mark_spec {T : Triplet} (hT : T.WF) {p q : Array Int} (hp : p.size = T.n ∧ ∀ i, i < T.n → p.g i = 0)
    (hq : q.size = T.m ∧ ∀ i, i < T.m → q.g i = 0) :
    Ok (stack_mark T.nz T.i T.j p q) (fun s => Marks s.1 T.n (fun i => ∃ k, k < T.nz ∧ T.i.g k = i) ∧
      Marks s.2 T.m (fun j => ∃ k, k < T.nz ∧ T.j.g k = j)) := by
  unfold stack_mark
  have h1 := hT.i_size
  have h2 := hT.j_size
  refine (Ok_forRange (I := fun t s => Marks s.1 T.n (fun i => ∃ k, k < t ∧ T.i.g k = i) ∧
      Marks s.2 T.m (fun j => ∃ k, k < t ∧ T.j.g k = j)) (Nat.zero_le _) ?_ ?_).mono fun p h => h
  · exact ⟨⟨hp.1, fun i hi => .inl ⟨hp.2 i hi, by simp⟩⟩, ⟨hq.1, fun i hi => .inl ⟨hq.2 i hi, by simp⟩⟩⟩
  · rintro t ⟨p, q⟩ - ht ⟨a, b⟩
    have c1 := hT.i_lt t ht
    have c2 := hT.j_lt t ht
    simp only at a b
    simp only [Ok_bind, Ok_rd, Ok_wr, Ok_ok]
    refine ⟨by omega, by rw [a.1]; exact c1, by omega, by rw [b.1]; exact c2, a.set c1 ?_, b.set c2 ?_⟩
    · intro i
      constructor
      · rintro ⟨k, hk, rfl⟩
        by_cases hkt : k = t
        · subst hkt; exact .inr rfl
        · exact .inl ⟨k, by omega, rfl⟩
      · rintro (⟨k, hk, rfl⟩ | rfl)
        · exact ⟨k, by omega, rfl⟩
        · exact ⟨t, by omega, rfl⟩
    · intro i
      constructor
      · rintro ⟨k, hk, rfl⟩
        by_cases hkt : k = t
        · subst hkt; exact .inr rfl
        · exact .inl ⟨k, by omega, rfl⟩
      · rintro (⟨k, hk, rfl⟩ | rfl)
        · exact ⟨k, by omega, rfl⟩
        · exact ⟨t, by omega, rfl⟩

theorem stack_number_spec {n : Nat} (hn : n < 2 ^ 31) {p : Array Int} {P : Nat → Prop} [DecidablePred P]
    (h : Marks p n P) : Ok (stack_number n p) (fun s => s.1.size = n ∧ s.2 = (Nat.count P n : Int) ∧
      ∀ i, i < n → P i → s.1.g i = (Nat.count P i : Int)) := by
  unfold stack_number
  refine (Ok_forRange (I := fun t s => s.1.size = n ∧ s.2 = (Nat.count P t : Int) ∧
      (∀ i, i < t → P i → s.1.g i = (Nat.count P i : Int)) ∧ ∀ i, t ≤ i → s.1.g i = p.g i) (Nat.zero_le _)
      ⟨h.1, by simp, by simp, by simp⟩ ?_).mono ?_
  · rintro t ⟨p', u⟩ - ht ⟨a, b, c, d⟩
    simp only at a b c d
    simp only [Ok_bind, Ok_rd]
    refine ⟨by omega, ?_⟩
    have hd := d t le_rfl
    have hle : Nat.count P t ≤ t := Nat.count_le _
    rcases h.2 t ht with ⟨h1, h2⟩ | ⟨h1, h2⟩
    · rw [if_neg (by omega), Ok_ok]
      refine ⟨a, by rw [b, Nat.count_succ, if_neg h2]; simp, ?_, fun i hi => d i (by omega)⟩
      intro i hi hP
      by_cases hit : i = t
      · subst hit; exact absurd hP h2
      · exact c i (by omega) hP
    · rw [if_pos (by omega)]
      simp only [Ok_bind, Ok_wr, Ok_i32, Ok_ok]
      refine ⟨by omega, ⟨by omega, by omega⟩, by simp [a], by rw [b, Nat.count_succ, if_pos h2]; simp, ?_, ?_⟩
      · intro i hi hP
        by_cases hit : i = t
        · subst hit; rw [g_upd_eq _ _ _ (by omega), b]
        · rw [g_upd_ne _ _ _ _ (by omega)]; exact c i (by omega) hP
      · intro i hi
        rw [g_upd_ne _ _ _ _ (by omega)]; exact d i (by omega)
  · rintro s ⟨a, b, c, -⟩
    exact ⟨a, b, c⟩

theorem stack_rename_spec {T : Triplet} (hT : T.WF) {p q : Array Int} {P Q : Nat → Nat}
    (hp : p.size = T.n) (hq : q.size = T.m) (hP : ∀ k, k < T.nz → p.g (T.i.g k) = P (T.i.g k))
    (hQ : ∀ k, k < T.nz → q.g (T.j.g k) = Q (T.j.g k)) :
    Ok (stack_rename T.nz p q T.i T.j) (fun s => s.1.size = T.i.size ∧ s.2.size = T.j.size ∧
      ∀ k, k < T.nz → s.1.g k = P (T.i.g k) ∧ s.2.g k = Q (T.j.g k)) := by
  unfold stack_rename
  have h1 := hT.i_size
  have h2 := hT.j_size
  refine (Ok_forRange (I := fun t s => s.1.size = T.i.size ∧ s.2.size = T.j.size ∧
      (∀ k, k < t → s.1.g k = P (T.i.g k) ∧ s.2.g k = Q (T.j.g k)) ∧
      ∀ k, t ≤ k → s.1.g k = T.i.g k ∧ s.2.g k = T.j.g k) (Nat.zero_le _)
      ⟨rfl, rfl, by simp, fun _ _ => ⟨rfl, rfl⟩⟩ ?_).mono ?_
  · rintro t ⟨Ai, Aj⟩ - ht ⟨a, b, c, d⟩
    simp only at a b c d
    obtain ⟨d1, d2⟩ := d t le_rfl
    have c1 := hT.i_lt t ht
    have c2 := hT.j_lt t ht
    have e1 := hP t ht
    have e2 := hQ t ht
    simp only [Ok_bind, Ok_rd, Ok_wr, Ok_idx, Ok_ok]
    rw [d1, d2, e1, e2]
    refine ⟨by omega, by omega, by omega, by omega, by omega, by omega, by omega, by omega, by simp [a], by simp [b],
      ?_, ?_⟩
    · intro k hk
      by_cases hkt : k = t
      · subst hkt
        rw [g_upd_eq _ _ _ (by omega), g_upd_eq _ _ _ (by omega)]
        simp
      · rw [g_upd_ne _ _ _ _ (by omega), g_upd_ne _ _ _ _ (by omega)]; exact c k (by omega)
    · intro k hk
      rw [g_upd_ne _ _ _ _ (by omega), g_upd_ne _ _ _ _ (by omega)]; exact d k (by omega)
  · rintro s ⟨a, b, c, -⟩
    exact ⟨a, b, c⟩

theorem rowUsed_iff (T : Triplet) (i : Nat) : RowUsed T.lst i ↔ ∃ k, k < T.nz ∧ T.i.g k = i := by
  unfold RowUsed Triplet.lst
  constructor
  · rintro ⟨e, he, rfl⟩
    obtain ⟨k, hk, rfl⟩ := List.mem_map.mp he
    exact ⟨k, List.mem_range.mp hk, rfl⟩
  · rintro ⟨k, hk, rfl⟩
    exact ⟨_, List.mem_map.mpr ⟨k, List.mem_range.mpr hk, rfl⟩, rfl⟩

theorem colUsed_iff (T : Triplet) (i : Nat) : ColUsed T.lst i ↔ ∃ k, k < T.nz ∧ T.j.g k = i := by
  unfold ColUsed Triplet.lst
  constructor
  · rintro ⟨e, he, rfl⟩
    obtain ⟨k, hk, rfl⟩ := List.mem_map.mp he
    exact ⟨k, List.mem_range.mp hk, rfl⟩
  · rintro ⟨k, hk, rfl⟩
    exact ⟨_, List.mem_map.mpr ⟨k, List.mem_range.mpr hk, rfl⟩, rfl⟩

theorem stack_matrix_spec (jk : Junk) {T : Triplet} (hT : T.WF) (hn : T.n < 2 ^ 31) (hm : T.m < 2 ^ 31)
    (hz : T.nz < 2 ^ 31) :
    Ok (stack_matrix jk T) (fun S => S.WF ∧ S.n = Nat.count (RowUsed T.lst) T.n ∧ S.m = Nat.count (ColUsed T.lst) T.m ∧
      S.nz = T.nz ∧ S.F = T.F ∧ S.x = T.x ∧ ∀ k, k < T.nz → S.i.g k = Nat.count (RowUsed T.lst) (T.i.g k) ∧
        S.j.g k = Nat.count (ColUsed T.lst) (T.j.g k)) := by
  unfold stack_matrix
  have e : (toI32 (T.nz : Int)).toNat = T.nz := by
    unfold toI32
    rw [Int.bmod_eq_of_le (by omega) (by omega)]
    omega
  rw [e]
  simp only
  rw [Ok_bind]
  refine (stack_zero_spec jk T.n).mono ?_
  intro p hp
  rw [Ok_bind]
  refine (stack_zero_spec jk T.m).mono ?_
  intro q hq
  rw [Ok_bind]
  refine (stack_mark_spec hT hp hq).mono ?_
  rintro ⟨p, q⟩ ⟨a, b⟩
  simp only [← rowUsed_iff, ← colUsed_iff] at a b ⊢
  rw [Ok_bind]
  refine (stack_number_spec (P := (RowUsed T.lst)) hn a).mono ?_
  rintro ⟨p, u⟩ ⟨a1, a2, a3⟩
  simp only at a1 a2 a3 ⊢
  rw [Ok_bind]
  refine (stack_number_spec (P := (ColUsed T.lst)) hm b).mono ?_
  rintro ⟨q, v⟩ ⟨b1, b2, b3⟩
  simp only at b1 b2 b3 ⊢
  rw [Ok_bind, Ok_idx]
  refine ⟨by omega, ?_⟩
  rw [Ok_bind, Ok_idx]
  refine ⟨by omega, ?_⟩
  rw [Ok_bind]
  refine (stack_rename_spec hT a1 b1 (P := Nat.count (RowUsed T.lst)) (Q := Nat.count (ColUsed T.lst))
    (fun k hk => a3 _ (hT.i_lt k hk) ((rowUsed_iff T _).mpr ⟨k, hk, rfl⟩)) (fun k hk => b3 _ (hT.j_lt k hk) ((colUsed_iff T _).mpr ⟨k, hk, rfl⟩))).mono ?_
  rintro ⟨Ai, Aj⟩ ⟨c1, c2, c3⟩
  simp only at c1 c2 c3
  rw [Ok_ok]
  have f1 : u.toNat = Nat.count (RowUsed T.lst) T.n := by rw [a2]; simp
  have f2 : v.toNat = Nat.count (ColUsed T.lst) T.m := by rw [b2]; simp
  refine ⟨⟨?_, ?_, ?_, ?_, ?_, hT.field_ok⟩, f1, f2, rfl, rfl, rfl, c3⟩
  · simp only; rw [c1]; exact hT.i_size
  · simp only; rw [c1, c2]; exact hT.j_size
  · intro a ha; simp only; rw [c1]; exact hT.x_size a ha
  · intro k hk
    simp only at hk ⊢
    rw [(c3 k hk).1, f1]
    exact Nat.count_strict_mono ((rowUsed_iff T _).mpr ⟨k, hk, rfl⟩) (hT.i_lt k hk)
  · intro k hk
    simp only at hk ⊢
    rw [(c3 k hk).2, f2]
    exact Nat.count_strict_mono ((colUsed_iff T _).mpr ⟨k, hk, rfl⟩) (hT.j_lt k hk)

theorem swap_matrix_spec {T : Triplet} (hT : T.WF) (hm : T.m < 2 ^ 31) :
    Ok (swap_matrix T) (fun S => S.WF ∧ S.n = T.n ∧ S.m = T.m ∧ S.nz = T.nz ∧ S.F = T.F ∧ S.x = T.x ∧ S.i = T.i ∧
      ∀ k, k < T.nz → S.j.g k = T.m - 1 - T.j.g k) := by
  unfold swap_matrix
  have h1 := hT.i_size
  have h2 := hT.j_size
  rw [Ok_bind]
  refine (Ok_forRange (I := fun t a => a.size = T.j.size ∧ (∀ k, k < t → a.g k = T.m - 1 - T.j.g k) ∧
    ∀ k, t ≤ k → a.g k = T.j.g k) (Nat.zero_le _) ⟨rfl, by simp, by simp⟩ ?_).mono ?_
  · rintro t a - ht ⟨a1, a2, a3⟩
    have c2 := hT.j_lt t ht
    have a4 := a3 t le_rfl
    simp only [Ok_bind, Ok_rd, Ok_wr, Ok_idx, Ok_i32]
    rw [a4]
    refine ⟨by omega, ⟨by omega, by omega⟩, by omega, by omega, by simp [a1], ?_, ?_⟩
    · intro k hk
      by_cases hkt : k = t
      · subst hkt; rw [g_upd_eq _ _ _ (by omega)]; omega
      · rw [g_upd_ne _ _ _ _ (by omega)]; exact a2 k (by omega)
    · intro k hk
      rw [g_upd_ne _ _ _ _ (by omega)]; exact a3 k (by omega)
  · rintro a ⟨a1, a2, -⟩
    rw [Ok_ok]
    refine ⟨⟨hT.i_size, by simp only; omega, hT.x_size, hT.i_lt, ?_, hT.field_ok⟩, rfl, rfl, rfl, rfl, rfl, rfl, a2⟩
    intro k hk
    simp only at hk ⊢
    have := hT.j_lt k hk
    rw [a2 k hk]; omega

theorem val_congr {S T : Triplet} (h : S.x = T.x) (k : Nat) : S.val k = T.val k := by unfold Triplet.val; rw [h]

theorem stack_lst (jk : Junk) {T : Triplet} (hT : T.WF) (hn : T.n < 2 ^ 31) (hm : T.m < 2 ^ 31)
    (hz : T.nz < 2 ^ 31) :
    Ok (stack_matrix jk T) (fun S => S.WF ∧ S.n = Nat.count (RowUsed T.lst) T.n ∧
      S.m = Nat.count (ColUsed T.lst) T.m ∧ S.lst = stacked T.lst) := by
  refine (stack_matrix_spec jk hT hn hm hz).mono ?_
  rintro S ⟨h1, h2, h3, h4, -, h5, h6⟩
  refine ⟨h1, h2, h3, ?_⟩
  unfold stacked
  generalize he : (fun e : Nat × Nat × Int => (Nat.count (RowUsed T.lst) e.1, Nat.count (ColUsed T.lst) e.2.1, e.2.2)) =
    g
  unfold Triplet.lst
  rw [List.map_map, h4]
  refine List.map_congr_left fun k hk => ?_
  obtain ⟨a, b⟩ := h6 k (List.mem_range.mp hk)
  rw [← he, a, b, val_congr h5]
  rfl

theorem swap_lst {T : Triplet} (hT : T.WF) (hm : T.m < 2 ^ 31) :
    Ok (swap_matrix T) (fun S => S.WF ∧ S.n = T.n ∧ S.m = T.m ∧ S.lst = mirrored T.m T.lst) := by
  refine (swap_matrix_spec hT hm).mono ?_
  rintro S ⟨h1, h2, h3, h4, -, h5, h6, h7⟩
  refine ⟨h1, h2, h3, ?_⟩
  unfold mirrored Triplet.lst
  rw [List.map_map, h4]
  refine List.map_congr_left fun k hk => ?_
  have a := h7 k (List.mem_range.mp hk)
  rw [a, val_congr h5, h6]
  rfl

theorem mirrored_twice {m : Nat} {l : List (Nat × Nat × Int)} (h : ∀ e ∈ l, e.2.1 < m) :
    mirrored m (mirrored m l) = l := by
  unfold mirrored
  rw [List.map_map]
  conv_rhs => rw [← List.map_id l]
  refine List.map_congr_left fun e he => ?_
  have := h e he
  obtain ⟨a, b, c⟩ := e
  simp only [Function.comp_apply, id, Prod.mk.injEq, true_and, and_true] at this ⊢
  omega

end Spasm
