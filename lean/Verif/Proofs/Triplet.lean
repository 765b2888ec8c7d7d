import Verif.Spec.Triplet
import Verif.Proofs.Submatrix

namespace Spasm

open Finset

theorem triplet_realloc_spec (jk : Junk) {T : Triplet} (hT : T.WF) {k : Int}
    (hk : (T.nz : Int) < k) :
    Ok (triplet_realloc jk T k) (fun S => S.WF ∧ S.n = T.n ∧ S.m = T.m ∧ S.nz = T.nz ∧ S.F = T.F ∧
      S.x.isSome = T.x.isSome ∧ S.i.size = k.toNat ∧
      ∀ t, t < T.nz → S.i.g t = T.i.g t ∧ S.j.g t = T.j.g t ∧ S.val t = T.val t) := by
  unfold triplet_realloc
  have h1 := hT.i_size
  have h2 := hT.j_size
  rw [if_neg (show ¬ k < 0 by omega)]
  simp only
  rw [if_neg (show ¬ (k.toNat = 0 ∧ jk.null0 = true) by rintro ⟨h, -⟩; omega)]
  have hi : ∀ t, t < T.nz → (reallocArr T.i k.toNat jk.nat).g t = T.i.g t := by
    intro t ht; rw [g_reallocArr _ _ _ _ (by omega) (by omega)]
  have hj : ∀ t, t < T.nz → (reallocArr T.j k.toNat jk.nat).g t = T.j.g t := by
    intro t ht; rw [g_reallocArr _ _ _ _ (by omega) (by omega)]
  refine ⟨⟨?_, by simp, ?_, ?_, ?_, hT.field_ok⟩, rfl, rfl, rfl, rfl, ?_, by simp, ?_⟩
  · simp only [size_reallocArr]; omega
  · intro a ha
    simp only [Option.map_eq_some_iff] at ha
    obtain ⟨b, -, rfl⟩ := ha
    simp
  · intro t ht; simp only at ht ⊢; rw [hi t ht]; exact hT.i_lt t ht
  · intro t ht; simp only at ht ⊢; rw [hj t ht]; exact hT.j_lt t ht
  · simp
  · intro t ht
    refine ⟨hi t ht, hj t ht, ?_⟩
    unfold Triplet.val
    cases hx : T.x with
    | none => rfl
    | some a =>
      simp only [Option.map_some]
      rw [g_reallocArr _ _ _ _ (by omega) (by rw [hT.x_size a hx]; omega)]

theorem sum_range_congr' {q : ℕ} {n : Nat} {f g : Nat → ZMod q} (h : ∀ k, k < n → f k = g k) :
    ∑ k ∈ range n, f k = ∑ k ∈ range n, g k :=
  Finset.sum_congr rfl (fun k hk => h k (mem_range.mp hk))

/-- One call of `spasm_add_entry` on a matrix with values. -/
theorem add_entry_spec (jk : Junk) {T : Triplet} {q : ℕ} (hT : T.WFV q) (i j : Nat) (x : Int) :
    Ok (add_entry jk T i j x) (fun S => S.WFV q ∧ S.F = T.F ∧
      (∀ a b, S.sum q a b = T.sum q a b + if a = i ∧ b = j then (x : ZMod q) else 0) ∧
      T.n ≤ S.n ∧ T.m ≤ S.m ∧ T.nz ≤ S.nz ∧
      (S.n = T.n ∧ S.m = T.m ∧ S.nz = T.nz ∨
        S.n = max T.n (i + 1) ∧ S.m = max T.m (j + 1) ∧ S.nz = T.nz + 1) ∧
      (∀ t, t < T.nz → S.i.g t = T.i.g t ∧ S.j.g t = T.j.g t ∧ S.val t = T.val t)) := by
  unfold add_entry
  simp only [Ok_bind, Ok_cassert]
  refine ⟨by simp, ?_⟩
  have main : ∀ S : Triplet, S.WF → S.n = T.n → S.m = T.m → S.nz = T.nz → S.F = T.F →
      S.x.isSome = true → T.nz < S.i.size →
      (∀ t, t < T.nz → S.i.g t = T.i.g t ∧ S.j.g t = T.j.g t ∧ S.val t = T.val t) →
      Ok (match S.x with
        | some a => do
          let xp ← ZZp_init S.F x
          if xp = 0 then .ok S
          else do
            let a ← wr a T.nz xp
            (do
              let ti ← wr S.i T.nz (i : Int).toNat
              let tj ← wr S.j T.nz (j : Int).toNat
              .ok { S with x := some a, i := ti, j := tj, nz := S.nz + 1,
                           n := max S.n ((i : Int).toNat + 1),
                           m := max S.m ((j : Int).toNat + 1) } : C Triplet)
        | none => do
          let ti ← wr S.i T.nz (i : Int).toNat
          let tj ← wr S.j T.nz (j : Int).toNat
          .ok { S with i := ti, j := tj, nz := S.nz + 1, n := max S.n ((i : Int).toNat + 1),
                       m := max S.m ((j : Int).toNat + 1) })
      (fun S => S.WFV q ∧ S.F = T.F ∧
      (∀ a b, S.sum q a b = T.sum q a b + if a = i ∧ b = j then (x : ZMod q) else 0) ∧
      T.n ≤ S.n ∧ T.m ≤ S.m ∧ T.nz ≤ S.nz ∧
      (S.n = T.n ∧ S.m = T.m ∧ S.nz = T.nz ∨
        S.n = max T.n (i + 1) ∧ S.m = max T.m (j + 1) ∧ S.nz = T.nz + 1) ∧
      (∀ t, t < T.nz → S.i.g t = T.i.g t ∧ S.j.g t = T.j.g t ∧ S.val t = T.val t)) := by
    intro S hS hn hm hz hF hx hsz hsame
    obtain ⟨a, ha⟩ := Option.isSome_iff_exists.mp hx
    rw [ha]
    simp only [Ok_bind]
    have hg : S.F.Good q := by rw [hF]; exact hT.good
    apply init_zmod hg
    intro r hr hrv
    have hsum : ∀ c d, S.sum q c d = T.sum q c d := by
      intro c d
      unfold Triplet.sum
      rw [hz]
      apply sum_range_congr'
      intro k hk
      obtain ⟨h1, h2, h3⟩ := hsame k hk
      rw [h1, h2, h3]
    by_cases h0 : r = 0
    · rw [if_pos h0, Ok_ok]
      have hx0 : (x : ZMod q) = 0 := by rw [← hrv, h0]; simp
      refine ⟨⟨hS, by rw [hF]; exact hT.good, hx, ?_⟩, hF, ?_, by omega, by omega, by omega,
        Or.inl ⟨hn, hm, hz⟩, hsame⟩
      · intro k hk
        rw [(hsame k (by omega)).2.2]
        exact hT.bal k (by omega)
      · intro c d
        rw [hsum, hx0]; simp
    · rw [if_neg h0]
      have e1 : ((i : Int)).toNat = i := by omega
      have e2 : ((j : Int)).toNat = j := by omega
      have hjs := hS.j_size
      have has := hS.x_size a ha
      simp only [Ok_bind, Ok_wr, Ok_ok, e1, e2]
      refine ⟨by omega, by omega, by omega, ?_⟩
      have hold : ∀ t, t < T.nz → (S.i.upd T.nz i).g t = T.i.g t ∧ (S.j.upd T.nz j).g t = T.j.g t ∧
          (a.upd T.nz r).g t = T.val t := by
        intro t ht
        obtain ⟨h1, h2, h3⟩ := hsame t ht
        rw [g_upd_ne _ _ _ _ (by omega), g_upd_ne _ _ _ _ (by omega), g_upd_ne _ _ _ _ (by omega)]
        refine ⟨h1, h2, ?_⟩
        rw [← h3]; unfold Triplet.val; rw [ha]
      have hnew : (S.i.upd T.nz i).g T.nz = i ∧ (S.j.upd T.nz j).g T.nz = j ∧
          (a.upd T.nz r).g T.nz = r := by
        rw [g_upd_eq _ _ _ (by omega), g_upd_eq _ _ _ (by omega), g_upd_eq _ _ _ (by omega)]
        exact ⟨rfl, rfl, rfl⟩
      refine ⟨⟨⟨?_, ?_, ?_, ?_, ?_, hS.field_ok⟩, ?_, rfl, ?_⟩, hF, ?_, ?_, ?_, ?_,
        Or.inr ⟨by rw [hn], by rw [hm], by rw [hz]⟩, ?_⟩
      · simp only [size_upd]; omega
      · simp only [size_upd]; omega
      · intro b hb
        simp only [Option.some.injEq] at hb
        rw [← hb]; simp only [size_upd]; omega
      · intro k hk
        simp only at hk ⊢
        by_cases he : k = T.nz
        · subst he; rw [hnew.1]; omega
        · rw [(hold k (by omega)).1]
          have := hT.i_lt k (by omega)
          omega
      · intro k hk
        simp only at hk ⊢
        by_cases he : k = T.nz
        · subst he; rw [hnew.2.1]; omega
        · rw [(hold k (by omega)).2.1]
          have := hT.j_lt k (by omega)
          omega
      · exact hg
      · intro k hk
        simp only at hk
        unfold Triplet.val
        simp only
        by_cases he : k = T.nz
        · subst he; rw [hnew.2.2]; exact ⟨hr, h0⟩
        · rw [(hold k (by omega)).2.2]; exact hT.bal k (by omega)
      · intro c d
        unfold Triplet.sum Triplet.val
        simp only
        rw [hz, Finset.sum_range_succ, hnew.1, hnew.2.1, hnew.2.2, hrv]
        congr 1
        · apply sum_range_congr'
          intro k hk
          obtain ⟨h1, h2, h3⟩ := hold k hk
          rw [h1, h2, h3]; rfl
        · simp only [eq_comm]
      · omega
      · omega
      · omega
      · exact hold
  by_cases hc : T.nz = T.i.size
  · rw [if_pos hc, Ok_bind]
    refine (triplet_realloc_spec jk hT.toWF (k := 1 + 2 * (T.i.size : Int)) (by omega)).mono ?_
    rintro S ⟨h1, h2, h3, h4, h5, h6, h7, h8⟩
    exact main S h1 h2 h3 h4 h5 (by rw [h6]; exact hT.has_x) (by omega) h8
  · rw [if_neg hc, Ok_bind, Ok_ok]
    have := hT.i_size
    exact main T hT.toWF rfl rfl rfl rfl hT.has_x (by omega) (fun t _ => ⟨rfl, rfl, rfl⟩)

end Spasm
