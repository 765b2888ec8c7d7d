import Verif.Proofs.Width

/-!
The strongly connected components of a complete graph with so many nodes that a row starts at position `2^31`.
-/

namespace Spasm

/-- A complete graph: `N` nodes, row `i` is `0, 1, …, N - 1`. -/
structure Complete (A : Csr) (N : Nat) : Prop where
  n : A.n = N
  m : A.m = N
  p_size : N < A.p.size
  j_size : A.j.size = N * N
  p : ∀ i, i ≤ N → A.p.g i = i * N
  j : ∀ i px, i < N → px < N → A.j.g (i * N + px) = px

/-- After `i` pushes: nodes `0, …, i` are on the stack, all but the last one are marked. -/
structure Chain (N i : Nat) (s : Scc) : Prop where
  j : s.j = i
  top : s.top = i + 1
  marks_size : s.marks.size = N
  prev_size : s.prev.size = N
  pstack_size : s.pstack.size = N
  stack_size : s.stack.size = N
  low_size : s.low.size = N
  marks : ∀ k, k < N → (0 ≤ s.marks.g k ↔ k < i)
  pstack : ∀ k, i ≤ k → k < N → s.pstack.g k = 0

theorem chain_step {A : Csr} {N t i : Nat} (hA : Complete A N) (ht : t * N = 2 ^ 31) (htN : t < N) (hi : i < t) {s : Scc}
    (h : Chain N i s) : Ok (scc_step_int A i s) (Chain N (i + 1)) := by
  unfold scc_step_int scc_init
  have hm : ¬ 0 ≤ s.marks.g i := by rw [h.marks i (by omega)]; omega
  have a1 := h.marks_size
  have a2 := h.low_size
  have a3 := hA.p_size
  have hlo := hA.p i (by omega)
  have hhi := hA.p (i + 1) (by omega)
  have hw : (i + 1) * N - i * N = N := by rw [Nat.add_mul, Nat.one_mul]; omega
  have hb : (i + 1) * N ≤ t * N := Nat.mul_le_mul_right _ hi
  have hb2 : (i + 1) * N = i * N + N := by ring
  have hNN : t * N ≤ N * N := Nat.mul_le_mul_right _ (by omega)
  simp only [Ok_bind, Ok_rd]
  refine ⟨by omega, ?_⟩
  rw [if_pos (by omega)]
  simp only [Ok_bind, Ok_wr, Ok_ok]
  refine ⟨by omega, by omega, by omega, by omega, ?_⟩
  rw [hlo, hhi, hw]
  set s' : Scc := { s with low := s.low.upd i (s.index : Int), marks := s.marks.upd i (s.index : Int), index := s.index + 1 }
    with hs'
  have hmk : ∀ k, k < N → (0 ≤ s'.marks.g k ↔ k < i + 1) := by
    intro k hk
    show 0 ≤ (s.marks.upd i (s.index : Int)).g k ↔ _
    by_cases he : k = i
    · subst he; rw [g_upd_eq _ _ _ (by omega)]; omega
    · rw [g_upd_ne _ _ _ _ he, h.marks k hk]; omega
  have hscan : Ok (scc_scan_int A i (i * N) N s') (fun r => r.1 = i + 1 ∧ r.2.1 = true ∧ r.2.2.size = N) := by
    unfold scc_scan_int
    rw [Ok_bind, Ok_rd]
    have hps : s'.pstack.g i = 0 := h.pstack i le_rfl (by omega)
    refine ⟨by show i < s.pstack.size; rw [h.pstack_size]; omega, ?_⟩
    rw [hps, Ok_bind]
    refine (Ok_forBrk (I := fun px (t : Bool × Array Int) => px ≤ i + 1 ∧ t.2.size = N)
      (B := fun px (t : Bool × Array Int) => px = i + 1 ∧ t.1 = true ∧ t.2.size = N) (Nat.zero_le _)
      ⟨Nat.zero_le _, by show (s.low.upd i _).size = N; simpa using a2⟩ ?_).mono ?_
    · intro px bl _ hpx hI
      obtain ⟨b, low⟩ := bl
      have h1 : px ≤ i + 1 := And.left hI
      have h2 : low.size = N := And.right hI
      have b0 : s'.marks.size = N := by show (s.marks.upd i _).size = _; simpa using a1
      have hlt : i * N + px < 2 ^ 31 := by omega
      rw [← Nat.cast_add, rdI_small _ hlt, Ok_bind, Ok_rd, hA.j_size, hA.j i px (by omega) hpx, Ok_bind, Ok_rd]
      refine ⟨by omega, by omega, ?_⟩
      have := hmk px hpx
      by_cases hk : px < i + 1
      · rw [if_pos (this.mpr hk)]
        simp only [Ok_bind, Ok_rd, Ok_wr, Ok_ok, size_upd]
        exact ⟨by omega, by omega, by omega, by omega, h2⟩
      · rw [if_neg (fun hc => hk (this.mp hc)), Ok_ok]
        exact ⟨by omega, rfl, h2⟩
    · rintro ⟨px, b, low⟩ (⟨_, _, h1⟩ | ⟨h1, h2⟩)
      · exact h1
      · simp only at h1 h2
        omega
  refine hscan.mono ?_
  rintro ⟨px, b, low⟩ ⟨h1, h2, h3⟩
  simp only at h1 h2 h3
  subst h1 h2
  show Ok (scc_push_int A i (i * N) (i + 1) { s' with low := low }) _
  unfold scc_push_int
  rw [← Nat.cast_add, rdI_small _ (by omega)]
  simp only [Ok_bind, Ok_rd, Ok_wr, Ok_ok]
  rw [hA.j_size, hA.j i (i + 1) (by omega) (by omega)]
  have b1 : s'.pstack.size = N := h.pstack_size
  have b2 : s'.stack.size = N := h.stack_size
  have b3 : s'.prev.size = N := h.prev_size
  have b4 : s'.top = i + 1 := h.top
  refine ⟨by omega, by omega, by show s'.top < s'.stack.size; omega, by show i + 1 < s'.prev.size; omega, ?_⟩
  refine ⟨by push_cast; rfl, ?_, ?_, ?_, ?_, ?_, ?_, hmk, ?_⟩
  · show s'.top + 1 = _; omega
  · show (s.marks.upd i _).size = _; simpa using a1
  · simpa using b3
  · simpa using b1
  · simpa using b2
  · exact h3
  · intro k hk hkN
    show (s'.pstack.upd i _).g k = 0
    rw [g_upd_ne _ _ _ _ (by omega)]
    exact h.pstack k (by omega) hkN

theorem chain_last {A : Csr} {N t : Nat} (hA : Complete A N) (ht : t * N = 2 ^ 31) (htN : t < N) {s : Scc}
    (h : Chain N t s) : scc_step_int A t s = .error .ub := by
  unfold scc_step_int scc_init
  have hm : ¬ 0 ≤ s.marks.g t := by rw [h.marks t (by omega)]; omega
  have a1 := h.marks_size
  have a2 := h.low_size
  have a3 := hA.p_size
  have hlo := hA.p t (by omega)
  have hhi := hA.p (t + 1) (by omega)
  have hw : (t + 1) * N - t * N = N := by rw [Nat.add_mul, Nat.one_mul]; omega
  refine ub_bind_ok (R := fun s' => s'.pstack = s.pstack) ?_ fun s' hs' => ?_
  · simp only [Ok_bind, Ok_rd]
    refine ⟨by omega, ?_⟩
    rw [if_pos (by omega)]
    simp only [Ok_bind, Ok_wr, Ok_ok]
    exact ⟨by omega, by omega, trivial⟩
  rw [rd_in (by omega), ok_bind_eq, rd_in (by omega), ok_bind_eq, hlo, hhi, hw]
  refine ub_bind ?_ _
  unfold scc_scan_int
  rw [rd_in (by rw [hs', h.pstack_size]; omega), ok_bind_eq, hs', h.pstack t le_rfl (by omega)]
  refine ub_bind ?_ _
  unfold forBrk
  refine ub_bind ?_ _
  have hN : N - 0 = (N - 1) + 1 := by omega
  rw [hN, forBrkN]
  refine ub_bind (ub_bind ?_ _) _
  rw [← Nat.cast_add, ht]
  exact rdI_ub _ (by norm_num) (by norm_num)

theorem chain_run {A : Csr} {N t : Nat} (hA : Complete A N) (ht : t * N = 2 ^ 31) (htN : t < N) (d : Nat) :
    ∀ (i fuel : Nat) (s : Scc), i + d = t → d < fuel → Chain N i s →
    whileFuel fuel s (fun s => (do
      if 0 ≤ s.j then do
        let s ← scc_step_int A s.j.toNat s
        .ok (.cont s)
      else .ok (.brk s) : C (Step Scc))) = .error .ub := by
  induction d with
  | zero =>
    intro i fuel s h1 h2 h3
    obtain ⟨k, rfl⟩ : ∃ k, fuel = k + 1 := ⟨fuel - 1, by omega⟩
    rw [whileFuel]
    refine ub_bind ?_ _
    have hj := h3.j
    rw [if_pos (by omega)]
    have : s.j.toNat = i := by omega
    rw [this]
    have : i = t := by omega
    subst this
    exact ub_bind (chain_last hA ht htN h3) _
  | succ d ih =>
    intro i fuel s h1 h2 h3
    obtain ⟨k, rfl⟩ : ∃ k, fuel = k + 1 := ⟨fuel - 1, by omega⟩
    rw [whileFuel]
    have hj := h3.j
    have e : s.j.toNat = i := by omega
    refine ub_bind_ok (R := fun r => ∃ s', r = .cont s' ∧ Chain N (i + 1) s') ?_ ?_
    · rw [if_pos (by omega), e, Ok_bind]
      exact (chain_step hA ht htN (by omega) h3).mono fun s' hs' => ⟨s', rfl, hs'⟩
    · rintro r ⟨s', rfl, hs'⟩
      exact ih (i + 1) k s' (by omega) (by omega) hs'

theorem scc_int_complete (jk : Junk) {A : Csr} {N t : Nat} (hA : Complete A N) (ht : t * N = 2 ^ 31) (htN : t < N) :
    strongly_connected_components_int jk A = .error .ub := by
  unfold strongly_connected_components_int
  have hn := hA.n
  have hm := hA.m
  refine ub_bind_ok (R := fun _ => True) (by simp [hn, hm]) fun _ _ => ?_
  refine ub_bind_ok (Ok_forRange (I := fun i (s : Array Int × Array Int × Array Nat) => s.1.size = N ∧ s.2.1.size = N ∧
    s.2.2.size = N ∧ (∀ k, k < i → s.1.g k = -1) ∧ ∀ k, k < i → s.2.2.g k = 0) (Nat.zero_le _)
    (by simp [hn]) ?_) ?_
  · rintro i ⟨a, b, c⟩ - hi ⟨h1, h2, h3, h4, h5⟩
    simp only at h1 h2 h3 h4 h5
    simp only [Ok_bind, Ok_wr, Ok_ok, size_upd]
    refine ⟨by omega, by omega, by omega, h1, h2, h3, ?_, ?_⟩
    · intro k hk
      by_cases he : k = i
      · subst he; exact g_upd_eq _ _ _ (by omega)
      · rw [g_upd_ne _ _ _ _ he]; exact h4 k (by omega)
    · intro k hk
      by_cases he : k = i
      · subst he; exact g_upd_eq _ _ _ (by omega)
      · rw [g_upd_ne _ _ _ _ he]; exact h5 k (by omega)
  · rintro ⟨marks, prev, pstack⟩ ⟨h1, h2, h3, h4, h5⟩
    simp only at h1 h2 h3 h4 h5
    refine ub_bind_ok (R := fun _ => True) (by simp [dm_alloc]) fun rr _ => ?_
    refine ub_bind ?_ _
    refine ub_forRange (I := fun _ (s : Scc) => s.marks = marks ∧ s.stack.size = N ∧ s.prev = prev ∧ s.pstack = pstack ∧
      s.low.size = N) 0 ⟨rfl, by simp [hn], rfl, rfl, by simp [hn]⟩ le_rfl (by omega) (fun _ _ _ h => by omega) ?_
    rintro s ⟨k1, k2, k3, k4, k5⟩
    rw [rd_in (by rw [k1, h1]; omega), ok_bind_eq, k1, h4 0 (by omega), if_neg (by decide)]
    unfold scc_dfs_int
    refine ub_bind_ok (R := fun st => st.size = N) ?_ fun st hst => ?_
    · rw [Ok_wr]; exact ⟨by omega, by simpa using k2⟩
    refine chain_run hA ht htN t 0 _ _ (by omega) (by omega) ⟨rfl, rfl, ?_, ?_, ?_, hst, k5, ?_, ?_⟩
    · show s.marks.size = N; rw [k1, h1]
    · show s.prev.size = N; rw [k3, h2]
    · show s.pstack.size = N; rw [k4, h3]
    · intro k hk
      show 0 ≤ s.marks.g k ↔ _
      rw [k1, h4 k (by omega)]; omega
    · intro k _ hk
      show s.pstack.g k = 0
      rw [k4]; exact h5 k (by omega)

end Spasm
