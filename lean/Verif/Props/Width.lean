import Verif.Proofs.WidthScc
import Verif.Proofs.Tools
import Verif.Props.Triplet
import Verif.Props.Kernel
import Verif.Props.Scc
import Verif.Props.Io

/-!
C64: matrices with `2^31` entries or more.  The numbers of entries are 64-bit numbers in the data structures and in
the files; some functions put positions in variables of type `int` (Model/Width.lean).
-/

namespace Spasm

open Sha Commit

/-! ### `spasm_compress` -/

/-- C64 (partial, `spasm_compress`). With less than `2^31` entries, C10 holds for the code with the `int` counter.
Missing: it must hold for all the matrices, but see `C64_compress`. -/
theorem C64_compress_partial (jk : Junk) (q : ℕ) (T : Triplet) (hT : T.WFV q) (hz : T.nz < 2 ^ 31)
    (hc : ∀ i j, i + 1 < T.n → T.Has i j → T.sum q i j ≠ 0) :
    Ok (compress_int jk T) (fun A => A.WFV q ∧ A.n = T.n ∧ A.m = T.m ∧ A.NoDup ∧ A.NoZero ∧
      ∀ i j, i < T.n → A.entry q i j = T.sum q i j) := by
  rw [compress_int_small jk hz]
  exact C10_compress_partial jk q T hT hc

/-- C64 (negation, `spasm_compress`). Every matrix with `2^31` entries or more makes the behaviour undefined. -/
theorem C64_compress (jk : Junk) (T : Triplet) (hT : T.WF) (hz : 2 ^ 31 ≤ T.nz) : compress_int jk T = .error .ub :=
  compress_int_big jk hT hz

/-- C64 (negation, files). A matrix with `2^31` entries or more is saved in a file and loaded again without problem;
but it cannot be compressed, as all the programs do next. -/
theorem C64_file (jk : Junk) (jw : Nat → W) {q : ℕ} {T : Triplet} (hT : T.WFV q) (hn : T.n < 2 ^ 31)
    (hm : T.m < 2 ^ 31) (hz : 2 ^ 31 ≤ T.nz) {hash : Option (Array B)} (hh : HashBuf hash) :
    Ok (triplet_save T) (fun text => Ok (triplet_load jk jw text q hash) (fun r =>
      r.1.lst = T.lst ∧ compress_int jk r.1 = .error .ub)) := by
  refine (C41_triplet jk jw hT hn hm hh).mono fun text h => h.mono ?_
  rintro r ⟨h1, -, -, -, h2⟩
  refine ⟨h2, C64_compress jk r.1 h1 ?_⟩
  have := congrArg List.length h2
  unfold Triplet.lst at this
  rw [List.length_map, List.length_map, List.length_range, List.length_range] at this
  omega

/-- A matrix full of ones, by rows, in triplets. -/
def onesTriplet (n m : Nat) : Triplet :=
  { n := n, m := m, nz := n * m, i := mkArr (n * m) (· / m), j := mkArr (n * m) (· % m),
    x := some (mkArr (n * m) fun _ => 1), F := Field.ofPrime 7 }

theorem onesTriplet_wfv (n m : Nat) : (onesTriplet n m).WFV 7 := by
  have hp : ∀ k, k < n * m → 0 < m := fun k hk => by
    rcases Nat.eq_zero_or_pos m with h | h
    · subst h; omega
    · exact h
  refine { i_size := by simp [onesTriplet], j_size := by simp [onesTriplet], x_size := ?_, i_lt := ?_, j_lt := ?_,
           field_ok := (.inr ⟨by show (2 : Int) ≤ 7; decide, by show (7 : Int) ≤ 0xfffffffb; decide⟩), good := good_ofPrime 7 (by decide) (by decide), has_x := rfl, bal := ?_ }
  · rintro a ha; cases ha; simp [onesTriplet]
  · intro k hk
    have hk : k < n * m := hk
    show (mkArr (n * m) (· / m)).g k < n
    rw [g_mkArr _ _ _ hk]
    exact Nat.div_lt_of_lt_mul (by rw [Nat.mul_comm]; exact hk)
  · intro k hk
    have hk : k < n * m := hk
    show (mkArr (n * m) (· % m)).g k < m
    rw [g_mkArr _ _ _ hk]
    exact Nat.mod_lt _ (hp k hk)
  · intro k hk
    have hk : k < n * m := hk
    have : (onesTriplet n m).val k = 1 := by
      show (mkArr (n * m) fun _ => (1 : Int)).g k = 1
      rw [g_mkArr _ _ _ hk]
    rw [this]
    exact ⟨by unfold Bal; decide, by decide⟩

/-- The hypotheses of `C64_compress` and `C64_file` are met: a dense matrix with 50000 rows and columns. -/
example : compress_int default (onesTriplet 50000 50000) = .error .ub :=
  C64_compress default _ (onesTriplet_wfv _ _).toWF (by show 2 ^ 31 ≤ 50000 * 50000; norm_num)

example (jw : Nat → W) : ∃ n m, Ok (triplet_save (onesTriplet n m)) (fun text =>
    Ok (triplet_load default jw text (7 : ℕ) none) (fun r => r.1.lst = (onesTriplet n m).lst ∧
      compress_int default r.1 = .error .ub)) := by
  obtain ⟨n, h1, h2⟩ : ∃ n : Nat, n < 2 ^ 31 ∧ 2 ^ 31 ≤ n * n := ⟨50000, by norm_num, by norm_num⟩
  exact ⟨n, n, C64_file default jw (onesTriplet_wfv n n) h1 h1 h2 (by rintro _ h; cases h)⟩

/-- The hypotheses of `C64_compress_partial` are met (by the example of C10). -/
example : exT.WFV 7 ∧ exT.nz < 2 ^ 31 := ⟨exT_wfv, by decide⟩

/-! ### `spasm_kernel_from_rref` and `spasm_rref` -/

/-- C64 (partial, `spasm_kernel_from_rref`). If the last row of `R` starts before position `2^31`, C19 holds for the
code with the `int` positions. -/
theorem C64_kernel_from_rref_partial (jk : Junk) (q : ℕ) (U R : Csr) (rq : Array Int) (h : IsRref q U R rq)
    (hx : R.x.isSome = true) (hq : q ≤ 2 ^ 31) (hz : ∀ i, i < R.n → R.p.g i < 2 ^ 31) :
    ∃ K, kernel_from_rref_int jk R rq = .ok K ∧ K.WF ∧ IsKernel q R K ∧
      ∀ k, k < K.n → ∃ j tl, j < R.m ∧ rq.g j < 0 ∧ K.row k = (j, (q : Int) - 1) :: tl ∧
        ∀ e ∈ tl, 0 ≤ rq.g e.1 ∧ Small q e.2 := by
  rw [kernel_from_rref_int_small jk rq hz]
  exact C19_partial jk q U R rq h hx hq

/-- C64 (negation, `spasm_kernel_from_rref`). Every reduced row echelon form with a row that starts at position `2^31`
or after makes the behaviour undefined. -/
theorem C64_kernel_from_rref (jk : Junk) (q : ℕ) (U R : Csr) (rq : Array Int) (h : IsRref q U R rq)
    (hm : R.m < 2 ^ 31) (hz : ∃ i, i < R.n ∧ 2 ^ 31 ≤ R.p.g i) : kernel_from_rref_int jk R rq = .error .ub :=
  kernel_from_rref_int_big jk rq h.ech.wfv.toWF h.nodup h.ech.ne h.ech.n_le hm hz

/-- C64 (negation, `spasm_rref`). When the rows of `R` are complete, if one of them starts at position `2^31` or after,
the behaviour is undefined, for every input, number of threads and scheduling. -/
theorem C64_rref (jk : Junk) (q : ℕ) (U : Csr) (qinv rq : Array Int) (h : Echelon q U qinv) (hrq : U.m ≤ rq.size)
    (hm : U.m < 2 ^ 31) (T : Nat) (rows : Fin T → List Nat) (hc : ∑ t, (rows t : Multiset Nat) = Multiset.range U.n) :
    ∃ k R0 jobs, nnz U = .ok k ∧ csr_alloc jk U.n U.m k U.F.p true = .ok R0 ∧
      (∀ t, rref_thread jk U qinv (rows t) = .ok (jobs t)) ∧
      ∀ s : St T, Reach (rrefCfg U.m) jk.int (rows_init R0 U.n jobs) s → s.Finished →
        ((∃ i, i < U.n ∧ 2 ^ 31 ≤ (s.toCsr R0.n R0.m R0.F).p.g i) →
          rref_qinv_int (s.toCsr R0.n R0.m R0.F) rq = .error .ub) ∧
        ((∀ i, i < U.n → (s.toCsr R0.n R0.m R0.F).p.g i < 2 ^ 31) →
          ∃ a, rref_qinv_int (s.toCsr R0.n R0.m R0.F) rq = .ok a ∧ IsRref q U (s.toCsr R0.n R0.m R0.F) a) := by
  obtain ⟨k, R0, jobs, h1, h2, h3, h4⟩ := C20_safe jk q U qinv rq h hrq T rows hc
  refine ⟨k, R0, jobs, h1, h2, h3, ?_⟩
  intro s hs hf
  obtain ⟨a, ha⟩ := (h4 s hs).2.2.2 hf
  have hR := (C20_result jk q U qinv rq h hrq (s.toCsr R0.n R0.m R0.F) a
    ⟨T, rows, jobs, R0, k, s, hc, h1, h2, h3, hs, hf, rfl, ha⟩).1
  have hn := hR.n_eq
  have hmm := hR.m_eq
  refine ⟨?_, ?_⟩
  · intro hz
    exact rref_qinv_int_big hR.ech.wfv.toWF hR.nodup hR.ech.ne (by rw [hmm]; exact hrq) (by rw [hmm]; exact hm)
      (by rw [hn]; exact hz)
  · intro hz
    refine ⟨a, ?_, hR⟩
    rw [rref_qinv_int_small rq (by rw [hn]; exact hz)]
    exact ha

/-- The matrix `(I | 1)` with `N` rows and `2 N` columns. -/
def farR (N : Nat) : Csr :=
  { n := N, m := 2 * N, p := mkArr (N + 1) (· * (N + 1)),
    j := mkArr (N * (N + 1)) fun k => if k % (N + 1) = 0 then k / (N + 1) else N - 1 + k % (N + 1),
    x := some (mkArr (N * (N + 1)) fun _ => 1), F := Field.ofPrime 7 }

/-- The array that goes with it. -/
def farQ (N : Nat) : Array Int := mkArr (2 * N) fun j => if j < N then (j : Int) else -1

theorem farR_p {N i : Nat} (hi : i ≤ N) : (farR N).p.g i = i * (N + 1) := g_mkArr _ _ _ (by omega)

theorem farR_pos {N k : Nat} (hk : k < N * (N + 1)) :
    k / (N + 1) < N ∧ k % (N + 1) ≤ N ∧ k = k / (N + 1) * (N + 1) + k % (N + 1) := by
  refine ⟨Nat.div_lt_of_lt_mul (by rw [Nat.mul_comm]; exact hk), Nat.lt_succ_iff.mp (Nat.mod_lt _ (by omega)), ?_⟩
  exact (Nat.div_add_mod' k (N + 1)).symm

theorem farR_row {N i k : Nat} (hi : i < N) (h1 : (farR N).p.g i ≤ k) (h2 : k < (farR N).p.g (i + 1)) :
    k < N * (N + 1) ∧ ∃ r, r ≤ N ∧ k = i * (N + 1) + r ∧ (farR N).j.g k = if r = 0 then i else N - 1 + r := by
  rw [farR_p (by omega)] at h1
  rw [farR_p (by omega)] at h2
  have h3 : (i + 1) * (N + 1) ≤ N * (N + 1) := Nat.mul_le_mul_right _ hi
  have h4 : (i + 1) * (N + 1) = i * (N + 1) + (N + 1) := by ring
  have hk : k < N * (N + 1) := by omega
  refine ⟨hk, k - i * (N + 1), by omega, by omega, ?_⟩
  have hm : k % (N + 1) = k - i * (N + 1) := by
    have : k = (k - i * (N + 1)) + i * (N + 1) := by omega
    conv_lhs => rw [this]
    rw [Nat.add_mul_mod_self_right, Nat.mod_eq_of_lt (by omega)]
  have hd : k / (N + 1) = i := Nat.div_eq_of_lt_le (by omega) (by rw [h4]; omega)
  show (mkArr (N * (N + 1)) _).g k = _
  rw [g_mkArr _ _ _ hk, hm, hd]

theorem farR_rref {N : Nat} : IsRref 7 (farR N) (farR N) (farQ N) := by
  have hpn : (farR N).p.g N = N * (N + 1) := farR_p le_rfl
  have hstep : ∀ i, (i + 1) * (N + 1) = i * (N + 1) + (N + 1) := fun i => by ring
  have hpos : ∀ k, k < N * (N + 1) → ∃ i, i < N ∧ (farR N).p.g i ≤ k ∧ k < (farR N).p.g (i + 1) := by
    intro k hk
    obtain ⟨h1, h2, h3⟩ := farR_pos hk
    refine ⟨_, h1, ?_, ?_⟩
    · rw [farR_p (by omega)]; omega
    · rw [farR_p (by omega), hstep]; omega
  have hval : ∀ k, k < N * (N + 1) → (farR N).val k = 1 := fun k hk => by
    show (mkArr (N * (N + 1)) fun _ => (1 : Int)).g k = 1
    rw [g_mkArr _ _ _ hk]
  have hpiv : ∀ i, i < N → (farR N).pivot i = i := by
    intro i hi
    obtain ⟨-, r, h1, h2, h3⟩ := farR_row (k := (farR N).p.g i) hi le_rfl
      (by rw [farR_p (by omega), farR_p (by omega), hstep]; omega)
    rw [farR_p (by omega)] at h2
    have : r = 0 := by omega
    subst this
    exact h3
  have hin : ∀ i k, i < N → k < N → i ≠ k → ¬ (farR N).InRow k i := by
    rintro i k hi hk hne ⟨p, h1, h2, h3⟩
    obtain ⟨-, r, h4, h5, h6⟩ := farR_row hk h1 h2
    rw [h6] at h3
    split at h3 <;> omega
  have hnd : (farR N).NoDup := by
    intro i hi k l h1 h2 h3 h4 he
    have hi : i < N := hi
    obtain ⟨-, r, e1, e2, e3⟩ := farR_row hi h1 h2
    obtain ⟨-, r', f1, f2, f3⟩ := farR_row hi h3 h4
    rw [e3, f3] at he
    split at he <;> split at he <;> omega
  have hsp : ∀ i, i < N → InSpan 7 (farR N) ((farR N).entry 7 i) := by
    intro i hi
    refine ⟨fun k => if k = i then 1 else 0, fun c _ => ?_⟩
    rw [Finset.sum_eq_single i]
    · simp
    · intro b _ hb; simp [hb]
    · intro hn; exact absurd (Finset.mem_range.mpr hi) hn
  have hq : ∀ j, j < 2 * N → (farQ N).g j = if j < N then (j : Int) else -1 := fun j hj => g_mkArr _ _ _ hj
  refine { ech := ?_, n_eq := rfl, m_eq := rfl, nodup := hnd, nozero := ?_, reduced := ?_, sub := hsp, sup := hsp }
  · refine { wfv := ?_, size := by show 2 * N ≤ _; simp [farQ], ge := ?_, lt := ?_, ne := ?_, piv := ?_, loc := ?_, one := ?_,
             once := ?_, tri := ?_ }
    · refine { p_size := by simp [farR], p_zero := ?_, p_mono := ?_, p_nnz := ?_, j_lt := ?_, x_size := ?_, field_ok := (.inr ⟨by show (2 : Int) ≤ 7; decide, by show (7 : Int) ≤ 0xfffffffb; decide⟩),
               good := good_ofPrime 7 (by decide) (by decide), has_x := fun _ => rfl, small := ?_ }
      · rw [farR_p (Nat.zero_le _), Nat.zero_mul]
      · intro i hi
        have hi : i < N := hi
        rw [farR_p (by omega), farR_p (by omega), hstep]; omega
      · show (farR N).p.g N ≤ _
        rw [hpn]; simp [farR]
      · intro k hk
        have hk : k < (farR N).p.g N := hk
        rw [hpn] at hk
        obtain ⟨i, hi, h1, h2⟩ := hpos k hk
        obtain ⟨-, r, h4, h5, h6⟩ := farR_row hi h1 h2
        rw [h6]
        show _ < 2 * N
        split <;> omega
      · rintro a ha
        cases ha
        show (farR N).p.g N ≤ _
        rw [hpn]; simp
      · intro k hk
        have hk : k < (farR N).p.g N := hk
        rw [hpn] at hk
        rw [hval k hk]
        unfold Small; decide
    · intro j hj
      rw [hq j hj]; split <;> omega
    · intro j hj
      have hj : j < 2 * N := hj
      show _ < (N : Int)
      rw [hq j hj]; split <;> omega
    · intro i hi
      have hi : i < N := hi
      rw [farR_p (by omega), farR_p (by omega), hstep]; omega
    · intro i hi
      have hi : i < N := hi
      rw [hpiv i hi, hq i (by omega), if_pos hi]
    · intro j hj h0
      have hj : j < 2 * N := hj
      rw [hq j hj] at h0 ⊢
      split at h0
      · rename_i hjN
        rw [if_pos hjN, Int.toNat_natCast, hpiv j hjN]
      · omega
    · intro i hi
      have hi : i < N := hi
      rw [farR_p (by omega)]
      have : (i + 1) * (N + 1) ≤ N * (N + 1) := Nat.mul_le_mul_right _ hi
      rw [hstep] at this
      exact hval _ (by omega)
    · intro i hi k h1 h2 he
      have hi : i < N := hi
      rw [hpiv i hi] at he
      obtain ⟨-, r, h4, h5, h6⟩ := farR_row hi h1.le h2
      rw [farR_p (by omega)] at h1
      rw [h6] at he
      split at he <;> omega
    · intro i k hik hk
      have hk : k < N := hk
      rw [hpiv i (by omega)]
      exact hin i k (by omega) hk (by omega)
  · intro k hk
    have hk : k < (farR N).p.g N := hk
    rw [hpn] at hk
    rw [hval k hk]; decide
  · intro i k hi hk hne
    have hi : i < N := hi
    rw [hpiv i hi]
    exact hin i k hi hk hne

/-- The hypotheses of `C64_kernel_from_rref` are met. -/
example : kernel_from_rref_int default (farR 65536) (farQ 65536) = .error .ub :=
  C64_kernel_from_rref default 7 _ _ _ farR_rref (by show 2 * 65536 < 2 ^ 31; norm_num)
    ⟨32768, by show 32768 < 65536; norm_num, by rw [farR_p (by norm_num)]; norm_num⟩

theorem farR_entry {N i c : Nat} (hi : i < N) (h1 : N ≤ c) (h2 : c < 2 * N) : (farR N).entry 7 i c = 1 := by
  have hstep : (i + 1) * (N + 1) = i * (N + 1) + (N + 1) := by ring
  unfold Csr.entry
  rw [Finset.sum_eq_single (i * (N + 1) + (c - N + 1))]
  · obtain ⟨hk, r, e1, e2, e3⟩ := farR_row (k := i * (N + 1) + (c - N + 1)) hi (by rw [farR_p (by omega)]; omega)
      (by rw [farR_p (by omega), hstep]; omega)
    rw [if_neg (show r ≠ 0 by omega)] at e3
    rw [e3, if_pos (by omega)]
    have : (farR N).val (i * (N + 1) + (c - N + 1)) = 1 := by
      show (mkArr (N * (N + 1)) fun _ => (1 : Int)).g _ = 1
      rw [g_mkArr _ _ _ hk]
    rw [this]; rfl
  · intro k hk hne
    have hk := Finset.mem_Ico.mp hk
    obtain ⟨-, r, e1, e2, e3⟩ := farR_row hi hk.1 hk.2
    rw [if_neg]
    rw [e3]
    split <;> omega
  · intro hn
    refine absurd (Finset.mem_Ico.mpr ⟨?_, ?_⟩) hn
    · rw [farR_p (by omega)]; omega
    · rw [farR_p (by omega), hstep]; omega

/-- A row with `N` nonzero entries has at least `N` stored entries. -/
theorem weight_ge {q : ℕ} {R : Csr} {i a N : Nat} (h : ∀ c, a ≤ c → c < a + N → R.entry q i c ≠ 0) :
    R.p.g i + N ≤ R.p.g (i + 1) ∨ N = 0 := by
  classical
  have hin : ∀ c, a ≤ c → c < a + N → ∃ k ∈ Finset.Ico (R.p.g i) (R.p.g (i + 1)), R.j.g k = c := by
    intro c h1 h2
    by_contra hc
    push Not at hc
    refine h c h1 h2 ?_
    unfold Csr.entry
    exact Finset.sum_eq_zero fun k hk => if_neg (hc k hk)
  have hsub : Finset.Ico a (a + N) ⊆ (Finset.Ico (R.p.g i) (R.p.g (i + 1))).image fun k => R.j.g k := by
    intro c hc
    have hc := Finset.mem_Ico.mp hc
    obtain ⟨k, h1, h2⟩ := hin c hc.1 hc.2
    exact Finset.mem_image.mpr ⟨k, h1, h2⟩
  have := (Finset.card_le_card hsub).trans Finset.card_image_le
  rw [Nat.card_Ico, Nat.card_Ico] at this
  omega

/-- The hypotheses of `C64_rref` are met, and both the far rows and the end of the run: echelonizing `(I | 1)` again. -/
example (jk : Junk) (rq : Array Int) (hrq : 2 * 65536 ≤ rq.size) (T : Nat) (rows : Fin T → List Nat)
    (hc : ∑ t, (rows t : Multiset Nat) = Multiset.range 65536) :
    ∃ k R0 jobs, nnz (farR 65536) = .ok k ∧ csr_alloc jk 65536 (2 * 65536) k (farR 65536).F.p true = .ok R0 ∧
      (∀ t, rref_thread jk (farR 65536) (farQ 65536) (rows t) = .ok (jobs t)) ∧
      (∃ s : St T, Reach (rrefCfg (2 * 65536)) jk.int (rows_init R0 65536 jobs) s ∧ s.Finished) ∧
      ∀ s : St T, Reach (rrefCfg (2 * 65536)) jk.int (rows_init R0 65536 jobs) s → s.Finished →
        rref_qinv_int (s.toCsr R0.n R0.m R0.F) rq = .error .ub := by
  obtain ⟨N, hN⟩ : ∃ N : Nat, N = 65536 := ⟨_, rfl⟩
  rw [← hN] at hrq hc ⊢
  obtain ⟨k, R0, jobs, h1, h2, h3, h4⟩ := C20_safe jk 7 (farR N) (farQ N) rq farR_rref.ech hrq T rows hc
  obtain ⟨k', R0', jobs', h1', h2', h3', h5⟩ := C64_rref jk 7 (farR N) (farQ N) rq farR_rref.ech hrq
    (by show 2 * N < 2 ^ 31; omega) T rows hc
  have ek : k' = k := by rw [h1] at h1'; injection h1' with e; exact e.symm
  subst ek
  have eR : R0' = R0 := by rw [h2] at h2'; injection h2' with e; exact e.symm
  subst eR
  have ej : jobs' = jobs := by
    funext t
    have := h3' t
    rw [h3 t] at this
    injection this with e; exact e.symm
  subst ej
  refine ⟨k', R0', jobs', h1, h2, h3, (h4 _ .init).2.2.1, ?_⟩
  intro s hs hf
  refine (h5 s hs hf).1 ?_
  obtain ⟨a, ha⟩ := (h4 s hs).2.2.2 hf
  obtain ⟨hR, hpv⟩ := C20_result jk 7 (farR N) (farQ N) rq farR_rref.ech hrq (s.toCsr R0'.n R0'.m R0'.F) a
    ⟨T, rows, jobs', R0', k', s, hc, h1, h2, h3, hs, hf, rfl, ha⟩
  generalize s.toCsr R0'.n R0'.m R0'.F = R at hR
  have hn : R.n = N := hR.n_eq
  have hw : ∀ i, i < N → R.p.g i + N ≤ R.p.g (i + 1) := by
    intro i hi
    obtain ⟨k, hk, -, he⟩ := C20_unique 7 (farR N) R (farR N) a (farQ N) hR farR_rref hpv i (by omega)
    refine (weight_ge (q := 7) (a := N) (N := N) fun c h1 h2 => ?_).resolve_right (by omega)
    rw [← he c (by show c < 2 * N; omega), farR_entry (N := N) hk h1 (by omega)]
    decide
  have hp : ∀ i, i ≤ N → i * N ≤ R.p.g i := by
    intro i
    induction i with
    | zero => intro _; rw [Nat.zero_mul]; omega
    | succ i ih =>
      intro hi
      have e1 := ih (by omega)
      have e2 := hw i (by omega)
      have : (i + 1) * N = i * N + N := by ring
      omega
  refine ⟨32768, by show 32768 < N; omega, ?_⟩
  have := hp 32768 (by omega)
  rw [hN] at this
  omega

/-! ### `spasm_strongly_connected_components` -/

/-- C64 (partial, strongly connected components). With less than `2^31` entries, C33 holds for the code with the `int`
positions.  Missing: all the matrices, but see `C64_scc`. -/
theorem C64_scc_partial (jk : Junk) (A : Csr) (hA : A.WF) (hsq : A.n = A.m) (hp : A.p.size = A.n + 1)
    (hz : A.p.g A.n < 2 ^ 31) : Ok (strongly_connected_components_int jk A) (IsScc A) := by
  rw [scc_int_small jk]
  · exact C33_scc jk A hA hsq
  · intro i hi
    have hn : ∀ d i, i + d = A.n → A.p.g i ≤ A.p.g A.n := by
      intro d
      induction d with
      | zero => intro i h; rw [← h]; exact le_rfl
      | succ d ih => intro i h; exact le_trans (hA.p_mono i (by omega)) (ih (i + 1) (by omega))
    exact lt_of_le_of_lt (hn (A.n - i) i (by omega)) hz

/-- The hypotheses of `C64_scc_partial` are met. -/
example : exScc.p.size = exScc.n + 1 ∧ exScc.p.g exScc.n < 2 ^ 31 := by decide

/-- The complete graph with `N` nodes. -/
def completeGraph (N : Nat) : Csr :=
  { n := N, m := N, p := mkArr (N + 1) (· * N), j := mkArr (N * N) (· % N), x := none, F := Field.ofPrime 7 }

theorem completeGraph_spec (N : Nat) : Complete (completeGraph N) N := by
  refine ⟨rfl, rfl, by simp [completeGraph], by simp [completeGraph], fun i hi => g_mkArr _ _ _ (by omega), ?_⟩
  intro i px hi hpx
  have : (i + 1) * N ≤ N * N := Nat.mul_le_mul_right _ hi
  have e : (i + 1) * N = i * N + N := by ring
  show (mkArr (N * N) (· % N)).g (i * N + px) = px
  rw [g_mkArr _ _ _ (by omega), Nat.mul_comm, Nat.mul_add_mod, Nat.mod_eq_of_lt hpx]

theorem completeGraph_wf (N : Nat) : (completeGraph N).WF ∧ (completeGraph N).NoDup := by
  have h := completeGraph_spec N
  have hs : ∀ i, (i + 1) * N = i * N + N := fun i => by ring
  have hj : ∀ k, k < N * N → (completeGraph N).j.g k = k % N := fun k hk => g_mkArr _ _ _ hk
  have hN : (completeGraph N).p.g N = N * N := h.p N le_rfl
  refine ⟨⟨by simp [completeGraph], ?_, ?_, ?_, ?_, ?_, ?_⟩, ?_⟩
  · rw [h.p 0 (Nat.zero_le _), Nat.zero_mul]
  · intro i hi
    have hi : i < N := hi
    rw [h.p i (by omega), h.p (i + 1) (by omega), hs]; omega
  · show (completeGraph N).p.g N ≤ _
    rw [hN, h.j_size]
  · intro k hk
    have hk : k < (completeGraph N).p.g N := hk
    rw [hN] at hk
    rw [hj k hk]
    refine Nat.mod_lt _ ?_
    rcases Nat.eq_zero_or_pos N with h0 | h0
    · subst h0; omega
    · exact h0
  · rintro a ha; cases ha
  · exact .inr ⟨by show (2 : Int) ≤ 7; decide, by show (7 : Int) ≤ 0xfffffffb; decide⟩
  · intro i hi k l h1 h2 h3 h4 he
    have hi : i < N := hi
    rw [h.p i (by omega)] at h1 h3
    rw [h.p (i + 1) (by omega), hs] at h2 h4
    have a := h.j i (k - i * N) hi (by omega)
    have b := h.j i (l - i * N) hi (by omega)
    rw [show i * N + (k - i * N) = k by omega] at a
    rw [show i * N + (l - i * N) = l by omega] at b
    omega

/-- C64 (negation, strongly connected components): a square matrix, without repeated entry, on which C33 fails: the
behaviour is undefined. -/
theorem C64_scc (jk : Junk) : ∃ A : Csr, A.WF ∧ A.NoDup ∧ A.n = A.m ∧ A.p.size = A.n + 1 ∧
    strongly_connected_components_int jk A = .error .ub := by
  obtain ⟨N, t, h1, h2⟩ : ∃ N t : Nat, t * N = 2 ^ 31 ∧ t < N := ⟨65536, 32768, by norm_num, by norm_num⟩
  exact ⟨completeGraph N, (completeGraph_wf N).1, (completeGraph_wf N).2, rfl, by simp [completeGraph],
    scc_int_complete jk (completeGraph_spec N) h1 h2⟩

/-! ### tools/stack.c -/

/-- C64 (negation, `stack`). If the matrix has at least `2^31` entries and less than `2^32`, the tool renumbers
nothing, and announces a matrix without row nor column; thus all the entries are out of the matrix. -/
theorem C64_stack (jk : Junk) (T : Triplet) (h1 : 2 ^ 31 ≤ T.nz) (h2 : T.nz < 2 ^ 32) :
    stack_matrix jk T = .ok { T with n := 0, m := 0 } ∧ ¬ ({ T with n := 0, m := 0 } : Triplet).WF := by
  have hz : (toI32 (T.nz : Int)).toNat = 0 := by
    have := toI32_neg (x := (T.nz : Int)) (by exact_mod_cast h1) (by exact_mod_cast h2)
    omega
  have key : ∀ n, Ok (stack_zero jk n >>= fun p => stack_number n p) (fun s => s.2 = 0) := by
    intro n
    rw [Ok_bind]
    refine (stack_zero_spec jk n).mono ?_
    rintro p ⟨hp1, hp2⟩
    unfold stack_number
    refine (Ok_forRange (I := fun _ s => s = (p, (0 : Int))) (Nat.zero_le _) rfl ?_).mono ?_
    · rintro i s - hi rfl
      rw [Ok_bind, Ok_rd]
      refine ⟨by show i < p.size; omega, ?_⟩
      show Ok (if p.g i > 0 then _ else _) _
      rw [hp2 i hi, if_neg (by decide), Ok_ok]
    · rintro s rfl; rfl
  constructor
  · have : Ok (stack_matrix jk T) (fun S => S = { T with n := 0, m := 0 }) := by
      unfold stack_matrix
      rw [hz]
      have a := key T.n
      have b := key T.m
      rw [Ok_bind] at a b ⊢
      obtain ⟨p, ep, hp⟩ := Ok_iff.mp a
      obtain ⟨r, er, hq⟩ := Ok_iff.mp b
      obtain ⟨⟨p', u⟩, e1, hu⟩ := Ok_iff.mp hp
      obtain ⟨⟨r', v⟩, e2, hv⟩ := Ok_iff.mp hq
      simp only at hu hv
      subst hu hv
      rw [ep, Ok_ok, Ok_bind, er, Ok_ok, Ok_bind]
      show Ok (stack_number T.n p >>= _) _
      rw [Ok_bind, e1, Ok_ok]
      show Ok (stack_number T.m r >>= _) _
      rw [Ok_bind, e2, Ok_ok]
      rfl
    obtain ⟨S, e, rfl⟩ := Ok_iff.mp this
    exact e
  · intro h
    have := h.i_lt 0 (by show 0 < T.nz; omega)
    exact absurd this (Nat.not_lt_zero _)

/-- The hypotheses of `C64_stack` are met: all the rows and columns of this matrix have entries. -/
example : stack_matrix default (onesTriplet 50000 50000) = .ok { onesTriplet 50000 50000 with n := 0, m := 0 } :=
  (C64_stack default _ (by show 2 ^ 31 ≤ 50000 * 50000; norm_num) (by show 50000 * 50000 < 2 ^ 32; norm_num)).1

end Spasm
