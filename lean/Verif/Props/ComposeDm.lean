import Verif.Props.DmWritten
import Verif.Props.Compose
import Verif.Props.Moves

/-!
C78: chains of programs with `dm`.
-/

namespace Spasm

open Sha

theorem dm_decompose_nozero (jk : Junk) {A : Csr} (hA : A.WF) (hz : A.NoZero) :
    Ok (dm_decompose jk A) (fun r => r.2.NoZero) := by
  unfold dm_decompose
  rw [Ok_bind]
  refine (C34_dulmage_mendelsohn jk A hA).mono ?_
  rintro D ⟨h1, -, -⟩
  rw [Ok_bind]
  refine (C05_pinv jk (some D.q) A.m (by rintro a h; cases h; exact h1.q_size.ge) h1.perm_q).mono ?_
  rintro qinv ⟨a1, a2, a3, a4⟩
  rw [Ok_bind]
  refine (C06_permute jk A hA (some D.p) qinv true (by rintro a h; cases h; exact h1.p_size.ge) h1.perm_p a1 a2).mono ?_
  rintro B ⟨b1, b2, b3, b4, -⟩
  rw [noZero_iff hA] at hz
  rw [Ok_ok, noZero_iff b1]
  intro i hi e he
  rw [b2] at hi
  rw [b4 i hi] at he
  obtain ⟨a, ha, rfl⟩ := List.mem_map.mp he
  exact hz _ (h1.perm_p.1 i hi) a ha

/-- C78 (clean files, `dm`). -/
theorem C78_clean_dm (jk : Junk) (jw : Nat → W) {f : List Char} {n m : Nat} {l : List (Int × Int × Int)}
    (hf : IsFile f n m l) (hc : NoCancel 42013 l) {g : List Char} (hg : tool_dm jk jw f = .ok g) :
    ∃ l', IsFile g n m l' ∧ Distinct l' ∧ ∀ e ∈ l', (e.2.2 : ZMod 42013) ≠ 0 := by
  have key : Ok (tool_dm jk jw f) (fun g => ∃ l', IsFile g n m l' ∧ Distinct l' ∧ ∀ e ∈ l', (e.2.2 : ZMod 42013) ≠ 0) := by
    unfold tool_dm
    refine tool_load jk jw (q := 42013) (by omega) hf hc ?_
    intro A hA
    rw [Ok_bind]
    refine ((dm_decompose_spec jk hA.wfv.toWF).and ((dm_decompose_nodup jk hA.wfv.toWF hA.nodup).and
      (dm_decompose_nozero jk hA.wfv.toWF hA.nozero))).mono ?_
    rintro ⟨D, B⟩ ⟨⟨h1, -, -, hB, hBn, hBm, hBz, -, hBe, hBv⟩, hnd, hnz⟩
    simp only at *
    have hAn := hA.n_eq
    have hAm := hA.m_eq
    have hsB : ∀ k, k < B.p.g B.n → Small 42013 (B.val k) := by
      intro k hk
      have hx : A.x.isSome = true := hA.wfv.has_x (by omega)
      exact (hBv 42013 hx hA.wfv).small k hk
    refine (save_file hB (by rw [hBn, hAn]; exact hf.n_lt) (by rw [hBm, hAm]; exact hf.m_lt) ?_).mono ?_
    · intro k hk
      exact small_lt hA.wfv.good (hsB k hk)
    rintro g ⟨g1, -⟩
    rw [hBn, hBm, hAn, hAm] at g1
    refine ⟨_, g1, distinct_lst hB hnd, ?_⟩
    intro e he
    unfold fromOne Csr.lst at he
    simp only [List.map_flatMap, List.mem_flatMap, List.map_map, List.mem_map, List.mem_range,
      Function.comp_apply] at he
    obtain ⟨i, hi, a, ha, rfl⟩ := he
    have hne := (noZero_iff hB).mp hnz i hi a ha
    obtain ⟨k, k1, k2, rfl⟩ := Csr.mem_seg.mp ha
    intro h0
    exact hne ((small_eq_zero_iff hA.wfv.good.two_le (hsB k (hB.row_lt hi k2))).mp h0)
  rwa [hg, Ok_ok] at key

/-- C78. `dm` then `dm --verbose`: the numbers printed are those printed for the first file, with the sizes of the
components in some order. -/
theorem C78_dm_report (jk jk2 jk3 : Junk) (jw jw2 jw3 : Nat → W) {f : List Char} {n m : Nat} {l : List (Int × Int × Int)}
    (hf : IsFile f n m l) (hc : NoCancel 42013 l) (hnm : n + m < 2 ^ 31) :
    Ok (do let g ← tool_dm jk jw f
           tool_dm_verbose jk2 jw2 g) (fun t => ∃ s h w k v u sizes sizes', sizes.Perm sizes' ∧
      tool_dm_verbose jk3 jw3 f = .ok (dmReport s h w k v u sizes) ∧ t = dmReport s h w k v u sizes') := by
  rw [Ok_bind]
  obtain ⟨g, e, l1, p, q, -, -, -, -, -, -, h1, hp, hq, h2, -⟩ := Ok_iff.mp (C85_written jk jk jw jw hf hc)
  obtain ⟨_, s1, s2, -⟩ := C78_clean_dm jk jw hf hc e
  rw [e, Ok_ok]
  obtain ⟨s, h, w, k, v, u, z, z', a1, a2, a3⟩ := C85_report jk3 jk2 jw3 jw2 hf h1 hc (s1.distinct h1 s2).noCancel hnm hp hq
    (fun i j hi hj => by rw [h2 i j hi hj])
  exact Ok_iff.mpr ⟨_, a3, s, h, w, k, v, u, z, z', a1, a2, rfl⟩

/-- C78. `transpose` then `dm --verbose`: the horizontal and vertical parts are exchanged, as well as rows and columns. -/
theorem C78_transpose_dm (jk jk2 jk3 : Junk) (jw jw2 jw3 : Nat → W) {f : List Char} {n m : Nat} {l : List (Int × Int × Int)}
    (hf : IsFile f n m l) (hc : NoCancel 42013 l) (hnm : n + m < 2 ^ 31) :
    Ok (do let g ← tool_transpose jk jw f
           tool_dm_verbose jk2 jw2 g) (fun t => ∃ s h w k v u sizes sizes', sizes.Perm sizes' ∧
      tool_dm_verbose jk3 jw3 f = .ok (dmReport s h w k v u sizes) ∧ t = dmReport s u v k w h sizes') := by
  rw [Ok_bind]
  obtain ⟨g, e, l1, h1, h2⟩ := Ok_iff.mp (C43_transpose jk jw hf hc)
  obtain ⟨_, s1, s2, -⟩ := C78_clean_transpose jk jw hf hc e
  rw [e, Ok_ok]
  obtain ⟨s, h, w, k, v, u, z, z', a1, a2, a3⟩ := C85_transpose jk3 jk2 jw3 jw2 hf h1 hc (s1.distinct h1 s2).noCancel hnm
    (fun i j hi hj => by
      have := congrFun (congrFun h2 ⟨j, hj⟩) ⟨i, hi⟩
      have : fileEntry 42013 l1 j i = fileEntry 42013 l i j := this
      rw [this])
  exact Ok_iff.mpr ⟨_, a3, s, h, w, k, v, u, z, z', a1, a2, rfl⟩

/-- C78. `dm` then `rank` modulo 42013: the rank of the matrix. -/
theorem C78_dm_rank (jk jk2 : Junk) (jw jw2 : Nat → W) (h0 : Nat → B) (env : Env) (opts : Opts)
    (hx : Exact jk2 42013 env opts) {f : List Char} {n m : Nat} {l : List (Int × Int × Int)} (hf : IsFile f n m l)
    (hc : NoCancel 42013 l) (allow : Bool) :
    Ok (do let g ← tool_dm jk jw f
           tool_rank jk2 jw2 h0 env opts g 42013 allow) (fun r => r = (fileMat 42013 n m l).rank) := by
  have := prime_42013
  rw [Ok_bind]
  obtain ⟨g, e, l1, p, q, -, -, -, -, -, -, h1, hp, hq, h2, -⟩ := Ok_iff.mp (C85_written jk jk jw jw hf hc)
  obtain ⟨_, s1, s2, -⟩ := C78_clean_dm jk jw hf hc e
  rw [e, Ok_ok]
  refine (rank_exact (q := 42013) jk2 jw2 env opts (by norm_num) h1 (s1.distinct h1 s2).noCancel hx h0 allow).mono ?_
  rintro _ rfl
  exact rank_moved hp hq h2

/-- The hypotheses are met. -/
example : IsFile exSms 2 3 [(1, 2, -9), (2, 3, 14), (2, 1, 1)] ∧ NoCancel 42013 [(1, 2, -9), (2, 3, 14), (2, 1, 1)] ∧
    2 + 3 < 2 ^ 31 ∧ Exact default 42013 exEnvP exDenseOpts :=
  ⟨exSms_file, exSms_noCancel 42013, by decide, exExactP⟩

/-- The chains for this file: `exSms` has a horizontal part and a square part, its transpose a square part and a vertical
part. -/
example : (do let g ← tool_dm default exJw exSms
              tool_dm_verbose default exJw g) = tool_dm_verbose default exJw exSms ∧
    (do let g ← tool_transpose default exJw exSms
        tool_dm_verbose default exJw g) =
      .ok "structural rank = 2\n*) S (1 x 1) : \n    -> plus 1 SCC of size 1\n*) V (2 x 1)\n".toList := by
  decide +kernel

end Spasm
