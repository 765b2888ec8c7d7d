import Verif.Proofs.File
import Verif.Props.CertFile

/-! The buffer of the hash keeps its size. -/

namespace Spasm

open Sha

theorem wr_kept {α : Type} {a b : Array α} {i : Nat} {v : α} (h : wr a i v = .ok b) : b.size = a.size := by
  unfold wr at h
  split at h
  · cases h; simp [Array.upd]
  · cases h

theorem HOST_l2c_kept {l : W} {c d : Array B} {off : Nat} (h : HOST_l2c l c off = .ok d) : d.size = c.size := by
  unfold HOST_l2c at h
  obtain ⟨c1, h1, h⟩ := bind_ok_split h
  obtain ⟨c2, h2, h⟩ := bind_ok_split h
  obtain ⟨c3, h3, h⟩ := bind_ok_split h
  rw [wr_kept h, wr_kept h3, wr_kept h2, wr_kept h1]

theorem forN_kept {σ : Type} {f : Nat → σ → C σ} {μ : σ → Nat} (hf : ∀ i s s', f i s = .ok s' → μ s' = μ s) :
    ∀ k lo s s', forN lo k s f = .ok s' → μ s' = μ s := by
  intro k
  induction k with
  | zero => intro lo s s' h; cases h; rfl
  | succ k ih =>
    intro lo s s' h
    obtain ⟨s1, h1, h⟩ := bind_ok_split (show (f lo s >>= fun s => forN (lo + 1) k s f) = .ok s' from h)
    rw [ih _ _ _ h, hf _ _ _ h1]

theorem SHA256_final_kept {jk : Nat → W} {md : Array B} {c : Ctx} {r : Array B × Ctx}
    (h : SHA256_final jk md c = .ok r) : r.1.size = md.size := by
  unfold SHA256_final at h
  obtain ⟨_, -, h⟩ := bind_ok_split h
  obtain ⟨_, -, h⟩ := bind_ok_split h
  obtain ⟨_, -, h⟩ := bind_ok_split h
  obtain ⟨_, -, h⟩ := bind_ok_split h
  obtain ⟨_, -, h⟩ := bind_ok_split h
  obtain ⟨_, -, h⟩ := bind_ok_split h
  obtain ⟨_, -, h⟩ := bind_ok_split h
  obtain ⟨_, -, h⟩ := bind_ok_split h
  obtain ⟨md', h1, h⟩ := bind_ok_split h
  cases h
  refine forN_kept (μ := Array.size) ?_ _ _ _ _ h1
  intro i s s' hs
  obtain ⟨ll, -, hs⟩ := bind_ok_split hs
  exact HOST_l2c_kept hs

theorem load_hash_kept {jk : Junk} {jw : Nat → W} {f : List Char} {prime : Int} {md : Array B}
    {r : Triplet × Option (Array B)} (h : triplet_load jk jw f prime (some md) = .ok r) :
    ∃ md', r.2 = some md' ∧ md'.size = md.size := by
  unfold triplet_load at h
  obtain ⟨⟨hd, g, ctx⟩, -, h⟩ := bind_ok_split h
  obtain ⟨_, -, h⟩ := bind_ok_split h
  obtain ⟨s, -, h⟩ := bind_ok_split h
  unfold load_end at h
  obtain ⟨T, -, h⟩ := bind_ok_split h
  cases hc : s.ctx with
  | none =>
    rw [hc] at h
    cases h
    exact ⟨md, rfl, rfl⟩
  | some c =>
    rw [hc] at h
    obtain ⟨r', h1, h⟩ := bind_ok_split (show (SHA256_final jw md c >>= fun r => Except.ok (T, some r.1)) = .ok r from h)
    cases h
    exact ⟨r'.1, rfl, SHA256_final_kept h1⟩

/-- Loading with a hash. -/
theorem load_file_hash (jk : Junk) (jw : Nat → W) {q : ℕ} (hq : 2 ≤ q ∧ q ≤ 0xfffffffb) {f : List Char} {n m : Nat}
    {l : List (Int × Int × Int)} (h : IsFile f n m l) {md : Array B} (hh : md.size = 32) :
    Ok (triplet_load jk jw f q (some md)) (fun r => FileTriplet q n m l r.1 ∧ ∃ md', r.2 = some md' ∧ md'.size = 32) := by
  have hl := load_file jk jw hq h (hash := some md) (by rintro _ h; cases h; exact hh)
  obtain ⟨r, e, h1⟩ := Ok_iff.mp hl
  rw [e]
  obtain ⟨md', h2, h3⟩ := load_hash_kept e
  exact ⟨h1, md', h2, by rw [h3, hh]⟩

end Spasm
