import Verif.Proofs.Wp
import Verif.Proofs.DenseSolve

namespace Spasm

open Finset Sha

theorem hash_eq_spec {a b : Array B} (ha : a.size = 32) (hb : b.size = 32) :
    Ok (cert_hash_eq a b) (fun r => r = true ↔ a = b) := by
  unfold cert_hash_eq
  rw [Ok_bind]
  refine (Ok_forBrk (I := fun i _ => ∀ k, k < i → a.g k = b.g k) (B := fun i _ => a.g i ≠ b.g i)
    (by omega) (fun k hk => by omega) ?_).mono ?_
  · rintro i s - hi hI
    rw [Ok_bind, Ok_rd]
    refine ⟨by omega, ?_⟩
    rw [Ok_bind, Ok_rd]
    refine ⟨by omega, ?_⟩
    by_cases h : a.g i ≠ b.g i
    · rw [if_pos h, Ok_ok]; exact h
    · rw [if_neg h, Ok_ok]
      intro k hk
      by_cases he : k = i
      · rw [he]; exact not_not.mp h
      · exact hI k (by omega)
  · rintro ⟨t, s⟩ (⟨h1, h2, h3⟩ | ⟨h1, h2⟩)
    · simp only at h1 h2 h3 ⊢
      rw [Ok_ok]
      constructor
      · intro h; simp at h; omega
      · intro h; rw [h] at h3; exact absurd rfl h3
    · simp only at h1 h2 ⊢
      rw [Ok_ok]
      refine ⟨fun _ => array_ext_g (by omega) (fun i hi => h2 i (by omega)), fun _ => by simp [h1]⟩

theorem range_spec {n m : Nat} {c : Cert} (hi : c.r ≤ c.i.size) (hj : c.r ≤ c.j.size) :
    Ok (cert_range n m c) (fun b => b = true ↔ ∀ k, k < c.r →
      (0 ≤ c.i.g k ∧ c.i.g k < n) ∧ (0 ≤ c.j.g k ∧ c.j.g k < m)) := by
  unfold cert_range
  rw [Ok_bind]
  refine (Ok_forBrk (I := fun t _ => ∀ k, k < t → (0 ≤ c.i.g k ∧ c.i.g k < n) ∧ (0 ≤ c.j.g k ∧ c.j.g k < m))
    (B := fun t _ => ¬ ((0 ≤ c.i.g t ∧ c.i.g t < n) ∧ (0 ≤ c.j.g t ∧ c.j.g t < m)))
    (by omega) (fun k hk => by omega) ?_).mono ?_
  · rintro t s - ht hI
    rw [Ok_bind, Ok_rd]
    refine ⟨by omega, ?_⟩
    by_cases h : c.i.g t < 0 ∨ (n : Int) ≤ c.i.g t
    · rw [if_pos h, Ok_ok]
      simp only
      omega
    · rw [if_neg h, Ok_bind, Ok_rd]
      refine ⟨by omega, ?_⟩
      by_cases h' : c.j.g t < 0 ∨ (m : Int) ≤ c.j.g t
      · rw [if_pos h', Ok_ok]
        simp only
        omega
      · rw [if_neg h', Ok_ok]
        intro k hk
        by_cases he : k = t
        · subst he; omega
        · exact hI k (by omega)
  · rintro ⟨t, s⟩ (⟨h1, h2, h3⟩ | ⟨h1, h2⟩)
    · simp only at h1 h2 h3 ⊢
      rw [Ok_ok]
      constructor
      · intro h; simp at h; omega
      · intro h; exact absurd (h t h2) h3
    · simp only at h1 h2 ⊢
      rw [Ok_ok]
      exact ⟨fun _ => h2, fun _ => by simp [h1]⟩

theorem put_spec {r n : Nat} {ii v x : Array Int} (hi : r ≤ ii.size) (hv : r ≤ v.size) (hx : n ≤ x.size)
    (hr : ∀ k, k < r → 0 ≤ ii.g k ∧ ii.g k < n) :
    Ok (cert_put r ii v x) (fun y => y.size = x.size ∧
      ∀ i, i < n → y.g i = (lastAt ii.g v.g i r).getD (x.g i)) := by
  unfold cert_put
  refine Ok_forRange_imp (I := fun k (y : Array Int) => y.size = x.size ∧
      ∀ i, i < n → y.g i = (lastAt ii.g v.g i k).getD (x.g i)) (Nat.zero_le _) ?_ ?_ (fun s h => h)
  · exact ⟨rfl, fun i _ => rfl⟩
  · rintro k y - hk ⟨h1, h2⟩
    have := hr k hk
    rw [Ok_bind, Ok_rd]
    refine ⟨by omega, ?_⟩
    rw [Ok_bind, Ok_rd]
    refine ⟨by omega, ?_⟩
    rw [Ok_wrI]
    refine ⟨by omega, by omega, by simpa using h1, ?_⟩
    intro i hin
    rw [lastAt]
    by_cases he : i = (ii.g k).toNat
    · rw [he, g_upd_eq _ _ _ (by omega), if_pos (by omega)]
      rfl
    · rw [g_upd_ne _ _ _ _ he, if_neg (by omega)]
      exact h2 i hin

theorem const_fill {x : Array Int} {n : Nat} (hx : n ≤ x.size) (v : Int) :
    Ok (forRange 0 n x fun i x => wr x i v) (fun y => y.size = x.size ∧ ∀ i, i < n → y.g i = v) := by
  refine Ok_forRange_imp (I := fun i (y : Array Int) => y.size = x.size ∧ (∀ k, k < i → y.g k = v))
    (Nat.zero_le _) ⟨rfl, fun k hk => by omega⟩ ?_ (fun s h => h)
  rintro i y - hi ⟨h1, h2⟩
  rw [Ok_wr]
  refine ⟨by omega, by simpa using h1, ?_⟩
  intro k hk
  by_cases he : k = i
  · rw [he, g_upd_eq _ _ _ (by omega)]
  · rw [g_upd_ne _ _ _ _ he]; exact h2 k (by omega)

theorem zeroes_spec {m : Nat} {y : Array Int} (hy : m ≤ y.size) (b : Bool) :
    Ok (cert_zero m y b) (fun r => r = true ↔ b = true ∧ ∀ j, j < m → y.g j = 0) := by
  unfold cert_zero
  refine Ok_forRange_imp (I := fun t (r : Bool) => r = true ↔ b = true ∧ ∀ j, j < t → y.g j = 0)
    (Nat.zero_le _) (by simp) ?_ (fun s h => h)
  rintro i r - hi h1
  rw [Ok_bind, Ok_rd]
  refine ⟨by omega, ?_⟩
  rw [Ok_ok]
  by_cases h : y.g i = 0
  · rw [if_neg (by simpa using h), h1]
    refine and_congr_right fun _ => ⟨fun h2 j hj => ?_, fun h2 j hj => h2 j (by omega)⟩
    by_cases he : j = i
    · rw [he]; exact h
    · exact h2 j (by omega)
  · rw [if_pos h]
    refine ⟨fun h => by simp at h, fun h2 => absurd (h2.2 i (by omega)) h⟩

section
variable {e : Prop} {jw : Nat → W} {fuel : Nat} {seed : List Fips.Byte} {q K : Nat}

theorem cmp_spec (hd : DrawSpec e jw fuel seed q K) {c : Cert} {y : Array Int} {m : Nat} (hK : c.r ≤ K)
    (hj : c.r ≤ c.j.size) (hy : m ≤ y.size) (hr : ∀ k, k < c.r → 0 ≤ c.j.g k ∧ c.j.g k < m)
    (hyb : ∀ j, j < m → Bal q (y.g j)) {ctx : Prng} (hg : Gen seed q 0 ctx) :
    Wp e (cert_cmp jw fuel c y ctx) (fun s => Gen seed q c.r s.1 ∧
      (s.2 = true ↔ ∀ k, k < c.r → (y.g (c.j.g k).toNat : ZMod q) = challenge seed q k)) := by
  unfold cert_cmp
  refine Wp_forRange (I := fun t (s : Prng × Bool) => Gen seed q t s.1 ∧
    (s.2 = true ↔ ∀ k, k < t → (y.g (c.j.g k).toNat : ZMod q) = challenge seed q k)) (Nat.zero_le _)
    ⟨hg, by simp⟩ ?_
  rintro k ⟨cx, b⟩ - hk ⟨h1, h2⟩
  simp only at h1 h2 ⊢
  have hrk := hr k hk
  rw [Wp_bind]
  refine Wp_rd _ _ _ (by omega) ?_
  rw [Wp_bind]
  refine Ok.wp ((Ok_rdI _ _ _).2 ⟨by omega, by omega, ?_⟩)
  rw [Wp_bind]
  refine (hd k cx (by omega) h1).mono ?_
  rintro ⟨v, cx'⟩ ⟨v1, v2, v3⟩
  rw [Wp_ok]
  simp only at v1 v2 v3 ⊢
  refine ⟨v3, ?_⟩
  by_cases hc : y.g (c.j.g k).toNat = v
  · rw [if_neg (by simpa using hc), h2]
    refine ⟨fun h k' hk' => ?_, fun h k' hk' => h k' (by omega)⟩
    by_cases he : k' = k
    · rw [he, hc, v2]
    · exact h k' (by omega)
  · rw [if_pos hc]
    refine ⟨fun h => by simp at h, fun h => ?_⟩
    exfalso
    apply hc
    apply bal_unique (hyb _ (by omega)) v1
    rw [h k (by omega), v2]

theorem bal_ne_bot {F : Field} {q : ℕ} (hF : F.Good q) {v : Int} (h : Bal q v) : v ≠ BOT := by
  have := hF.le_max
  unfold Bal at h
  unfold BOT
  omega

theorem fill_skip {x : Array Int} {i : Nat} {α : Type} {f : C α} {g : C α} (hi : i < x.size) (h : x.g i ≠ BOT) :
    (do let xi ← rd x i; if xi = BOT then f else g) = g := by
  have hrd : rd x i = .ok (x.g i) := by
    have := (Ok_rd x i (fun v => v = x.g i)).2 ⟨by omega, rfl⟩
    rw [Ok_iff] at this
    obtain ⟨a, h1, h2⟩ := this
    rw [h1, h2]
  rw [hrd]
  exact if_neg h

/-- Both loops that replace the marks `BOT`, by the challenge (`f v = v`) or its opposite. -/
theorem fill_loop {n k0 : Nat} {x : Array Int} (hx : n ≤ x.size)
    (hK : k0 + Nat.count (fun i => x.g i = BOT) n ≤ K) {ctx : Prng} (hg : Gen seed q k0 ctx)
    (f : Int → Int) (body : Nat → Prng × Array Int → C (Prng × Array Int))
    (hbody : ∀ i s k, i < n → s.2.size = x.size → k < K → Gen seed q k s.1 → s.2.g i = BOT →
      Wp e (body i s) (fun t => ∃ v, Bal q v ∧ (v : ZMod q) = challenge seed q k ∧ Gen seed q (k + 1) t.1 ∧
        t.2 = s.2.upd i (f v)))
    (hbody' : ∀ i s, i < n → s.2.size = x.size → s.2.g i ≠ BOT → body i s = .ok s) :
    Wp e (forRange 0 n (ctx, x) body) (fun s =>
      Gen seed q (k0 + Nat.count (fun i => x.g i = BOT) n) s.1 ∧ s.2.size = x.size ∧
      ∀ i, i < n → if x.g i = BOT then ∃ v, Bal q v ∧
          (v : ZMod q) = challenge seed q (k0 + Nat.count (fun i => x.g i = BOT) i) ∧ s.2.g i = f v
        else s.2.g i = x.g i) := by
  refine (Wp_forRange (I := fun t (s : Prng × Array Int) =>
      Gen seed q (k0 + Nat.count (fun i => x.g i = BOT) t) s.1 ∧ s.2.size = x.size ∧
      (∀ i, t ≤ i → s.2.g i = x.g i) ∧
      ∀ i, i < t → if x.g i = BOT then ∃ v, Bal q v ∧
          (v : ZMod q) = challenge seed q (k0 + Nat.count (fun i => x.g i = BOT) i) ∧ s.2.g i = f v
        else s.2.g i = x.g i) (Nat.zero_le _) ⟨by simpa using hg, rfl, fun _ _ => rfl, fun i hi => by omega⟩
    ?_).mono ?_
  · rintro i ⟨cx, w⟩ - hi ⟨h1, h2, h3, h4⟩
    simp only at h1 h2 h3 h4
    have hmono : Nat.count (fun i => x.g i = BOT) (i + 1) ≤ Nat.count (fun i => x.g i = BOT) n :=
      Nat.count_monotone _ hi
    rw [Nat.count_succ] at *
    have h3i := h3 i (le_refl _)
    by_cases hb : x.g i = BOT
    · rw [if_pos hb] at hmono
      refine (hbody i (cx, w) _ hi h2 (by omega) h1 (by rw [← hb]; exact h3i)).mono ?_
      rintro ⟨cx', w'⟩ ⟨v, v1, v2, v3, v4⟩
      simp only at v1 v2 v3 v4 ⊢
      rw [v4]
      refine ⟨by rw [if_pos hb]; exact v3, by simpa using h2, ?_, ?_⟩
      · intro k hk
        rw [g_upd_ne _ _ _ _ (by omega)]; exact h3 k (by omega)
      · intro k hk
        by_cases he : k = i
        · rw [he, if_pos hb, g_upd_eq _ _ _ (by omega)]
          exact ⟨v, v1, v2, rfl⟩
        · rw [g_upd_ne _ _ _ _ he]
          exact h4 k (by omega)
    · rw [hbody' i (cx, w) hi h2 (by simp only; rw [h3i]; exact hb), if_neg hb, Wp_ok]
      refine ⟨h1, h2, fun k hk => h3 k (by omega), ?_⟩
      intro k hk
      by_cases he : k = i
      · rw [he, if_neg hb]; exact h3 i (le_refl _)
      · exact h4 k (by omega)
  · rintro s ⟨h1, h2, -, h4⟩
    exact ⟨h1, h2, h4⟩

theorem lastAt_mem {ix v : Nat → Int} {i r : Nat} {w : Int} (h : lastAt ix v i r = some w) :
    ∃ k, k < r ∧ ix k = i ∧ v k = w := by
  induction r with
  | zero => simp [lastAt] at h
  | succ r ih =>
    rw [lastAt] at h
    by_cases hc : ix r = i
    · rw [if_pos hc] at h
      exact ⟨r, by omega, hc, by simpa using h⟩
    · rw [if_neg hc] at h
      obtain ⟨k, h1, h2⟩ := ih h
      exact ⟨k, by omega, h2⟩

theorem lastAt_none {ix v : Nat → Int} {i r : Nat} : lastAt ix v i r = none ↔ ∀ k, k < r → ix k ≠ i := by
  induction r with
  | zero => simp [lastAt]
  | succ r ih =>
    rw [lastAt]
    by_cases hc : ix r = i
    · rw [if_pos hc]
      simp only [reduceCtorEq, false_iff]
      intro h
      exact h r (by omega) hc
    · rw [if_neg hc, ih]
      refine ⟨fun h k hk => ?_, fun h k hk => h k (by omega)⟩
      by_cases he : k = r
      · rw [he]; exact hc
      · exact h k (by omega)

theorem wide_getD {ix v : Nat → Int} {i r : Nat} (hv : ∀ k, k < r → Wide (v k)) {d : Int} (hd : Wide d) :
    Wide ((lastAt ix v i r).getD d) := by
  cases h : lastAt ix v i r with
  | none => exact hd
  | some w =>
    obtain ⟨k, h1, -, h2⟩ := lastAt_mem h
    rw [Option.getD_some, ← h2]
    exact hv k h1

theorem wide_zero : Wide 0 := by unfold Wide; omega
theorem wide_bot : Wide BOT := by unfold Wide BOT; omega

/-- The sums computed by `spasm_xApy` from a zero vector. -/
theorem xApy_zero {A : Csr} (hA : A.WFV q) {x y : Array Int} (hx : A.n ≤ x.size) (hy : A.m ≤ y.size)
    (hxs : ∀ i, i < A.n → Wide (x.g i)) (hy0 : ∀ j, j < A.m → y.g j = 0) :
    Ok (xApy x A y) (fun z => z.size = y.size ∧ (∀ j, j < A.m → Bal q (z.g j)) ∧
      ∀ j, j < A.m → (z.g j : ZMod q) = ∑ i ∈ range A.n, (x.g i : ZMod q) * A.entry q i j) := by
  have h2 := hA.good.two_le
  refine (xApy_wide hA x y hx hy hxs (fun j hj => by rw [hy0 j hj]; exact small_zero q)).mono ?_
  rintro z ⟨z1, z2, z3, z4, z5⟩
  refine ⟨z1, fun j hj => z4 j hj (by rw [hy0 j hj]; exact bal_zero (by omega)), fun j hj => ?_⟩
  rw [z2 j, hy0 j hj]; simp

/-- The fields of a certificate have the right sizes and hold values of type `int`. -/
structure Cert.Typed (c : Cert) : Prop where
  i_size : c.r ≤ c.i.size
  j_size : c.r ≤ c.j.size
  x_size : c.r ≤ c.x.size
  y_size : c.r ≤ c.y.size
  hash_size : c.hash.size = 32
  x_int : ∀ k, k < c.r → Wide (c.x.g k)
  y_int : ∀ k, k < c.r → Wide (c.y.g k)

theorem check_spec (hd : DrawSpec e jw fuel seed q K) (jk : Junk) {ctx0 : Prng}
    (hb : ctx0.block.size = 44) (hh : ctx0.hash.size = 32) {A : Csr} (hA : A.WFV q) {c : Cert} (hc : c.Typed)
    (hseed : c.hash.toList = seed) (hp : c.prime = q) (hK : c.draws A ≤ K)
    (hri : ∀ k, k < c.r → 0 ≤ c.i.g k ∧ c.i.g k < A.n)
    (hrj : ∀ k, k < c.r → 0 ≤ c.j.g k ∧ c.j.g k < A.m) :
    Wp e (cert_check jw jk ctx0 fuel A c) (fun b => (∃ ctx, Gen seed q (c.draws A) ctx) ∧
      (b = true ↔ CertOk q A seed c)) := by
  have hg := hA.good
  have h2 := hg.two_le
  unfold cert_check
  rw [Wp_bind, hp, Int.toNat_natCast]
  refine Ok.wp ((seed_spec jw c.hash q 0 ctx0 hc.hash_size hg.two_le hg.le_max hb hh).mono ?_)
  intro ctx hctx
  rw [hseed] at hctx
  have hg0 := gen_zero hctx
  rw [Wp_bind]
  refine Ok.wp ((const_fill (x := mkArr A.n jk.int) (n := A.n) (by simp) 0).mono ?_)
  rintro x0 ⟨a1, a2⟩
  rw [size_mkArr] at a1
  rw [Wp_bind]
  refine Ok.wp ((put_spec hc.i_size hc.x_size (n := A.n) (by omega) hri).mono ?_)
  rintro x1 ⟨b1, b2⟩
  rw [Wp_bind]
  refine Ok.wp ((const_fill (x := mkArr A.m jk.int) (n := A.m) (by simp) 0).mono ?_)
  rintro y0 ⟨c1, c2⟩
  rw [size_mkArr] at c1
  have hx1 : ∀ i, i < A.n → x1.g i = (lastAt c.i.g c.x.g i c.r).getD 0 := by
    intro i hi; rw [b2 i hi, a2 i hi]
  rw [Wp_bind]
  refine Ok.wp ((xApy_zero hA (x := x1) (by omega) (by omega) (fun i hi => by
    rw [hx1 i hi]; exact wide_getD hc.x_int wide_zero) c2).mono ?_)
  rintro y1 ⟨d1, d2, d3⟩
  rw [Wp_bind]
  have hrK : c.r ≤ K := le_trans (by unfold Cert.draws; omega) hK
  refine (cmp_spec hd hrK hc.j_size (m := A.m) (by omega) hrj d2 hg0).mono ?_
  rintro ⟨cx, b⟩ ⟨g1, g2⟩
  simp only at g1 g2 ⊢
  rw [Wp_bind]
  refine Ok.wp ((const_fill (x := x1) (n := A.n) (by omega) BOT).mono ?_)
  rintro x2 ⟨k1, k2⟩
  rw [Wp_bind]
  refine Ok.wp ((put_spec hc.i_size hc.y_size (x := x2) (n := A.n) (by omega) hri).mono ?_)
  rintro x3 ⟨l1, l2⟩
  have hx3 : ∀ i, i < A.n → x3.g i = (lastAt c.i.g c.y.g i c.r).getD BOT := by
    intro i hi; rw [l2 i hi, k2 i hi]
  have hfree : ∀ i, i < A.n → (x3.g i = BOT ↔ c.Free i) := by
    intro i hi
    rw [hx3 i hi]
    unfold Cert.Free
    cases h : lastAt c.i.g c.y.g i c.r with
    | none => simp
    | some w => simp [BOT]
  have hcount : ∀ t, t ≤ A.n → Nat.count (fun i => x3.g i = BOT) t = Nat.count c.Free t := by
    intro t ht
    rw [Nat.count_eq_card_filter_range, Nat.count_eq_card_filter_range]
    congr 1
    apply Finset.filter_congr
    intro i hi
    rw [mem_range] at hi
    exact hfree i (by omega)
  rw [Wp_bind]
  unfold cert_fill
  refine (fill_loop (seed := seed) (q := q) (K := K) (n := A.n) (k0 := c.r) (x := x3) (by omega) (by rw [hcount _ le_rfl]; exact hK) g1
    (fun v => v) _ ?_ ?_).mono ?_
  · rintro i ⟨cx', w⟩ k hi hw hk hgk hbt
    simp only at hw hgk hbt ⊢
    rw [Wp_bind]
    refine Wp_rd _ _ _ (by omega) ?_
    rw [if_pos hbt, Wp_bind]
    refine (hd k cx' hk hgk).mono ?_
    rintro ⟨v, cx''⟩ ⟨v1, v2, v3⟩
    rw [Wp_bind]
    refine Wp_wr _ _ _ _ (by omega) ?_
    rw [Wp_ok]
    exact ⟨v, v1, v2, v3, rfl⟩
  · rintro i ⟨cx', w⟩ hi hw hbt
    exact fill_skip (by simp only at hw ⊢; omega) hbt
  rintro ⟨cx2, x4⟩ ⟨m1, m2, m3⟩
  simp only at m1 m2 m3 ⊢
  rw [hcount _ le_rfl] at m1
  have hx4 : ∀ i, i < A.n → Wide (x4.g i) ∧ (x4.g i : ZMod q) = c.Y seed q i := by
    intro i hi
    have hm := m3 i hi
    unfold Cert.Y
    by_cases hf : c.Free i
    · rw [if_pos ((hfree i hi).2 hf)] at hm
      rw [if_pos hf]
      obtain ⟨v, v1, v2, v3⟩ := hm
      rw [v3]
      refine ⟨v1.small.wide hg, ?_⟩
      rw [v2, hcount i (by omega)]
    · rw [if_neg (fun h => hf ((hfree i hi).1 h))] at hm
      rw [if_neg hf, hm, hx3 i hi]
      refine ⟨wide_getD hc.y_int wide_bot, ?_⟩
      cases h : lastAt c.i.g c.y.g i c.r with
      | none => exact absurd (Or.inl h) hf
      | some w => rfl
  rw [Wp_bind]
  refine Ok.wp ((const_fill (x := y1) (n := A.m) (by omega) 0).mono ?_)
  rintro y2 ⟨n1, n2⟩
  rw [Wp_bind]
  refine Ok.wp ((xApy_zero hA (x := x4) (y := y2) (by omega) (by omega) (fun i hi => (hx4 i hi).1) n2).mono ?_)
  rintro y3 ⟨o1, o2, o3⟩
  refine Ok.wp ((zeroes_spec (m := A.m) (y := y3) (by omega) b).mono ?_)
  intro r hr
  refine ⟨⟨cx2, m1⟩, hr.trans ?_⟩
  rw [g2]
  constructor
  · rintro ⟨p1, p2⟩
    refine ⟨hri, hrj, fun k hk => ?_, fun j hj => ?_⟩
    · have hk' := hrj k hk
      rw [← p1 k hk, d3 _ (by omega)]
      exact Finset.sum_congr rfl fun i hi => by rw [hx1 i (mem_range.mp hi)]; rfl
    · have := o3 j hj
      rw [p2 j hj] at this
      have hsum : ∑ i ∈ range A.n, c.Y seed q i * A.entry q i j
          = ∑ i ∈ range A.n, (x4.g i : ZMod q) * A.entry q i j :=
        Finset.sum_congr rfl fun i hi => by rw [(hx4 i (mem_range.mp hi)).2]
      rw [hsum, ← this]
      simp
  · rintro ⟨-, -, p1, p2⟩
    refine ⟨fun k hk => ?_, fun j hj => ?_⟩
    · have hk' := hrj k hk
      rw [← p1 k hk, d3 _ (by omega)]
      exact Finset.sum_congr rfl fun i hi => by rw [hx1 i (mem_range.mp hi)]; rfl
    · rw [← small_eq_zero_iff h2 (o2 j hj).small, o3 j hj, ← p2 j hj]
      exact Finset.sum_congr rfl fun i hi => by rw [(hx4 i (mem_range.mp hi)).2]

/-- The whole verification, for a generator that behaves as specified. -/
theorem verify_spec {A : Csr} {c : Cert} {hash : Array B} (hd : DrawSpec e jw fuel hash.toList q K)
    (hK : c.draws A ≤ K) (jk : Junk) {ctx0 : Prng} (hb : ctx0.block.size = 44) (hh : ctx0.hash.size = 32) (hA : A.WFV q)
    (hc : c.Typed) (hhash : hash.size = 32) :
    Wp e (cert_verify jw jk ctx0 fuel A hash c) (fun b =>
      (b = true ↔ hash = c.hash ∧ c.prime = q ∧ CertOk q A hash.toList c) ∧
      (b = true → ∃ ctx, Gen hash.toList q (c.draws A) ctx)) := by
  unfold cert_verify
  rw [Wp_bind]
  refine Ok.wp ((hash_eq_spec hhash hc.hash_size).mono ?_)
  intro h hh1
  by_cases hhe : hash = c.hash
  · have hht : h = true := hh1.2 hhe
    rw [if_neg (by simp [hht])]
    have hpq := hA.good.p_eq
    by_cases hp : A.F.p ≠ c.prime
    · rw [if_pos hp, Wp_ok]
      refine ⟨⟨fun h => by simp at h, fun h => ?_⟩, fun h => by simp at h⟩
      exact absurd (hpq.trans h.2.1.symm) hp
    · rw [if_neg hp, Wp_bind]
      have hp' : c.prime = q := by rw [← hpq]; exact (not_not.mp hp).symm
      refine Ok.wp ((range_spec (n := A.n) (m := A.m) hc.i_size hc.j_size).mono ?_)
      intro g hg1
      by_cases hgt : g = true
      · rw [if_neg (by simp [hgt])]
        have hr := hg1.1 hgt
        refine (check_spec (seed := hash.toList) hd jk hb hh hA hc
          (by rw [hhe]) hp' hK (fun k hk => (hr k hk).1) (fun k hk => (hr k hk).2)).mono ?_
        rintro b ⟨b1, b2⟩
        refine ⟨b2.trans ⟨fun h => ⟨hhe, hp', h⟩, fun h => h.2.2⟩, fun _ => b1⟩
      · rw [if_pos (by simpa using hgt), Wp_ok]
        refine ⟨⟨fun h => by simp at h, fun h => ?_⟩, fun h => by simp at h⟩
        exact absurd (hg1.2 fun k hk => ⟨h.2.2.rows k hk, h.2.2.cols k hk⟩) hgt
  · have hht : h = false := by
      rcases h with _ | _
      · rfl
      · exact absurd (hh1.1 rfl) hhe
    rw [if_pos hht, Wp_ok]
    exact ⟨⟨fun h => by simp at h, fun h => absurd h.1 hhe⟩, fun h => by simp at h⟩

end

end Spasm
