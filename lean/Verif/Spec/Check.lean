import Verif.Proofs.Lists

/-
Boolean checks that imply the well-formedness predicates; only used to exhibit concrete
instances of the hypotheses of the theorems.
-/

namespace Spasm

def Field.ofPrime (q : Nat) : Field :=
  ⟨q, (q : Int) / 2, (q : Int) / 2 - q + 1, rnd 53 (1 / rnd 53 q)⟩

theorem good_ofPrime (q : Nat) (h2 : 2 ≤ q) (hm : q ≤ 0xfffffffb) : (Field.ofPrime q).Good q := by
  have := field_init_good q h2 hm
  rw [Ok_iff] at this
  obtain ⟨F, h, hF⟩ := this
  unfold field_init at h
  rw [if_neg (by omega)] at h
  have c1 : decide ((2 : Int) ≤ q) = true := by simp; omega
  have c2 : decide ((q : Int) ≤ 0xfffffffb) = true := by simp; omega
  simp only [cassert, c1, c2, if_true, bind, Except.bind] at h
  have : F = Field.ofPrime q := by
    cases h
    unfold Field.ofPrime
    have : Int.tdiv (q : Int) 2 = (q : Int) / 2 := Int.tdiv_eq_ediv_of_nonneg (by omega)
    rw [this]
    norm_num
  rwa [this] at hF

def Csr.check (A : Csr) : Bool :=
  decide (A.n < A.p.size) && decide (A.p.g 0 = 0) &&
  (List.range A.n).all (fun i => decide (A.p.g i ≤ A.p.g (i + 1))) &&
  decide (A.p.g A.n ≤ A.j.size) &&
  (List.range (A.p.g A.n)).all (fun k => decide (A.j.g k < A.m)) &&
  (match A.x with | none => true | some a => decide (A.p.g A.n ≤ a.size)) &&
  (decide (A.F.p < 0) || (decide (2 ≤ A.F.p) && decide (A.F.p ≤ 0xfffffffb)))

theorem Csr.wf_of_check {A : Csr} (h : A.check = true) : A.WF := by
  unfold Csr.check at h
  simp only [Bool.and_eq_true, Bool.or_eq_true, decide_eq_true_eq, List.all_eq_true,
    List.mem_range] at h
  obtain ⟨⟨⟨⟨⟨⟨h1, h2⟩, h3⟩, h4⟩, h5⟩, h6⟩, h7⟩ := h
  refine ⟨h1, h2, h3, h4, h5, ?_, h7⟩
  intro a ha
  rw [ha] at h6
  simpa using h6

def Csr.checkV (A : Csr) (q : Nat) : Bool :=
  A.check && decide (A.F = Field.ofPrime q) && decide (2 ≤ q) && decide (q ≤ 0xfffffffb) &&
  A.x.isSome &&
  (List.range (A.p.g A.n)).all
    (fun k => decide (-((q : Int) / 2) ≤ A.val k) && decide (A.val k ≤ (q : Int) / 2))

theorem Csr.wfv_of_check {A : Csr} {q : Nat} (h : A.checkV q = true) : A.WFV q := by
  unfold Csr.checkV at h
  simp only [Bool.and_eq_true, decide_eq_true_eq, List.all_eq_true, List.mem_range] at h
  obtain ⟨⟨⟨⟨⟨h1, h2⟩, h3⟩, h4⟩, h5⟩, h6⟩ := h
  exact ⟨Csr.wf_of_check h1, by rw [h2]; exact good_ofPrime q h3 h4, fun _ => h5, h6⟩

/-- A 2 x 3 matrix modulo 7 with a repeated column: [[1, -2 + 3, 0], [0, 3, -1]]. -/
def exA : Csr :=
  { n := 2, m := 3, p := #[0, 3, 5], j := #[0, 1, 1, 2, 1], x := some #[1, -2, 3, -1, 3],
    F := Field.ofPrime 7 }

theorem exA_wfv : exA.WFV 7 := Csr.wfv_of_check (by decide +kernel)

def checkPerm (f : Nat → Nat) (n : Nat) : Bool :=
  (List.range n).all fun i => decide (f i < n) &&
    (List.range n).all fun k => decide (f i = f k → i = k)

theorem isPerm_of_check {f : Nat → Nat} {n : Nat} (h : checkPerm f n = true) : IsPerm f n := by
  unfold checkPerm at h
  simp only [Bool.and_eq_true, decide_eq_true_eq, List.all_eq_true, List.mem_range] at h
  exact ⟨fun i hi => (h i hi).1, fun i k hi hk => (h i hi).2 k hk⟩

end Spasm
