import Verif.Spec.Permutation
import Verif.Spec.Matching
import Verif.Model.Dm
import Mathlib.Logic.Relation

/-
Specification of the Dulmage-Mendelsohn decomposition.
-/

namespace Spasm

/-- The graph on positions: position `s` stands for row `p[s]` and, if `s < rr[3]`, for the column
`q[cc[1] + s]` matched to it; there is an edge from `s` to `t` if row `p[s]` has an entry on the
column matched to row `p[t]`. -/
def DmEdge (A : Csr) (D : Dm) (s t : Nat) : Prop :=
  s < A.n ∧ (t : Int) < D.rr.g 3 ∧ A.InRow (D.p.g s) (D.q.g ((D.cc.g 1).toNat + t))

/-- The same graph, on positions of columns: there is an edge from `s` to `t` if column `q[s]` has an
entry on the row matched to column `q[t]`. -/
def DmEdgeT (A : Csr) (D : Dm) (s t : Nat) : Prop :=
  s < A.m ∧ D.cc.g 1 ≤ t ∧ (t : Int) < A.m ∧ A.InRow (D.p.g (t - (D.cc.g 1).toNat)) (D.q.g s)

/-- The coarse decomposition of `A`: `p` and `q` are permutations; `rr` and `cc` are boundaries; the
rows are split into `R1, R2, R3, R0`, the columns into `C0, C1, C2, C3`; rows of `R2` have no entries
in `C0, C1`, rows of `R3, R0` have no entries in `C0, C1, C2`; `R1`, `R2`, `R3` are matched to `C1`,
`C2`, `C3`; each row of `R3` is reachable from an unmatched row by an alternating path, and each column
of `C1` from an unmatched column. -/
structure IsCoarse (A : Csr) (D : Dm) : Prop where
  p_size : D.p.size = A.n
  q_size : D.q.size = A.m
  perm_p : IsPerm D.p.g A.n
  perm_q : IsPerm D.q.g A.m
  rr_size : D.rr.size = 5
  cc_size : D.cc.size = 5
  rr_zero : D.rr.g 0 = 0
  rr_mono : ∀ k, k < 4 → D.rr.g k ≤ D.rr.g (k + 1)
  rr_last : D.rr.g 4 = A.n
  cc_zero : D.cc.g 0 = 0
  cc_mono : ∀ k, k < 4 → D.cc.g k ≤ D.cc.g (k + 1)
  cc_last : D.cc.g 4 = A.m
  square : ∀ k, k < 4 → D.rr.g k = D.cc.g (k + 1) - D.cc.g 1
  mid : ∀ i j : Nat, i < A.n → j < A.m → A.InRow (D.p.g i) (D.q.g j) → D.rr.g 1 ≤ i → D.cc.g 2 ≤ j
  low : ∀ i j : Nat, i < A.n → j < A.m → A.InRow (D.p.g i) (D.q.g j) → D.rr.g 2 ≤ i → D.cc.g 3 ≤ j
  diag : ∀ t : Nat, t < D.rr.g 3 → A.InRow (D.p.g t) (D.q.g ((D.cc.g 1).toNat + t))
  vert : ∀ t : Nat, D.rr.g 2 ≤ t → t < A.n → ∃ u : Nat, D.rr.g 3 ≤ u ∧ u < A.n ∧
    Relation.ReflTransGen (DmEdge A D) u t
  horz : ∀ t : Nat, t < D.cc.g 2 → ∃ u : Nat, u < D.cc.g 1 ∧
    Relation.ReflTransGen (DmEdgeT A D) u t

/-- Paths in the square part `R2 × C2`. -/
def DmPath (A : Csr) (D : Dm) : Nat → Nat → Prop :=
  Relation.ReflTransGen fun s t => DmEdge A D s t ∧
    D.rr.g 1 ≤ s ∧ s < D.rr.g 2 ∧ D.rr.g 1 ≤ t ∧ t < D.rr.g 2

/-- The fine decomposition: the middle blocks of `r`, `c` split the square part into its strongly
connected components, in block upper triangular order. -/
structure IsFine (A : Csr) (D : Dm) : Prop where
  nb : 3 ≤ D.nb
  r_size : D.nb < D.r.size
  c_size : D.nb < D.c.size
  r_zero : D.r.g 0 = 0
  r_one : D.r.g 1 = D.rr.g 1
  r_pen : D.r.g (D.nb - 1) = D.rr.g 2
  r_last : D.r.g D.nb = A.n
  c_zero : D.c.g 0 = 0
  c_last : D.c.g D.nb = A.m
  c_eq : ∀ b, 1 ≤ b → b < D.nb → D.c.g b = D.r.g b + D.cc.g 1
  r_lt : ∀ b, 1 ≤ b → b + 1 < D.nb → D.r.g b < D.r.g (b + 1)
  conn : ∀ b, 1 ≤ b → b + 1 < D.nb → ∀ s t : Nat, D.r.g b ≤ s → s < D.r.g (b + 1) → D.r.g b ≤ t →
    t < D.r.g (b + 1) → DmPath A D s t
  same : ∀ s t : Nat, D.rr.g 1 ≤ s → s < D.rr.g 2 → D.rr.g 1 ≤ t → t < D.rr.g 2 →
    DmPath A D s t → DmPath A D t s →
    ∃ b, 1 ≤ b ∧ b + 1 < D.nb ∧ D.r.g b ≤ s ∧ s < D.r.g (b + 1) ∧ D.r.g b ≤ t ∧ t < D.r.g (b + 1)
  tri : ∀ i j : Nat, D.rr.g 1 ≤ i → i < D.rr.g 2 → j < A.m → A.InRow (D.p.g i) (D.q.g j) →
    ∀ b, 1 ≤ b → b < D.nb → D.r.g b ≤ i → D.c.g b ≤ j

end Spasm
