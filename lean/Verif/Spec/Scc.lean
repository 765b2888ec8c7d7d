import Verif.Spec.Permutation
import Verif.Model.Scc
import Mathlib.Logic.Relation

/-
Specification of strongly connected components.
-/

namespace Spasm

/-- The graph of a square matrix: an edge for each entry. -/
def Edge (A : Csr) (u v : Nat) : Prop := u < A.n ∧ A.InRow u v

/-- There is a path from `u` to `v`. -/
def Path (A : Csr) : Nat → Nat → Prop := Relation.ReflTransGen (Edge A)

/-- `P` describes the strongly connected components of `A`: `p = q` is a permutation of the nodes;
the blocks delimited by `r = c` are nonempty, consecutive, and two nodes are in the same block iff
there are paths from each to the other; the permuted matrix is block upper triangular. -/
structure IsScc (A : Csr) (P : Dm) : Prop where
  p_size : P.p.size = A.n
  q_eq : P.q = P.p
  perm : IsPerm P.p.g A.n
  r_zero : P.r.g 0 = 0
  r_last : P.r.g P.nb = A.n
  r_lt : ∀ b, b < P.nb → P.r.g b < P.r.g (b + 1)
  r_size : P.nb < P.r.size
  c_size : P.nb < P.c.size
  c_eq : ∀ b, b ≤ P.nb → P.c.g b = P.r.g b
  conn : ∀ b, b < P.nb → ∀ s t : Nat, P.r.g b ≤ s → s < P.r.g (b + 1) → P.r.g b ≤ t →
    t < P.r.g (b + 1) → Path A (P.p.g s) (P.p.g t)
  same : ∀ s t : Nat, s < A.n → t < A.n → Path A (P.p.g s) (P.p.g t) → Path A (P.p.g t) (P.p.g s) →
    ∃ b, b < P.nb ∧ P.r.g b ≤ s ∧ s < P.r.g (b + 1) ∧ P.r.g b ≤ t ∧ t < P.r.g (b + 1)
  tri : ∀ s t : Nat, s < A.n → t < A.n → A.InRow (P.p.g s) (P.p.g t) →
    ∀ b, b ≤ P.nb → P.r.g b ≤ s → P.r.g b ≤ t

end Spasm
