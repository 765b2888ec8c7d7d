import Verif.Proofs.SccLoop
import Verif.Spec.Check

/-
C33: strongly connected components.
-/

namespace Spasm

/-- C33. For every square sparse matrix, `spasm_strongly_connected_components` terminates, does no
invalid access and violates no assertion; `p = q` is a permutation, the blocks delimited by `r = c`
are nonempty and are exactly the classes of mutually reachable nodes, and the permuted matrix is block
upper triangular. -/
theorem C33_scc (jk : Junk) (A : Csr) (hA : A.WF) (hsq : A.n = A.m) :
    Ok (strongly_connected_components jk A) (IsScc A) :=
  strongly_connected_components_spec jk hA hsq

/-- A graph with two cycles `0 → 2 → 4 → 0` and `1 ↔ 3`, an edge `2 → 1` between them, and a loop. -/
def exScc : Csr :=
  { n := 5, m := 5, p := #[0, 1, 2, 4, 6, 7], j := #[2, 3, 1, 4, 3, 1, 0], x := none,
    F := Field.ofPrime 7 }

example : exScc.WF := Csr.wf_of_check (by decide +kernel)

example : (match strongly_connected_components default exScc with
    | .ok P => decide (P.nb = 2 ∧ P.p = #[0, 2, 4, 1, 3] ∧ P.r.g 0 = 0 ∧ P.r.g 1 = 3 ∧ P.r.g 2 = 5)
    | .error _ => false) = true := by decide +kernel

end Spasm
