import Verif.Props.Heap
import Verif.Proofs.HeapCheck

/-
C63: the memory used by the program check_cert.
-/

namespace Spasm
namespace Heap

/-- C63 (check_cert, partial). If the certificate starts with a number, no block is used that is not allocated, whatever the
initial contents of the local variable `proof`; the matrix and the arrays of the certificate are left at the end.
Missing: files that do not start with a number, see `C63_check_cert_unread`. -/
theorem C63_check_cert_partial {s : St} (hg : s.Good) (i₀ j₀ x₀ y₀ : Ptr) :
    Leaves (main_check_cert true i₀ j₀ x₀ y₀) s fun B => ∃ A i j x y B₁, CsrCells A B₁ ∧
      B = B₁ + (arrCells i + (arrCells j + (arrCells x + arrCells y))) :=
  (main_check_cert_tr i₀ j₀ x₀ y₀).ends (R := 0) hg (zero_add _).symm rfl
    fun _ _ ⟨v, R₁, _, he, h1, R₂, _, he2, h2, R₃, _, he3, h3, R₄, R₅, he4, h4, h5⟩ =>
    ⟨_, ⟨v.1, v.2.1, v.2.2.1, v.2.2.2.1, v.2.2.2.2, R₁, CsrS.cells h1, by rw [he, he2, he3, he4, h2, h3, h4, h5]⟩, rfl⟩

theorem eq_dangling {α : Type} {x : Except Fault α}
    (h : (match x with | .error .dangling => true | _ => false) = true) : x = .error .dangling := by
  rcases x with e | v
  · rcases e with _ | _ | _
    · rfl
    · exact absurd h (by simp)
    · exact absurd h (by simp)
  · exact absurd h (by simp)

/-- C63 fails for check_cert: if the file of the certificate does not start with a number, the result of
`spasm_rank_certificate_load` is ignored and pointers that were never set are used.  (Here they are the addresses of no
block.) -/
theorem C63_check_cert_unread : ∃ s : St, s.Good ∧
    main_check_cert false (some 50) (some 50) (some 50) (some 50) s = .error .dangling :=
  ⟨⟨[], 0, again 100 [2, 1, 1]⟩, ⟨List.nodup_nil, fun _ h => (nomatch h)⟩, eq_dangling (by decide +kernel)⟩

/-- C63 fails for check_cert: not all executions respect the heap. -/
theorem C63_check_cert_unread_any : ¬ ∀ (s : St) (i j x y : Ptr), s.Good →
    Ends (main_check_cert false i j x y) s fun _ _ => True := by
  intro h
  obtain ⟨s, hg, he⟩ := C63_check_cert_unread
  have := h s (some 50) (some 50) (some 50) (some 50) hg
  unfold Ends at this
  rw [he] at this
  exact absurd this (by decide)

/-- Executions that end normally. -/
example : isOk (main_check_cert true none none none none ⟨[], 0, again 100 [2]⟩) = true := by decide +kernel
example : isOk (main_check_cert true (some 50) (some 51) none none ⟨[], 0, again 100 [2, 2, 1]⟩) = true := by decide +kernel
example : isOk (main_check_cert true none none none none ⟨[], 0, again 100 [2, 2, 2, 2, 2, 2, 2, 1]⟩) = true := by
  decide +kernel

end Heap
end Spasm
