import Verif.Model.HeapMain

/-
Memory management of the program check_cert.
-/

namespace Spasm
namespace Heap

/-- `malloc`, called directly: the result may be `NULL` (failure, or a size of zero). -/
def raw_malloc : M Ptr := do if (← flip) = true then pure none else malloc .arr

/-- `spasm_rank_certificate_load` (src/spasm_certificate.c:243-275).  `read` tells whether the first `fscanf` succeeds: it is
the only one whose failure leaves the structure without its pointers. -/
def certificate_load (P : Ptr) (read : Bool) : M Unit := on read do
  let (_, j₀, x₀, y₀) ← getCert P
  let i ← raw_malloc
  store P (.cert i j₀ x₀ y₀)
  let j ← raw_malloc
  store P (.cert i j x₀ y₀)
  let x ← raw_malloc
  store P (.cert i j x y₀)
  let y ← raw_malloc
  store P (.cert i j x y)
  maybe (maybe (do
    use [i]
    use [i]
    use [x]
    use [y]))

/-- `main` of tools/check_cert.c:58-83.  The certificate is a local variable: here, a block that exists until the end of
`main`, with arbitrary initial pointers. -/
def main_check_cert (read : Bool) (i₀ j₀ x₀ y₀ : Ptr) : M Unit := do
  let A ← load_matrix true
  let proof ← malloc (.cert i₀ j₀ x₀ y₀)
  certificate_load proof read
  certificate_rank_verify A proof
  free proof

end Heap
end Spasm
