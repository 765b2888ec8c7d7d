import Verif.Model.Heap
import Mathlib.Data.Multiset.Basic
import Mathlib.Data.Multiset.AddSub

/-
What it means to own memory.  The blocks of a structure are given as a multiset of addresses with their contents: when
the heap is a sum of such multisets, the structures have no block in common.
-/

namespace Spasm
namespace Heap

/-- Blocks of memory with their addresses. -/
abbrev Cells := Multiset (Nat × Obj)

/-- The live blocks. -/
def St.cells (s : St) : Cells := s.mem

/-- Each block has its own address, below the next fresh one. -/
structure St.Good (s : St) : Prop where
  nodup : (s.mem.map Prod.fst).Nodup
  lt : ∀ c ∈ s.mem, c.1 < s.next

/-- The block of an array; none if the pointer is `NULL`. -/
def arrCells : Ptr → Cells
  | none => 0
  | some a => {(a, .arr)}

/-- The blocks of a sparse matrix: the structure and its arrays. -/
def CsrCells (A : Ptr) (B : Cells) : Prop :=
  ∃ a p j x, A = some a ∧ B = {(a, Obj.csr p j x)} + arrCells p + arrCells j + arrCells x

/-- The blocks of a sparse matrix, or none if the pointer is `NULL`. -/
def CsrCells? (A : Ptr) (B : Cells) : Prop := (A = none ∧ B = 0) ∨ CsrCells A B

/-- The blocks of a triplet matrix. -/
def TripletCells (A : Ptr) (B : Cells) : Prop :=
  ∃ a i j x, A = some a ∧ B = {(a, Obj.triplet i j x)} + arrCells i + arrCells j + arrCells x

/-- The blocks of a factorization: the structure, the matrices, the arrays; there is no temporary matrix. -/
def LuCells (N : Ptr) (B : Cells) : Prop :=
  ∃ a U qinv p L BU BL, N = some a ∧ CsrCells U BU ∧ CsrCells? L BL ∧
    B = {(a, Obj.lu U qinv p L none)} + arrCells qinv + arrCells p + BU + BL

/-- The blocks of a decomposition. -/
def DmCells (P : Ptr) (B : Cells) : Prop :=
  ∃ a p q r c, P = some a ∧ B = {(a, Obj.dm p q r c)} + arrCells p + arrCells q + arrCells r + arrCells c

/-- The blocks of a certificate. -/
def CertCells (P : Ptr) (B : Cells) : Prop :=
  ∃ a i j x y, P = some a ∧ B = {(a, Obj.cert i j x y)} + arrCells i + arrCells j + arrCells x + arrCells y

/-- The computation `x`, started in the state `s`, never uses a block that is not allocated, and ends with the blocks `Q`.
The process may end before because `NULL` is dereferenced. -/
def Ends {α : Type} (x : M α) (s : St) (Q : α → Cells → Prop) : Prop :=
  match x s with
  | .ok (v, s') => s'.Good ∧ Q v s'.cells
  | .error e => e = .null

/-- The computation returns a new structure: when it ends, all the blocks that were allocated at the beginning are still
allocated, at the same addresses and with the same pointers; the new blocks are those of the result, and no others. -/
def Makes (x : M Ptr) (s : St) (Own : Ptr → Cells → Prop) : Prop :=
  Ends x s fun v R => ∃ B, Own v B ∧ R = B + s.cells

/-- When the computation ends, the blocks are those that were allocated at the beginning. -/
def Keeps {α : Type} (x : M α) (s : St) : Prop := Ends x s fun _ R => R = s.cells

/-- When the computation ends, the blocks that were allocated at the beginning still are, and there are others. -/
def Leaves {α : Type} (x : M α) (s : St) (Own : Cells → Prop) : Prop :=
  Ends x s fun _ R => ∃ B, Own B ∧ R = B + s.cells

/-- The blocks of `k` arrays. -/
def ArrayCells (k : Nat) (B : Cells) : Prop :=
  ∃ l : List Nat, l.length = k ∧ B = (l.map fun a => (a, Obj.arr) : List (Nat × Obj))

end Heap
end Spasm
