import Verif.Model.Commit
import Mathlib.Algebra.BigOperators.Group.Finset.Basic

/-
What the commit protocol must achieve (independent of its steps).
-/

namespace Spasm.Commit

/-- Where row `i` starts in buffer `b` when the rows `log` are stored one after the other behind
`u0 b` older entries. -/
def start (u0 : Nat → Nat) (log : List Job) (b i : Nat) : Nat :=
  u0 b + ((log.take i).map fun j => j.len b).sum

/-- A row is consistent: its writes are in range, hit no slot twice and leave no slot of the
announced length unwritten; the test of the room and the growth are sufficient. -/
structure JobOk (cfg : Cfg) (j : Job) : Prop where
  rng : ∀ w ∈ j.ws, w.b < cfg.nb ∧ w.c < cfg.wid w.b ∧ w.off < j.len w.b
  nodup : (j.ws.map fun w => (w.b, w.off, w.c)).Nodup
  full : ∀ b, b < cfg.nb → ∀ c, c < cfg.wid b → ∀ o, o < j.len b →
    ∃ w ∈ j.ws, w.b = b ∧ w.c = c ∧ w.off = o
  cnt : j.emitted = j.len 0
  need : ∀ b, b < cfg.nb → j.len b ≤ cfg.need b (j.len b)
  grow : ∀ b, b < cfg.nb → ∀ k, k + j.len b ≤ cfg.grow b k (j.len b)

/-- The shared memory contains exactly the rows of `log`, in this order: counters, row pointers,
`p_out`, contents, older contents, with enough room and valid pointers. -/
structure Laid {T : Nat} (cfg : Cfg) (u0 : Nat → Nat) (mem0 : Nat → Nat → Nat → Int)
    (log : List Job) (s : St T) : Prop where
  rows : s.rows = log.length
  used : ∀ b, b < cfg.nb → s.used b = start u0 log b log.length
  room : ∀ b, b < cfg.nb → s.used b ≤ s.cap b
  ptr : ∀ b c, b < cfg.nb → c < cfg.wid b → s.ptr b c = s.gen b
  rowp : ∀ i, i < log.length → s.rowp.g (i + 1) = start u0 log 0 (i + 1)
  tags : ∀ i j, log[i]? = some j → s.tags.g i = j.tag
  mem : ∀ i j w, log[i]? = some j → w ∈ j.ws →
    s.mem w.b w.c (start u0 log w.b i + w.off) = w.v
  old : ∀ b c k, b < cfg.nb → k < u0 b → s.mem b c k = mem0 b c k

end Spasm.Commit
