import Verif.Spec.Csr
import Verif.Spec.Text
import Verif.Spec.Dm

/-
Specification of the images of matrices.
-/

namespace Spasm

/-- `f` is the sequence of words `l`, each followed by white space. -/
inductive Words : List Char → List (List Char) → Prop
  | nil : Words [] []
  | cons {t w f : List Char} {l : List (List Char)} (ht : t ≠ []) (hts : ∀ c ∈ t, c ≠ ' ' ∧ c ≠ '\n') (hw : w ≠ [])
      (hws : ∀ c ∈ w, c = ' ' ∨ c = '\n') (h : Words f l) : Words (t ++ w ++ f) (t :: l)

/-- An entry of the matrix falls on pixel `(u, v)` of an image with `y` rows and `x` columns. -/
def Black (A : Csr) (x y u v : Nat) : Prop :=
  ∃ i j, i < A.n ∧ A.InRow i j ∧ u = i * y / A.n ∧ v = j * x / A.m

open Classical in
/-- The plain PBM format: `1` is black. -/
def IsPbm (f : List Char) (x y : Nat) (black : Nat → Nat → Prop) : Prop :=
  ∃ body, f = "P1\n".toList ++ dec x ++ [' '] ++ dec y ++ ['\n'] ++ body ∧
    Words body ((List.range (x * y)).map fun t => if black (t / x) (t % x) then ['1'] else ['0'])

/-- The plain PPM format, with components from 0 to 255. -/
def IsPpm (f : List Char) (x y : Nat) (color : Nat → Nat → Nat × Nat × Nat) : Prop :=
  ∃ body, f = "P3\n".toList ++ dec x ++ [' '] ++ dec y ++ "\n255\n".toList ++ body ∧
    (∀ u v, u < y → v < x → (color u v).1 ≤ 255 ∧ (color u v).2.1 ≤ 255 ∧ (color u v).2.2 ≤ 255) ∧
    Words body ((List.range (x * y)).flatMap fun t =>
      [dec (color (t / x) (t % x)).1, dec (color (t / x) (t % x)).2.1, dec (color (t / x) (t % x)).2.2])

/-- Red, green and blue components. -/
def rgb (p : Nat) : Nat × Nat × Nat := (p / 65536 % 256, p / 256 % 256, p % 256)

/-- Which of the three parts separated by `a ≤ b` contains `i`. -/
def third (a b i : Nat) : Nat := if i < a then 0 else if i < b then 1 else 2

/-- The colours of the blocks of the coarse decomposition: rows, then columns. -/
def coarseColor (v h : Nat) : Nat :=
  ([[0xFF0000, 0xCC0000, 0x990000], [0xFFFFFF, 0xFFCC00, 0xCC9900], [0xFFFFFF, 0xFFFFFF, 0x33CC00]].getD v []).getD h 0

/-- The colour of the background of pixel `(u, v)`: that of the coarse block, except in the square part; there, it is
white on the left of the strongly connected component of that row, yellow inside. -/
def Background (D : Dm) (n m x y u v p : Nat) : Prop :=
  let bv := third ((D.rr.g 1).toNat * y / n) ((D.rr.g 2).toNat * y / n) u
  let bh := third ((D.cc.g 2).toNat * x / m) ((D.cc.g 3).toNat * x / m) v
  if bv = 1 ∧ bh = 1 then
    ∃ b, 1 ≤ b ∧ b ≤ D.nb ∧ (D.r.g (b - 1)).toNat * y / n ≤ u ∧ u < (D.r.g b).toNat * y / n ∧
      p = if v < (D.c.g (b - 1)).toNat * x / m then 0xFFFFFF else
        if v < (D.c.g b).toNat * x / m then 0xFFFF66 else 0xFFCC00
  else p = coarseColor bv bh

end Spasm
