import Verif.Model.ZZp
import Verif.Model.Sha256

/-
Model of the input and output functions of the C library that src/spasm_io.c, src/spasm_certificate.c and the
tools call (C99 7.19.6, 7.19.7, in the "C" locale).  A file is the list of its characters.  Errors of the
operating system (disk full, unreadable file) are not modelled.
-/

namespace Spasm

/-- `printf("%d", x)`, `printf("%" PRId64, x)` (C99 7.19.6.1). -/
def fmtD (x : Int) : List Char :=
  if x < 0 then '-' :: Nat.toDigits 10 x.natAbs else Nat.toDigits 10 x.natAbs

/-- One hexadecimal digit. -/
def hexDigit (k : Nat) : Char := Nat.digitChar k

/-- `printf("%02x", b)` for a byte. -/
def fmt02x (b : Sha.B) : List Char := [hexDigit (b.toNat / 16), hexDigit (b.toNat % 16)]

/-- `isspace` (C99 7.4.1.10): space, `\t`, `\n`, `\v`, `\f`, `\r`. -/
def isspace (c : Char) : Bool := decide (c = ' ') || (decide (9 ≤ c.toNat) && decide (c.toNat ≤ 13))

/-- White space in a format: skips any amount of white space. -/
def skipWs (s : List Char) : List Char := s.dropWhile isspace

/-- The optional sign of a number. -/
def scanSign (s : List Char) : Bool × List Char :=
  match s with
  | '-' :: t => (true, t)
  | '+' :: t => (false, t)
  | _ => (false, s)

/-- The integer read by `%d` and what remains of the input; `none` is a matching failure
(C99 7.19.6.2: after a failure, white space and a sign have been read). -/
def scanInt (s : List Char) : Option Int × List Char :=
  let (neg, s) := scanSign (skipWs s)
  let d := s.takeWhile Char.isDigit
  if d.isEmpty then (none, s)
  else (some (if neg then -(Nat.ofDigitChars 10 d 0 : Int) else Nat.ofDigitChars 10 d 0), s.dropWhile Char.isDigit)

/-- Conversion `%d` (`bits = 31`) or `%" SCNd64 "` (`bits = 63`): undefined if the result cannot be represented
(C99 7.19.6.2, 10). -/
def scanD (bits : Nat) (s : List Char) : C (Option Int × List Char) :=
  match scanInt s with
  | (none, t) => .ok (none, t)
  | (some x, t) => if -2 ^ bits ≤ x ∧ x < 2 ^ bits then .ok (some x, t) else .error .ub

/-- Conversion `%s` into an array of `size` characters. -/
def scanS (size : Nat) (s : List Char) : C (Option (List Char) × List Char) :=
  let s := skipWs s
  let w := s.takeWhile fun c => !isspace c
  if w.isEmpty then .ok (none, s)
  else if w.length < size then .ok (some w, s.dropWhile fun c => !isspace c)
  else .error .ub

/-- `sscanf(s, "%d %d %" SCNd64 "\n", ...)`: `none` unless three numbers are read. -/
def scan3 (s : List Char) : C (Option (Int × Int × Int)) := do
  let (a, s) ← scanD 31 s
  match a with
  | none => .ok none
  | some a => do
    let (b, s) ← scanD 31 (skipWs s)
    match b with
    | none => .ok none
    | some b => do
      let (c, _) ← scanD 63 (skipWs s)
      match c with
      | none => .ok none
      | some c => .ok (some (a, b, c))

/-- `sscanf(s, "%d %d %c\n", ...)`. -/
def scan2c (s : List Char) : C (Option (Int × Int × Char)) := do
  let (a, s) ← scanD 31 s
  match a with
  | none => .ok none
  | some a => do
    let (b, s) ← scanD 31 (skipWs s)
    match b with
    | none => .ok none
    | some b =>
      match skipWs s with
      | [] => .ok none
      | c :: _ => .ok (some (a, b, c))

/-- The characters that `fgets` takes: at most `k`, up to a newline included; and what remains. -/
def takeLine : Nat → List Char → List Char × List Char
  | 0, s => ([], s)
  | _ + 1, [] => ([], [])
  | k + 1, c :: s => if c = '\n' then ([c], s) else (c :: (takeLine k s).1, (takeLine k s).2)

/-- `feof` after the `fgets` that took `l`, at most `k` characters: the end of the file was met. -/
def atEof (k : Nat) (l : List Char) : Bool := decide (l.length < k) && decide (l.getLast? ≠ some '\n')

/-- A C string: the characters before the first NUL. -/
def cstr (l : List Char) : List Char := l.takeWhile fun c => decide (c.toNat ≠ 0)

/-- The byte that represents a character. -/
def byte (c : Char) : Sha.B := BitVec.ofNat 8 c.toNat

/-- The value of a hexadecimal digit. -/
def hexVal (c : Char) : Option Nat :=
  if c.isDigit then some (c.toNat - 48)
  else if 'a'.toNat ≤ c.toNat ∧ c.toNat ≤ 'f'.toNat then some (c.toNat - 87)
  else if 'A'.toNat ≤ c.toNat ∧ c.toNat ≤ 'F'.toNat then some (c.toNat - 55)
  else none

/-- The digits at the beginning of `s`, in base 16. -/
def hexDigits : List Char → Nat → Nat
  | [], a => a
  | c :: s, a => match hexVal c with
    | some v => hexDigits s (16 * a + v)
    | none => a

/-- `strtoul(s, NULL, 16)` converted to `u8` (C99 7.20.1.4).  (A prefix `0x` in a string of two characters is
followed by nothing, and then only the 0 is read.) -/
def strtoul16 (s : List Char) : Sha.B :=
  let (neg, s) := scanSign (skipWs s)
  if neg then -BitVec.ofNat 8 (hexDigits s 0) else BitVec.ofNat 8 (hexDigits s 0)

end Spasm
