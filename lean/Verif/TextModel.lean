import Verif.Bytes

/-!
# Model of the string helpers: `src/util.cc`, `src/util.h`, `src/strlcpy.cc`, `StoreHypText`

A `std::string` is its list of bytes.  Lengths are natural numbers: strings of 2^31 bytes and more, whose
positions do not fit the `int` variables of `Split`, are outside the model.
-/

namespace Verif.Text

open Verif

/-- A `std::string`.  Used throughout `src/util.cc` 19-60. -/
abbrev Str := List UInt8

/-- `isspace` in the C locale.  (For bytes above 127 the argument is a negative `char`; glibc answers 0 for
those, strictly it is undefined.)  Called in `src/util.cc` 22-23. -/
def isSpace (c : UInt8) : Bool := c == 32 || (9 ≤ c && c ≤ 13)

/-! ## Trim -/

/-- The first loop of `Trim`, `src/util.cc` 22: position of `begin`, counted from `i`. -/
def trimBegin : Str → Nat → Nat
  | [], i => i
  | c :: cs, i => if isSpace c then trimBegin cs (i + 1) else i

/-- The second loop of `Trim`, `src/util.cc` 23: `end` starts at `e - 1`; the result is its last value as
an index (`-1` for the position before the string, which `cend() - 1` is for an empty string). -/
def trimEnd (s : Str) (b : Nat) : Nat → Int
  | 0 => -1
  | e + 1 => if b < e ∧ ((s[e]?).map isSpace).getD false = true then trimEnd s b e else e

/-- `Trim`, `src/util.cc` 18-25.  The string is built from `begin` up to and including `end`; a range that
ends before its beginning is undefined. -/
def trim (s : Str) : Exec Str :=
  let b := trimBegin s 0
  let e := trimEnd s b s.length
  if e + 1 < b then .error .ub else .ok ((s.drop b).take ((e + 1).toNat - b))

/-! ## Split and Format -/

/-- `d` occurs in `s` at its beginning.  Part of `std::string::find`, called in `src/util.cc` 33. -/
def startsWith : Str → Str → Bool
  | [], _ => true
  | _ :: _, [] => false
  | x :: d, y :: s => x == y && startsWith d s

/-- `std::string::find(d, 0)` on the rest of the string; `none` is `npos`.
Called in `src/util.cc` 33 and `src/util.h` 78. -/
def find (d : Str) : Str → Option Nat
  | [] => if startsWith d [] then some 0 else none
  | c :: s => if startsWith d (c :: s) then some 0 else (find d s).map (· + 1)

/-- `Split`, `src/util.cc` 27-42, on the part of the string from `start` on; `fuel` bounds the number of
fields found by the loop. -/
def splitFrom (d : Str) : Nat → Str → Exec (List Str)
  | 0, _ => .error .fuel
  | fuel + 1, s =>
    match find d s with
    | some p => do
      let fs ← splitFrom d fuel (s.drop (p + d.length))
      .ok (s.take p :: fs)
    | none => .ok (if s.length > 0 then [s] else [])

/-- `Split`, `src/util.cc` 27-42, with enough fuel for every non-empty separator. -/
def split (s d : Str) : Exec (List Str) := splitFrom d (s.length + 1) s

/-- `std::string::replace(pos, 2, repl)`.  Called in `src/util.h` 82. -/
def replace2 (s : Str) (pos : Nat) (repl : Str) : Str := s.take pos ++ repl ++ s.drop (pos + 2)

/-- `FormatImpl`, `src/util.h` 70-85, and `Format` 92-95.  The arguments are given as the strings
`ToString` makes of them. -/
def format (fmt : Str) : List Str → Str
  | [] => fmt
  | a :: args =>
    match find [123, 125] fmt with
    | some pos => format (replace2 fmt pos a) args
    | none => format fmt args

/-- `tolower` in the C locale, `src/util.cc` 46. -/
def lowerByte (c : UInt8) : UInt8 := if 65 ≤ c ∧ c ≤ 90 then c + 32 else c

/-- `Tolower`, `src/util.cc` 44-48. -/
def tolower (s : Str) : Str := s.map lowerByte

/-! ## strlcpy -/

/-- State of the copy: destination buffer, `d`, `s`, `n`.  `src/strlcpy.cc` 28-30. -/
structure Copy where
  buf : Str
  d : Nat
  s : Nat
  n : Nat
deriving DecidableEq, Repr

/-- The `do`-`while` loop, `src/strlcpy.cc` 34-36, entered with `n` = first argument `> 0`. -/
def copyLoop (src : Str) : Nat → Str → Nat → Nat → Exec Copy
  | 0, buf, d, s => .ok ⟨buf, d, s, 0⟩
  | n + 1, buf, d, s => do
    let c ← aget src (s : Int)
    let buf ← aset buf (d : Int) c
    if c = 0 then .ok ⟨buf, d + 1, s + 1, n + 1⟩ else copyLoop src n buf (d + 1) (s + 1)

/-- The scan `while (*s++) {}`, `src/strlcpy.cc` 42; `fuel` bounds the number of bytes read. -/
def scanEnd (src : Str) : Nat → Nat → Exec Nat
  | 0, _ => .error .fuel
  | fuel + 1, s => do
    let c ← aget src (s : Int)
    if c = 0 then .ok (s + 1) else scanEnd src fuel (s + 1)

/-- `src/strlcpy.cc` 32-37. -/
def copyFront (buf src : Str) (siz : Nat) : Exec Copy :=
  if siz ≠ 0 ∧ siz - 1 ≠ 0 then copyLoop src (siz - 1) buf 0 0
  else .ok ⟨buf, 0, 0, siz - 1⟩

/-- `src/strlcpy.cc` 41. -/
def terminate (c : Copy) (siz : Nat) : Exec Str := if siz ≠ 0 then aset c.buf (c.d : Int) 0 else .ok c.buf

/-- `pasco_strlcpy`, `src/strlcpy.cc` 27-46: the new content of `dst` and the return value.  Memory outside
the two lists does not belong to the objects: touching it is undefined. -/
def strlcpy (dst src : Str) (siz : Nat) : Exec (Str × Nat) := do
  let c ← copyFront dst src siz
  if c.n = 0 then
    let buf ← terminate c siz
    let s ← scanEnd src (src.length + 1) c.s
    .ok (buf, s - 1)
  else .ok (c.buf, c.s - 1)

/-! ## Hypothesis text -/

/-- `SymbolTable::Get`, `src/symbol_table.cc` 53-56, as the bytes before the terminator. -/
def symGet (words : List Str) (id : Int) : Exec Str := do
  cassert (decide (0 ≤ id ∧ id < words.length))
  let w ← aget words id
  .ok (cstr w)

/-- The loop building `text`, `src/ce_stt.cc` 171-175. -/
def hypLoop (syms : List Str) : List Int → Str → Exec Str
  | [], text => .ok text
  | w :: ws, text => do
    let sym ← symGet syms w
    hypLoop syms ws (text ++ sym ++ [32])

/-- `StoreHypText`, `src/ce_stt.cc` 158-189: the new content of `utt->hyp` for the words of the best path
(latest first).  `fill` is the uninitialised content of the new array; `std::string::data` is followed by a
NUL byte. -/
def storeHypText (syms : List Str) (words : List Int) (fill : Nat → UInt8) : Exec Str :=
  if words.isEmpty = false then do
    let text ← hypLoop syms words.reverse []
    let r ← strlcpy ((List.range text.length).map fill) (text ++ [0]) text.length
    .ok r.1
  else .ok [0]

/-! ## Line reading -/

/-- A `FILE` opened for reading: the bytes not yet read and the end-of-file indicator.
`fd_` of `ReadableFile`, opened in `src/util.cc` 77. -/
structure File where
  rest : Str
  eof : Bool
deriving DecidableEq, Repr

/-- `fgets` with room for `n` bytes: bytes read, remaining bytes, whether the end was hit.
Called in `src/util.cc` 100. -/
def fgets : Nat → Str → Str × Str × Bool
  | 0, s => ([], s, false)
  | _ + 1, [] => ([], [], true)
  | n + 1, c :: s =>
    if c = 10 then ([c], s, false)
    else
      let (l, r, e) := fgets n s
      (c :: l, r, e)

/-- The loop removing line ends, `src/util.cc` 113-116. -/
def stripEnd (s : Str) : Str := (s.reverse.dropWhile (fun c => c == 13 || c == 10)).reverse

/-- Outcome of `ReadLine`: a line, the first end of file (returns false, status untouched), or an error
status.  `src/util.cc` 90-118. -/
inductive LineResult where
  | line (l : Str)
  | done
  | ioError
deriving DecidableEq, Repr

/-- `ReadableFile::ReadLine`, `src/util.cc` 90-118.  Read errors of the operating system are not
modelled. -/
def readLine (f : File) : LineResult × File :=
  if f.eof then (.ioError, f) else
  let (l, r, e) := fgets 4095 f.rest
  if l = [] then (.done, ⟨r, e⟩) else (.line (stripEnd (cstr l)), ⟨r, e⟩)

/-- A loop `while (fd.ReadLine(&line, &status))`: the lines delivered and whether the loop ended with an
error; `fuel` bounds the iterations.
Such as `src/configuration.cc` 27, `src/symbol_table.cc` 23 and `src/main.cc` 62. -/
def readLines : Nat → File → Exec (List Str × Bool)
  | 0, _ => .error .fuel
  | fuel + 1, f =>
    match readLine f with
    | (.line l, f) => do
      let (ls, b) ← readLines fuel f
      .ok (l :: ls, b)
    | (.done, _) => .ok ([], false)
    | (.ioError, _) => .ok ([], true)

end Verif.Text
