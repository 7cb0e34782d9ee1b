import Verif.TextModel

/-!
# Model of `src/configuration.cc`, `src/symbol_table.cc` and the number parsing they use
-/

namespace Verif.Text

open Verif

/-- `std::unordered_map::find` on a map kept as the list of its insertions, latest first.
Called in `src/configuration.cc` 78 and `src/symbol_table.cc` 43-48, 59. -/
def mapFind {β : Type u} (t : List (Str × β)) (k : Str) : Option β :=
  match t with
  | [] => none
  | (k', v) :: t => if k' = k then some v else mapFind t k

/-! ## Numbers -/

/-- Value of a digit, `0` to `9`, `a` to `z` in both cases, as `strtol` reads it.  Called in `src/util.cc` 54. -/
def digitVal (c : UInt8) : Option Nat :=
  if 48 ≤ c ∧ c ≤ 57 then some (c.toNat - 48)
  else if 97 ≤ c ∧ c ≤ 122 then some (c.toNat - 87)
  else if 65 ≤ c ∧ c ≤ 90 then some (c.toNat - 55)
  else none

/-- `c` is a digit of the base.
Part of `strtol`, called in `src/util.cc` 54, and of `std::stoi`, `src/configuration.cc` 87. -/
def isDigit (base : Nat) (c : UInt8) : Bool :=
  match digitVal c with
  | some d => decide (d < base)
  | none => false

/-- The digits at the beginning of the string: number read, and the rest.
Part of `strtol`, called in `src/util.cc` 54, and of `std::stoi`, `src/configuration.cc` 87. -/
def digits (base : Nat) : Nat → Str → Nat × Str
  | acc, [] => (acc, [])
  | acc, c :: s =>
    if isDigit base c then digits base (acc * base + (digitVal c).getD 0) s else (acc, c :: s)

/-- White space before the number, then an optional sign.
Part of `strtol`, called in `src/util.cc` 54, and of `std::stoi`, `src/configuration.cc` 87. -/
def sign (s : Str) : Bool × Str :=
  match s.dropWhile isSpace with
  | c :: s => if c = 45 then (true, s) else if c = 43 then (false, s) else (false, c :: s)
  | [] => (false, [])

/-- The base `strtol` chooses for base argument 0, and the string after a `0x`.  Called in `src/util.cc` 54. -/
def chooseBase (s : Str) : Nat × Str :=
  match s with
  | c :: x :: d :: s' =>
    if c = 48 ∧ (x = 120 ∨ x = 88) ∧ isDigit 16 d = true then (16, d :: s')
    else if c = 48 then (8, s) else (10, s)
  | c :: _ => if c = 48 then (8, s) else (10, s)
  | [] => (10, [])

/-- Clamping to a signed type of `bits` bits.
Part of `strtol`, called in `src/util.cc` 54, and of `std::stoi`, `src/configuration.cc` 87. -/
def clamp (bits : Nat) (x : Int) : Int :=
  if x < -(2 ^ (bits - 1)) then -(2 ^ (bits - 1))
  else if 2 ^ (bits - 1) ≤ x then 2 ^ (bits - 1) - 1 else x

/-- `strtol(s, &end, 0)`: value and the string from `end` on.  If there is no digit `end` is `s`.
Called in `src/util.cc` 54. -/
def strtol0 (s : Str) : Int × Str :=
  let (neg, t) := sign s
  let (base, u) := chooseBase t
  match u with
  | [] => (0, s)
  | c :: _ =>
    if isDigit base c then
      let (n, rest) := digits base 0 u
      (clamp 64 (if neg then -(n : Int) else n), rest)
    else (0, s)

/-- `StringToLong`, `src/util.cc` 51-60. -/
def stringToLong (s : Str) : Io Int := do
  let t ← Io.ofExec (trim s)
  let (v, rest) := strtol0 (cstr t)
  if rest ≠ [] then bad .corruption else .ok v

/-- `std::stoi(s)`, base 10: throws without digits and outside the range of `int`; what follows the digits
is ignored.  Called in `src/configuration.cc` 87. -/
def stoi (s : Str) : Exec Int :=
  let (neg, t) := sign (cstr s)
  match t with
  | [] => .error .throw
  | c :: _ =>
    if isDigit 10 c then
      let (n, _) := digits 10 0 t
      let v : Int := if neg then -(n : Int) else n
      if -2147483648 ≤ v ∧ v ≤ 2147483647 then .ok v else .error .throw
    else .error .throw

/-! ## Configuration -/

/-- `Configuration`: `filename_` and `table_`.  `src/configuration.h` 62-63. -/
structure Config where
  file : Str
  table : List (Str × Str)
deriving DecidableEq, Repr

/-- One line in the loop of `Configuration::Read`, `src/configuration.cc` 28-50. -/
def configLine (table : List (Str × Str)) (line : Str) : Io (List (Str × Str)) := do
  let line ← Io.ofExec (trim line)
  if line = [] ∨ line.head? = some 35 then .ok table else do
    let fields ← Io.ofExec (split line [61])
    match fields with
    | [k, v] => do
      let k ← Io.ofExec (trim k)
      let value ← Io.ofExec (trim v)
      if value = [] then bad .corruption else .ok ((tolower k, value) :: table)
    | _ => bad .corruption

/-- The loop of `Configuration::Read`, `src/configuration.cc` 27-51; `fuel` bounds the lines. -/
def configLoop : Nat → File → List (Str × Str) → Io (List (Str × Str))
  | 0, _, _ => .error (.fault .fuel)
  | fuel + 1, f, table =>
    if f.eof then .ok table else
    match readLine f with
    | (.line l, f) => do
      let table ← configLine table l
      configLoop fuel f table
    | (.done, _) => .ok table
    | (.ioError, _) => bad .io

/-- `Configuration::Read`, `src/configuration.cc` 14-54, on a file with the given content.  (Failure to open
the file is not modelled; on a `Corruption` the lines read so far stay in the table, here the error carries
no table.) -/
def Config.read (c : Config) (filename content : Str) : Io Config := do
  let table ← configLoop (content.length + 2) ⟨content, false⟩ c.table
  .ok ⟨filename, table⟩

/-- `GetStringOrElse`, `src/configuration.cc` 73-82. -/
def Config.getStringOrElse (c : Config) (key dflt : Str) : Str :=
  match mapFind c.table (tolower key) with
  | none => dflt
  | some v => v

/-- `kDefaultString`, `src/configuration.cc` 12: `~_$$NOT_Ext_Val$$>-^-<@@_`. -/
def kDefault : Str :=
  [126, 95, 36, 36, 78, 79, 84, 95, 69, 120, 116, 95, 86, 97, 108, 36, 36, 62, 45, 94, 45, 60, 64, 64, 95]

/-- `rfind('/')`.  Called in `src/configuration.cc` 67. -/
def rfindSlash : Str → Option Nat
  | [] => none
  | c :: s =>
    match rfindSlash s with
    | some p => some (p + 1)
    | none => if c = 47 then some 0 else none

/-- `GetPathOrElse`, `src/configuration.cc` 56-71.  `front` of an empty string is undefined. -/
def Config.getPathOrElse (c : Config) (key dflt : Str) : Exec Str :=
  let path := c.getStringOrElse key kDefault
  if path = kDefault then .ok dflt else
  match path with
  | [] => .error .ub
  | x :: _ =>
    if x = 47 then .ok path else
    match rfindSlash c.file with
    | none => .ok path
    | some pos => .ok (c.file.take (pos + 1) ++ path)

/-- `GetIntegerOrElse`, `src/configuration.cc` 84-88. -/
def Config.getIntegerOrElse (c : Config) (key : Str) (dflt : Int) : Exec Int :=
  let s := c.getStringOrElse key kDefault
  if s = kDefault then .ok dflt else stoi s

/-- `GetString`, `src/configuration.h` 41-46. -/
def Config.getString (c : Config) (key : Str) : Io Str :=
  let s := c.getStringOrElse key kDefault
  if s = kDefault then bad .corruption else .ok s

/-- `GetPath`, `src/configuration.h` 35-40. -/
def Config.getPath (c : Config) (key : Str) : Io Str := do
  let s ← Io.ofExec (c.getPathOrElse key kDefault)
  if s = kDefault then bad .corruption else .ok s

/-- `GetInteger`, `src/configuration.h` 47-52. -/
def Config.getInteger (c : Config) (key : Str) : Io Int := do
  let v ← Io.ofExec (c.getIntegerOrElse key (-2147483648))
  if v = -2147483648 then bad .corruption else .ok v

/-! ## Symbol table -/

/-- `SymbolTable`: `words_`, `word_ids_`, `bos_id_`, `eos_id_`.  `src/symbol_table.h` 37-41. -/
structure Symbols where
  words : List Str
  ids : List (Str × Int)
  bos : Int
  eos : Int
deriving DecidableEq, Repr

/-- `std::vector<std::string>::resize(n)`: `n` is taken modulo 2^64; sizes above the maximal size
(2^63 / 32 - 1 for 32-byte strings) throw.  Running out of memory is not modelled.
Called in `src/symbol_table.cc` 37. -/
def resizeWords (words : List Str) (n : Int) : Exec (List Str) :=
  let m := (n % 2 ^ 64).toNat
  if 288230376151711743 < m then .error .throw
  else .ok (words.take m ++ List.replicate (m - words.length) [])

/-- `src/symbol_table.cc` 37: room for the id, compared as unsigned numbers; `word_id + 1` overflows for the
largest `long`. -/
def growWords (words : List Str) (id : Int) : Exec (List Str) :=
  if (id % 2 ^ 64).toNat ≥ words.length then
    if id = 2 ^ 63 - 1 then .error .ub else resizeWords words (id + 1)
  else .ok words

/-- One line in the loop of `SymbolTable::Read`, `src/symbol_table.cc` 24-38. -/
def symbolLine (t : Symbols) (line : Str) : Io Symbols := do
  let fields ← Io.ofExec (split line [32])
  match fields with
  | [w, x] => do
    let id ← stringToLong x
    let words ← Io.ofExec (growWords t.words id)
    let words ← Io.ofExec (aset words id w)
    .ok { t with words := words, ids := (w, wrap32 id) :: t.ids }
  | _ => bad .corruption

/-- The loop of `SymbolTable::Read`, `src/symbol_table.cc` 23-40, with the check of the status; `fuel`
bounds the lines. -/
def symbolLoop : Nat → File → Symbols → Io Symbols
  | 0, _, _ => .error (.fault .fuel)
  | fuel + 1, f, t =>
    match readLine f with
    | (.line l, f) => do
      let t ← symbolLine t l
      symbolLoop fuel f t
    | (.done, _) => .ok t
    | (.ioError, _) => bad .io

/-- `<s>`, `src/symbol_table.cc` 11. -/
def kBos : Str := [60, 115, 62]
/-- `</s>`, `src/symbol_table.cc` 12. -/
def kEos : Str := [60, 47, 115, 62]

/-- `src/symbol_table.cc` 42-50: the ids of `<s>` and `</s>`. -/
def findBosEos (t : Symbols) : Io Symbols :=
  match mapFind t.ids kBos, mapFind t.ids kEos with
  | some b, some e => .ok { t with bos := b, eos := e }
  | _, _ => bad .corruption

/-- `SymbolTable::Read`, `src/symbol_table.cc` 16-51, into a new table, on a file with the given content. -/
def readSymbols (content : Str) : Io Symbols := do
  let t ← symbolLoop (content.length + 2) ⟨content, false⟩ ⟨[], [], 0, 0⟩
  findBosEos t

/-- `SymbolTable::GetId`, `src/symbol_table.cc` 58-65. -/
def Symbols.getId (t : Symbols) (w : Str) : Int := (mapFind t.ids w).getD (-1)

/-- `SymbolTable::Get`, `src/symbol_table.cc` 53-56. -/
def Symbols.get (t : Symbols) (id : Int) : Exec Str := symGet t.words id

end Verif.Text
