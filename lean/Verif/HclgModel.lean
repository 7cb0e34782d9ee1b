import Verif.Bytes

/-!
# Model of the file of the decoding graph

`ReadHclgFst` (`src/ce_stt.cc` 118-131) reads the graph with `fst::ConstFst<fst::StdArc>::Read` of the vendored OpenFst.
Here are the functions of OpenFst behind this call, the functions by which the decoder looks into the graph, and the
function that writes such a file.

The machine is little-endian, `int` has 32 bits and `size_t` 64.  Not modelled: what is logged to `std::cerr`; memory
mapping (the mode is `READ`, `src/openfst/lib/fst.cc` 29-30); running out of memory, except that `operator new` throws
for 2^63 bytes or more. -/

namespace Verif.Hclg

open Verif

/-- A string of bytes. -/
abbrev Str := List UInt8

/-! ## Numbers in memory -/

/-- The number whose bytes are these, low byte first.  Memory of the integers in `src/openfst/lib/fst.cc` 61-75. -/
def le : List UInt8 → Nat
  | [] => 0
  | b :: bs => b.toNat + 256 * le bs

/-- The first `k` bytes of a number, low byte first.  Memory of the integers in `src/openfst/lib/fst.cc` 85-94. -/
def leBytes : Nat → Nat → List UInt8
  | 0, _ => []
  | k + 1, n => UInt8.ofNat (n % 256) :: leBytes k (n / 256)

/-- A word of `m / 2` and `m` values as a signed number: `int32` has `m = 2 ^ 32`, `int64` has `m = 2 ^ 64`.
`src/openfst/include/fst/types.h` 26-27. -/
def signed (m : Nat) (n : Nat) : Int := if n < m / 2 then n else (n : Int) - m

/-- Conversion of a number to an unsigned type with `m` values.  Conversions in
`src/openfst/include/fst/const-fst.h` 199-201, 210, 223, 374-377. -/
def unsigned (m : Nat) (x : Int) : Nat := (x % m).toNat

/-! ## Streams -/

/-- `std::istream` on a file: what is not yet read, the position, and the failbit.  The stream in
`src/openfst/include/fst/expanded-fst.h` 138-144. -/
structure Strm where
  rest : List UInt8
  pos : Nat
  fail : Bool
deriving DecidableEq

/-- `strm.read(p, n)` for a positive `n`: the bytes that are stored at `p`.  A stream that has failed stores nothing; a
file that is too short stores what is there and fails.  Calls such as `src/openfst/include/fst/util.h` 55. -/
def Strm.read (s : Strm) (n : Nat) : List UInt8 × Strm :=
  if s.fail then ([], s)
  else if n ≤ s.rest.length then (s.rest.take n, ⟨s.rest.drop n, s.pos + n, false⟩)
  else (s.rest, ⟨[], s.pos + s.rest.length, true⟩)

/-- `ReadType` of a number of `k` bytes that has the value `old` before, `src/openfst/include/fst/util.h` 52-56: the
bytes that are read replace the first bytes of it. -/
def readWord (k old : Nat) (s : Strm) : Nat × Strm :=
  let x := s.read k
  (le (x.1 ++ (leBytes k old).drop x.1.length), x.2)

/-- The loop in `ReadType` of a string, `src/openfst/include/fst/util.h` 63-67.  If the stream has failed, `c` is not
initialised and copied: undefined behaviour. -/
def readChars : Nat → Strm → Exec (Str × Strm)
  | 0, s => .ok ([], s)
  | n + 1, s =>
    match s.read 1 with
    | ([c], s) => do
      let x ← readChars n s
      .ok (c :: x.1, x.2)
    | _ => .error .ub

/-- `ReadType` of a string, `src/openfst/include/fst/util.h` 59-69. -/
def readString (s : Strm) : Exec (Str × Strm) :=
  let x := readWord 4 0 s
  readChars (signed 4294967296 x.1).toNat x.2

/-- `AlignInput`, `src/openfst/lib/util.cc` 60-72, with `n` the iterations that are left; `tellg` is -1 if the stream
has failed. -/
def alignLoop : Nat → Strm → Bool × Strm
  | 0, s => (true, s)
  | n + 1, s =>
    if s.fail then (false, s)
    else if s.pos % 16 = 0 then (true, s)
    else alignLoop n (s.read 1).2

/-- `AlignInput`, `src/openfst/lib/util.cc` 60-72. -/
def alignInput (s : Strm) : Bool × Strm := alignLoop 16 s

/-! ## The header -/

/-- `FstHeader`, `src/openfst/include/fst/fst.h` 160-167.  The flags are kept as a bit pattern. -/
structure Header where
  fstType : Str
  arcType : Str
  version : Int
  flags : Nat
  properties : Nat
  start : Int
  numStates : Int
  numArcs : Int
deriving DecidableEq

/-- `kFstMagicNumber`, `src/openfst/lib/fst.cc` 40. -/
def kFstMagicNumber : Nat := 2125659606

/-- `FstHeader::Read` without rewinding, `src/openfst/lib/fst.cc` 58-82; `none` is `false`.  The members have the values
of the constructor before, `src/openfst/include/fst/fst.h` 116-117. -/
def headerRead (s : Strm) : Exec (Option Header × Strm) :=
  let magic := readWord 4 0 s
  if magic.1 ≠ kFstMagicNumber then .ok (none, magic.2)
  else do
    let fstType ← readString magic.2
    let arcType ← readString fstType.2
    let version := readWord 4 0 arcType.2
    let flags := readWord 4 0 version.2
    let properties := readWord 8 0 flags.2
    let start := readWord 8 18446744073709551615 properties.2
    let numStates := readWord 8 0 start.2
    let numArcs := readWord 8 0 numStates.2
    let s := numArcs.2
    if s.fail then .ok (none, s)
    else .ok (some ⟨fstType.1, arcType.1, signed 4294967296 version.1, flags.1, properties.1,
      signed 18446744073709551616 start.1, signed 18446744073709551616 numStates.1,
  signed 18446744073709551616 numArcs.1⟩, s)

/-! ## Symbol tables inside of the file -/

/-- `SymbolTableImpl::AddSymbol`, `src/openfst/lib/symbol-table.cc` 163-184, with the symbols that are in the table; the
keys are not kept, the decoder does not use the table.  `key + 1` is undefined for the largest key. -/
def addSymbol (seen : List Str) (symbol : Str) (key : Int) : Exec (List Str) :=
  if key = -1 then .ok seen
  else if symbol ∈ seen then .ok seen
  else if key = 9223372036854775807 then .error .ub
  else .ok (symbol :: seen)

/-- The loop of `SymbolTableImpl::Read`, `src/openfst/lib/symbol-table.cc` 249-257, with `n` the iterations that are
left. If the stream fails the function returns; the stream is what matters. -/
def symbolLoop : Nat → List Str → Strm → Exec Strm
  | 0, _, s => .ok s
  | n + 1, seen, s => do
    let symbol ← readString s
    let key := readWord 8 0 symbol.2
    if key.2.fail then .ok key.2
    else do
      let seen ← addSymbol seen symbol.1 (signed 18446744073709551616 key.1)
      symbolLoop n seen key.2

/-- `SymbolTableImpl::Read`, `src/openfst/lib/symbol-table.cc` 228-259.  The magic number is not compared.  If it fails,
the table is NULL (`src/openfst/include/fst/fst.h` 843), which is noticed only because the stream has failed. -/
def readSymbols (s : Strm) : Exec Strm :=
  let magic := readWord 4 0 s
  if magic.2.fail then .ok magic.2
  else do
    let name ← readString magic.2
    let available := readWord 8 0 name.2
    let size := readWord 8 0 available.2
    if size.2.fail then .ok size.2
    else symbolLoop (signed 18446744073709551616 size.1).toNat [] size.2

/-- A table if the flag for it is set, `src/openfst/include/fst/fst.h` 842-844 and 847-849. -/
def readTable (flag : Bool) (s : Strm) : Exec Strm := if flag = true then readSymbols s else .ok s

/-- `FstImpl::ReadHeader` with options that give neither header nor tables, `src/openfst/include/fst/fst.h` 812-859, for
the type `const` (`src/openfst/include/fst/const-fst.h` 56-60), arcs of the type `standard`
(`src/openfst/include/fst/arc.h` 48-52) and the least version 1 (`src/openfst/include/fst/const-fst.h` 120). -/
def readHeader (s : Strm) : Exec (Option Header × Strm) := do
  let x ← headerRead s
  match x.1 with
  | none => .ok (none, x.2)
  | some h =>
    if h.fstType ≠ [99, 111, 110, 115, 116] then .ok (none, x.2)
    else if h.arcType ≠ [115, 116, 97, 110, 100, 97, 114, 100] then .ok (none, x.2)
    else if h.version < 1 then .ok (none, x.2)
    else do
      let s ← readTable (h.flags % 2 = 1) x.2
      let s ← readTable (h.flags / 2 % 2 = 1) s
      .ok (some h, s)

/-! ## States and arcs -/

/-- The loop of `MappedFile::Map`, `src/openfst/lib/mapped-file.cc` 70-81: at most 2^28 bytes at a time, `fuel` bounds
the iterations. -/
def readChunks : Nat → Nat → Strm → Exec (Option Str × Strm)
  | _, 0, s => .ok (some [], s)
  | 0, _ + 1, _ => .error .fuel
  | fuel + 1, size, s =>
    let n := min size 268435456
    let x := s.read n
    if x.2.fail then .ok (none, x.2)
    else do
      let y ← readChunks fuel (size - n) x.2
      .ok (y.1.map (x.1 ++ ·), y.2)

/-- `MappedFile::Map` without mapping, `src/openfst/lib/mapped-file.cc` 38-83, and `MappedFile::Allocate`, 104-117;
`none` is a null pointer.  `size + align` is computed modulo 2^64.  If it wraps, the block is empty (the sizes that
occur are multiples of 16 or at most 2^64 - 20), and a byte that is read is written behind it. -/
def map (size : Nat) (s : Strm) : Exec (Option Str × Strm) :=
  if size = 0 then .ok (some [], s)
  else if 9223372036854775808 ≤ (size + 16) % 18446744073709551616 then .error .throw
  else if 18446744073709551616 ≤ size + 16 then
    if s.fail ∨ s.rest = [] then .ok (none, (s.read size).2) else .error .ub
  else readChunks (size / 268435456 + 1) size s

/-- The members of `ConstFstImpl` that the decoder uses, `src/openfst/include/fst/const-fst.h` 124-128.  The arrays are
the bytes in memory. -/
structure ConstFst where
  start : Int
  states : List UInt8
  arcs : List UInt8
deriving DecidableEq

/-- Alignment before the states and before the arcs, `src/openfst/include/fst/const-fst.h` 203-209 and 219-222. -/
def readAlign (h : Header) (s : Strm) : Bool × Strm :=
  if h.version = 1 ∨ h.flags / 4 % 2 = 1 then alignInput s else (true, s)

/-- `ConstFstImpl::Read` after the header, `src/openfst/include/fst/const-fst.h` 199-231; `none` is a null pointer.
`start_` and `nstates_` are `int`, `narcs_` is `size_t`; a state takes 20 bytes and an arc 16. -/
def readBody (h : Header) (s : Strm) : Exec (Option ConstFst × Strm) :=
  let start := signed 4294967296 (unsigned 4294967296 h.start)
  let nstates := signed 4294967296 (unsigned 4294967296 h.numStates)
  let narcs := unsigned 18446744073709551616 h.numArcs
  let a := readAlign h s
  if a.1 = false then .ok (none, a.2)
  else do
    let states ← map (unsigned 18446744073709551616 (nstates * 20)) a.2
    match states.1 with
    | none => .ok (none, states.2)
    | some states' =>
      if states.2.fail then .ok (none, states.2)
      else do
        let a := readAlign h states.2
        if a.1 = false then .ok (none, a.2)
        else do
          let arcs ← map (narcs * 16 % 18446744073709551616) a.2
          match arcs.1 with
          | none => .ok (none, arcs.2)
          | some arcs' => if arcs.2.fail then .ok (none, arcs.2) else .ok (some ⟨start, states', arcs'⟩, arcs.2)

/-- `ConstFstImpl::Read`, `src/openfst/include/fst/const-fst.h` 191-232. -/
def implRead (s : Strm) : Exec (Option ConstFst × Strm) := do
  let x ← readHeader s
  match x.1 with
  | none => .ok (none, x.2)
  | some h => readBody h x.2

/-- `ConstFst::Read` of a file that is there, `src/openfst/include/fst/const-fst.h` 278-282 and
`src/openfst/include/fst/expanded-fst.h` 136-144. -/
def read (file : List UInt8) : Exec (Option ConstFst) := do
  let x ← implRead ⟨file, 0, false⟩
  .ok x.1

/-! ## Looking into the graph -/

/-- An arc, `src/openfst/include/fst/arc.h` 34-37; the weight is the bits of a `float`. -/
structure Arc where
  ilabel : Int
  olabel : Int
  weight : Nat
  next : Int
deriving DecidableEq

/-- `states_[s]`, `src/openfst/include/fst/const-fst.h` 68, 92-93: outside of the array this is undefined. -/
def stateAt (f : ConstFst) (s : Int) : Exec (List UInt8) :=
  if 0 ≤ s ∧ 20 * (s + 1) ≤ f.states.length then .ok ((f.states.drop (20 * s.toNat)).take 20) else .error .ub

/-- `Final`, `src/openfst/include/fst/const-fst.h` 68, with the struct of 102-110: the weight is the first member. -/
def finalAt (f : ConstFst) (s : Int) : Exec Nat := do
  let x ← stateAt f s
  .ok (le (x.take 4))

/-- `data_.arcs[i]` of the iterator, `src/openfst/include/fst/fst.h` 503-505, with `i` counted from the first arc of
all. -/
def arcAt (f : ConstFst) (i : Nat) : Exec Arc :=
  if 16 * (i + 1) ≤ f.arcs.length then
    let x := (f.arcs.drop (16 * i)).take 16
    .ok ⟨signed 4294967296 (le (x.take 4)), signed 4294967296 (le ((x.drop 4).take 4)), le ((x.drop 8).take 4),
      signed 4294967296 (le ((x.drop 12).take 4))⟩
  else .error .ub

/-- The arcs that the iterator visits from the arc `i` on, `n` arcs, `src/openfst/include/fst/fst.h` 499-513. -/
def arcsFrom (f : ConstFst) : Nat → Nat → Exec (List Arc)
  | 0, _ => .ok []
  | n + 1, i => do
    let a ← arcAt f i
    let as ← arcsFrom f n (i + 1)
    .ok (a :: as)

/-- The arcs of a state, as the loops of the decoder see them (such as `src/decoder.cc` 259-263): `InitArcIterator`,
`src/openfst/include/fst/const-fst.h` 90-95, and the iterator.  The pointer to the first arc must not leave the array.
-/
def arcsAt (f : ConstFst) (s : Int) : Exec (List Arc) := do
  let x ← stateAt f s
  let pos := le ((x.drop 4).take 4)
  let narcs := le ((x.drop 8).take 4)
  if 16 * pos ≤ f.arcs.length then arcsFrom f narcs pos else .error .ub

/-! ## Writing -/

/-- What is written: final weights (bits of `float`) and arcs of the states, in order.  The graph behind `fst.Start()`,
`fst.Final` and the iterators, `src/openfst/include/fst/const-fst.h` 352, 371-399. -/
structure Source where
  start : Int
  states : List (Nat × List Arc)
deriving DecidableEq

/-- A symbol table that is written: `name_`, `available_key_`, symbols and keys.  `src/openfst/lib/symbol-table.cc`
261-271. -/
structure Table where
  name : Str
  available : Int
  symbols : List (Str × Int)

/-- `WriteType` of a string, `src/openfst/include/fst/util.h` 168-172, for strings of fewer than 2^31 bytes. -/
def stringBytes (s : Str) : List UInt8 := leBytes 4 s.length ++ s

/-- `SymbolTableImpl::Write`, `src/openfst/lib/symbol-table.cc` 261-278. -/
def Table.bytes (t : Table) : List UInt8 :=
  leBytes 4 2125658996 ++ stringBytes t.name ++ leBytes 8 (unsigned 18446744073709551616 t.available) ++
    leBytes 8 t.symbols.length ++
    (t.symbols.map fun p => stringBytes p.1 ++ leBytes 8 (unsigned 18446744073709551616 p.2)).flatten

/-- `FstHeader::Write`, `src/openfst/lib/fst.cc` 85-96. -/
def headerBytes (h : Header) : List UInt8 :=
  leBytes 4 kFstMagicNumber ++ stringBytes h.fstType ++ stringBytes h.arcType ++
    leBytes 4 (unsigned 4294967296 h.version) ++ leBytes 4 h.flags ++ leBytes 8 h.properties ++
    leBytes 8 (unsigned 18446744073709551616 h.start) ++ leBytes 8 (unsigned 18446744073709551616 h.numStates) ++
    leBytes 8 (unsigned 18446744073709551616 h.numArcs)

/-- `AlignOutput`, `src/openfst/lib/util.cc` 76-87: the zeros that are written at the position `pos`. -/
def padding (pos : Nat) : List UInt8 := List.replicate ((16 - pos % 16) % 16) 0

/-- One state in the file with the number `pos` of its first arc, `src/openfst/include/fst/const-fst.h` 373-378. -/
def stateBytes (pos : Nat) (st : Nat × List Arc) : List UInt8 :=
  leBytes 4 st.1 ++ leBytes 4 pos ++ leBytes 4 st.2.length ++
    leBytes 4 (st.2.filter fun a => a.ilabel = 0).length ++ leBytes 4 (st.2.filter fun a => a.olabel = 0).length

/-- All states, `src/openfst/include/fst/const-fst.h` 371-381. -/
def statesBytes : Nat → List (Nat × List Arc) → List UInt8
  | _, [] => []
  | pos, st :: l => stateBytes pos st ++ statesBytes (pos + st.2.length) l

/-- One arc in the file, `src/openfst/include/fst/const-fst.h` 399. -/
def arcBytes (a : Arc) : List UInt8 :=
  leBytes 4 (unsigned 4294967296 a.ilabel) ++ leBytes 4 (unsigned 4294967296 a.olabel) ++ leBytes 4 a.weight ++
    leBytes 4 (unsigned 4294967296 a.next)

/-- The arcs in the file, `src/openfst/include/fst/const-fst.h` 387-401. -/
def arcsBytes (states : List (Nat × List Arc)) : List UInt8 := ((states.map (·.2)).flatten.map arcBytes).flatten

/-- The header of the file of a graph, `src/openfst/include/fst/const-fst.h` 351-363 and
`src/openfst/include/fst/fst.h` 744-757; the number of states and arcs is that with which the header is written in the end. -/
def writeHeader (align : Bool) (properties : Nat) (isymbols osymbols : Option Table) (g : Source) : Header where
  fstType := [99, 111, 110, 115, 116]
  arcType := [115, 116, 97, 110, 100, 97, 114, 100]
  version := if align then 1 else 2
  flags := (if isymbols.isSome then 1 else 0) + (if osymbols.isSome then 2 else 0) + (if align then 4 else 0)
  properties := properties
  start := g.start
  numStates := g.states.length
  numArcs := (g.states.map (·.2)).flatten.length

/-- `ConstFst::WriteFst`, `src/openfst/include/fst/const-fst.h` 328-421, with `WriteFstHeader`,
`src/openfst/include/fst/fst.h` 740-766: the bytes of the file. -/
def write (align : Bool) (properties : Nat) (isymbols osymbols : Option Table) (g : Source) : List UInt8 :=
  let head := headerBytes (writeHeader align properties isymbols osymbols g) ++ (isymbols.map Table.bytes).getD [] ++
    (osymbols.map Table.bytes).getD []
  let states := statesBytes 0 g.states
  if align then
    let top := head ++ padding head.length ++ states
    top ++ padding top.length ++ arcsBytes g.states
  else head ++ states ++ arcsBytes g.states

end Verif.Hclg
