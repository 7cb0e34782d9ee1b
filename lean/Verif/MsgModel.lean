import Verif.InitModel

/-!
# Model of the texts in a `Status`, and of loading a recogniser with them

The other models keep only the code of a `Status` (`src/status.h`).  Here the readers, `Configuration`, `SymbolTable`,
`AcousticModel::Read` and `ce_stt_init` are modelled again with the text that `what()` returns.  `Verif.MsgLemmas` shows
that without the texts they are the other models.

A `ReadableFile` is its `filename_` and the bytes not yet read.
-/

namespace Verif.Msg

open Verif Verif.Text Verif.App

/-- How a function ends that does not return OK: a `Status` with code and text, `src/status.h` 69-70, or a fault. -/
inductive Err where
  | status (c : Code) (what : Str)
  | fault (f : Fault)
deriving DecidableEq, Repr

/-- A function that returns a `Status`, `src/status.h` 37-103. -/
abbrev Mio (α : Type) := Except Err α

/-- A fault inside a function that returns a `Status`, `src/status.h` 37-103. -/
def Mio.ofExec {α : Type} : Exec α → Mio α
  | .ok a => .ok a
  | .error f => .error (.fault f)

/-- The beginning of the text by code, `src/status.h` 82-98: `IOError: `, `Corruption: `, `RuntimeError: `. -/
def label : Code → Str
  | .io => [73, 79, 69, 114, 114, 111, 114, 58, 32]
  | .corruption => [67, 111, 114, 114, 117, 112, 116, 105, 111, 110, 58, 32]
  | .runtime => [82, 117, 110, 116, 105, 109, 101, 69, 114, 114, 111, 114, 58, 32]

/-- `Status::IOError`, `Status::Corruption`, `Status::RuntimeError`, `src/status.h` 42-53, with the constructor
(80-102). -/
def failed {α : Type} (c : Code) (message : Str) : Mio α := .error (.status c (label c ++ message))

/-! ## Numbers -/

/-- The digits of a number, `std::to_string`, called in `src/util.h` 55. -/
def natText (n : Nat) : Str :=
  if n < 10 then [UInt8.ofNat (48 + n)] else natText (n / 10) ++ [UInt8.ofNat (48 + n % 10)]
decreasing_by omega

/-- `std::to_string` of a signed number, called in `src/util.h` 55. -/
def intText (x : Int) : Str := if x < 0 then 45 :: natText x.natAbs else natText x.natAbs

/-! ## Reading binary files -/

/-- A reader: from the name and the rest of the file to a value and the new rest.  `ReadableFile`, `src/util.h` 112-165.
-/
def Rm (α : Type) := Str → List UInt8 → Mio (α × List UInt8)

instance : Monad Rm where
  pure a := fun _ bs => .ok (a, bs)
  bind p q := fun name bs => p name bs >>= fun x => q x.1 name x.2

/-- Return a non-OK status whose text may depend on `fd->filename()`, `src/util.h` 141-143. -/
def Rm.fail {α : Type} (c : Code) (text : Str → Str) : Rm α := fun name _ => failed c (text name)

/-- A fault inside a reader.  There is no counterpart in /repo. -/
def Rm.fault {α : Type} (f : Fault) : Rm α := fun _ _ => .error (.fault f)

/-- `"failed to read: {}"`, `src/util.cc` 122. -/
def tRead : Str := [102, 97, 105, 108, 101, 100, 32, 116, 111, 32, 114, 101, 97, 100, 58, 32, 123, 125]

/-- `ReadableFile::Read`, `src/util.cc` 120-126. -/
def readBytes (n : Nat) : Rm (List UInt8) := fun name bs =>
  if n = 0 ∨ bs.length < n then failed .io (format tRead [name]) else .ok (bs.take n, bs.drop n)

/-- `ReadValue<int32_t>`, `src/util.h` 135-138. -/
def readI32 : Rm Int := do
  let v ← readBytes 4
  pure (decI32 v)

/-- `"ReadAndVerifyString: '{}' expected but '{}' found in {}"`, `src/util.cc` 136. -/
def tVerify : Str := [82, 101, 97, 100, 65, 110, 100, 86, 101, 114, 105, 102, 121, 83, 116, 114, 105, 110, 103, 58,
  32, 39, 123, 125, 39, 32, 101, 120, 112, 101, 99, 116, 101, 100, 32, 98, 117, 116, 32, 39, 123, 125, 39, 32, 102,
  111, 117, 110, 100, 32, 105, 110, 32, 123, 125]

/-- `ReadableFile::ReadAndVerifyString`, `src/util.cc` 128-143. -/
def readTag (expected : List UInt8) : Rm Unit := do
  let v ← readBytes expected.length
  if cstr v = expected then pure ()
  else Rm.fail .corruption fun name => format tVerify [expected, cstr v, name]

/-- How a vector looks after `Vector::Read`: status with text (`none` is OK), the bytes of the elements, the rest of the
file.  `src/vector.cc` 267-300. -/
structure VecResult where
  status : Option (Code × Str)
  mem : List (Option UInt8)
  rest : List UInt8
deriving DecidableEq

/-- The `Status` of a failed `ReadableFile::Read`, `src/util.cc` 122. -/
def cantRead (name : Str) : Option (Code × Str) := some (.io, label .io ++ format tRead [name])

/-- `"section_size = {} * {} + 4 expected, but {} found: {}"`, `src/vector.cc` 287. -/
def tVecSize : Str := [115, 101, 99, 116, 105, 111, 110, 95, 115, 105, 122, 101, 32, 61, 32, 123, 125, 32, 42, 32,
  123, 125, 32, 43, 32, 52, 32, 101, 120, 112, 101, 99, 116, 101, 100, 44, 32, 98, 117, 116, 32, 123, 125, 32, 102,
  111, 117, 110, 100, 58, 32, 123, 125]

/-- The end of `Vector::Read`, `src/vector.cc` 285-299, as in `Ser.readElements`. -/
def readElements (name : Str) (old : List (Option UInt8)) (size dim : Int) (bs : List UInt8) : Exec VecResult :=
  if dim * 4 + 4 ≠ size then
    .ok ⟨some (.corruption, label .corruption ++ format tVecSize [intText dim, natText 4, intText size, name]), old, bs⟩
  else do
    let mem ← Ser.resizeMem old dim
    match Ser.fread (4 * dim.toNat) bs with
    | (some v, r) => .ok ⟨none, v.map some, r⟩
    | (none, r) =>
      if dim = 0 then .ok ⟨cantRead name, mem, r⟩
      else .ok ⟨cantRead name, bs.map some ++ mem.drop bs.length, r⟩

/-- `Vector::Read` behind the tag, `src/vector.cc` 276-299. -/
def readSized (name : Str) (old : List (Option UInt8)) (bs : List UInt8) : Exec VecResult :=
  match Ser.fread 4 bs with
  | (none, r) => .ok ⟨cantRead name, old, r⟩
  | (some size, r) =>
    match Ser.fread 4 r with
    | (none, r) => .ok ⟨cantRead name, old, r⟩
    | (some dim, r) => readElements name old (decI32 size) (decI32 dim) r

/-- `Vector<Real>::Read`, `src/vector.cc` 267-300, for elements of four bytes. -/
def vectorRead (name : Str) (old : List (Option UInt8)) (bs : List UInt8) : Exec VecResult :=
  match Ser.fread 4 bs with
  | (none, r) => .ok ⟨cantRead name, old, r⟩
  | (some v, r) =>
    if cstr v ≠ Ser.tagVec then
      .ok ⟨some (.corruption, label .corruption ++ format tVerify [Ser.tagVec, cstr v, name]), old, r⟩
    else readSized name old r

/-- `PK_CHECK_STATUS(v.Read(fd))` for a vector `v` that is still empty.  Such as `src/nnet.cc` 120-121. -/
def readVec : Rm (List (Option Nat)) := fun name bs =>
  match vectorRead name [] bs with
  | .error f => .error (.fault f)
  | .ok r =>
    match r.status with
    | some (c, t) => .error (.status c t)
    | none => .ok (Ser.elements r.mem, r.rest)

/-- `"Matrix::Read: row_read.Dim() == {} expected, but {} found: {}"`, `src/matrix.cc` 181. -/
def tRow : Str := [77, 97, 116, 114, 105, 120, 58, 58, 82, 101, 97, 100, 58, 32, 114, 111, 119, 95, 114, 101, 97, 100,
  46, 68, 105, 109, 40, 41, 32, 61, 61, 32, 123, 125, 32, 101, 120, 112, 101, 99, 116, 101, 100, 44, 32, 98, 117, 116,
  32, 123, 125, 32, 102, 111, 117, 110, 100, 58, 32, 123, 125]

/-- The loop of `Matrix::Read`, `src/matrix.cc` 175-188, for `n` more rows; `mem` is the memory of `row_read`.  The
status of the read is dropped with its text. -/
def readRows (cols : Nat) : Nat → List (Option UInt8) → Rm (List (List (Option Nat)))
  | 0, _ => pure []
  | n + 1, mem => fun name bs =>
    match vectorRead name mem bs with
    | .error f => .error (.fault f)
    | .ok r =>
      if r.mem.length ≠ 4 * cols then
        failed .corruption (format tRow [natText cols, natText (r.mem.length / 4), name])
      else
        match readRows cols n r.mem name r.rest with
        | .error e => .error e
        | .ok (rows, rest) => .ok (Ser.elements r.mem :: rows, rest)

/-- The end of `Matrix::Read`, `src/matrix.cc` 172-190: the allocation and the rows. -/
def readMatBody (rows cols : Int) : Rm (List (List (Option Nat))) := fun name bs =>
  match matInit rows cols with
  | .error f => .error (.fault f)
  | .ok () => readRows cols.toNat rows.toNat [] name bs

/-- `Matrix<Real>::Read`, `src/matrix.cc` 159-191, for elements of four bytes and a matrix that is still empty. -/
def readMat : Rm (List (List (Option Nat))) := do
  readTag Ser.tagMat
  let _ ← readI32
  let rows ← readI32
  let cols ← readI32
  readMatBody rows cols

open Verif.Nnet (Layer)
open Verif.Ser (Word)

/-- The loop of `SpliceLayer::Read`, `src/nnet.cc` 88-92. -/
def readIndices : Nat → Rm (List Int)
  | 0 => pure []
  | n + 1 => do
    let i ← readI32
    let is ← readIndices n
    pure (i :: is)

/-- `LinearLayer::Read`, `src/nnet.cc` 38-43. -/
def readLinear : Rm (Layer Word) := do
  let W ← readMat
  let b ← readVec
  pure (.linear W b)

/-- `"SpliceLayer: unexpected num_indcies"`, `src/nnet.cc` 84. -/
def tSplice : Str := [83, 112, 108, 105, 99, 101, 76, 97, 121, 101, 114, 58, 32, 117, 110, 101, 120, 112, 101, 99,
  116, 101, 100, 32, 110, 117, 109, 95, 105, 110, 100, 99, 105, 101, 115]

/-- `SpliceLayer::Read`, `src/nnet.cc` 77-95. -/
def readSplice : Rm (Layer Word) := do
  let n ← readI32
  if n < 0 then Rm.fail .corruption fun _ => tSplice
  else do
    let is ← readIndices n.toNat
    pure (.splice is)

/-- `BatchNormLayer::Read`, `src/nnet.cc` 119-124. -/
def readBatchNorm : Rm (Layer Word) := do
  let s ← readVec
  let t ← readVec
  pure (.batchNorm s t)

/-- `NarrowLayer::Read`, `src/nnet.cc` 204-215. -/
def readNarrow : Rm (Layer Word) := do
  let l ← readI32
  let r ← readI32
  pure (.narrow l r)

/-- `"read_layer: unexpected layer type: {} ({})"`, `src/nnet.cc` 261. -/
def tLayer : Str := [114, 101, 97, 100, 95, 108, 97, 121, 101, 114, 58, 32, 117, 110, 101, 120, 112, 101, 99, 116,
  101, 100, 32, 108, 97, 121, 101, 114, 32, 116, 121, 112, 101, 58, 32, 123, 125, 32, 40, 123, 125, 41]

/-- The content of a layer by its type, `src/nnet.cc` 234-267. -/
def readBody (type : Int) : Rm (Layer Word) :=
  if type = 0 then readLinear
  else if type = 1 then pure .relu
  else if type = 2 then pure .normalize
  else if type = 3 then pure .softmax
  else if type = 6 then readSplice
  else if type = 7 then readBatchNorm
  else if type = 8 then pure .logSoftmax
  else if type = 9 then readNarrow
  else Rm.fail .corruption fun name => format tLayer [intText type, name]

/-- `Nnet::ReadLayer`, `src/nnet.cc` 221-271. -/
def readLayer : Rm (Layer Word) := do
  readTag Ser.tagLayer
  let type ← readI32
  readBody type

/-- The loop of `Nnet::Read`, `src/nnet.cc` 288-290. -/
def readLayers : Nat → Rm (List (Layer Word))
  | 0 => pure []
  | n + 1 => do
    let l ← readLayer
    let ls ← readLayers n
    pure (l :: ls)

/-- `Nnet::Read`, `src/nnet.cc` 273-293. -/
def readNnet : Rm Ser.Net := do
  readTag Ser.tagNnet
  let left ← readI32
  let right ← readI32
  let n ← readI32
  let layers ← readLayers n.toNat
  pure ⟨left, right, layers⟩

/-- `vector::resize` with a size given as `int`, `src/fst.cc` 93, 98, 105. -/
def resizeCheck (n : Int) : Rm Unit := if n < 0 then Rm.fault .throw else pure ()

/-- `fd->Read(v.data(), sizeof(T) * v.size())`, `src/fst.cc` 94, 99-101, 106, as in `Fst.readArray`. -/
def readArray (sz n : Nat) : Rm (List UInt8) :=
  if sz * n ≤ 2147483647 then readBytes (sz * n) else Rm.fault .ub

/-- The data part of `Fst::Read`, `src/fst.cc` 92-110. -/
def fstData (stateNumber arcNumber startState : Int) : Rm (Fst.Fst UInt32) := do
  resizeCheck stateNumber
  let fin ← readArray 4 stateNumber.toNat
  let idx ← readArray 4 stateNumber.toNat
  resizeCheck arcNumber
  let arcs ← readArray 16 arcNumber.toNat
  pure { start := startState
         arcs := Fst.decArcs arcNumber.toNat arcs
         stateIdx := (words stateNumber.toNat idx).map toI32
         finals := (words stateNumber.toNat fin).map UInt32.ofNat }

/-- `"section_size == {} expected, but {} found"`, `src/fst.cc` 87. -/
def tFstSize : Str := [115, 101, 99, 116, 105, 111, 110, 95, 115, 105, 122, 101, 32, 61, 61, 32, 123, 125, 32, 101,
  120, 112, 101, 99, 116, 101, 100, 44, 32, 98, 117, 116, 32, 123, 125, 32, 102, 111, 117, 110, 100]

/-- The part of `Fst::Read` after the section name, `src/fst.cc` 63-110. -/
def fstBody : Rm (Fst.Fst UInt32) := do
  let sectionSize ← readI32
  let stateNumber ← readI32
  let arcNumber ← readI32
  let startState ← readI32
  if Fst.expectedSize stateNumber arcNumber ≠ sectionSize then
    Rm.fail .corruption fun _ => format tFstSize [intText (Fst.expectedSize stateNumber arcNumber), intText sectionSize]
  else fstData stateNumber arcNumber startState

/-- `Fst::Read`, `src/fst.cc` 51-111. -/
def fstRead : Rm (Fst.Fst UInt32) := do
  let name ← readBytes 32
  if cstr (name.take 31) ≠ Fst.sectionName then Rm.fail .corruption fun file => file else fstBody

/-! ## Configuration and symbols -/

/-- `"EOF already reached: {}"`, `src/util.cc` 94. -/
def tEof : Str := [69, 79, 70, 32, 97, 108, 114, 101, 97, 100, 121, 32, 114, 101, 97, 99, 104, 101, 100, 58, 32, 123,
  125]

/-- `"Unexpected line in {}: {}"`, `src/configuration.cc` 37. -/
def tLine : Str := [85, 110, 101, 120, 112, 101, 99, 116, 101, 100, 32, 108, 105, 110, 101, 32, 105, 110, 32, 123,
  125, 58, 32, 123, 125]

/-- `"Value cound not be empty: {}"`, `src/configuration.cc` 45; it has one place for two arguments. -/
def tEmpty : Str := [86, 97, 108, 117, 101, 32, 99, 111, 117, 110, 100, 32, 110, 111, 116, 32, 98, 101, 32, 101, 109,
  112, 116, 121, 58, 32, 123, 125]

/-- One line in the loop of `Configuration::Read`, `src/configuration.cc` 28-50. -/
def configLine (name : Str) (table : List (Str × Str)) (line : Str) : Mio (List (Str × Str)) := do
  let line ← Mio.ofExec (trim line)
  if line = [] ∨ line.head? = some 35 then .ok table else do
    let fields ← Mio.ofExec (split line [61])
    match fields with
    | [k, v] => do
      let k ← Mio.ofExec (trim k)
      let value ← Mio.ofExec (trim v)
      if value = [] then failed .corruption (format tEmpty [name, line]) else .ok ((tolower k, value) :: table)
    | _ => failed .corruption (format tLine [name, line])

/-- The loop of `Configuration::Read`, `src/configuration.cc` 27-51; `fuel` bounds the lines. -/
def configLoop (name : Str) : Nat → File → List (Str × Str) → Mio (List (Str × Str))
  | 0, _, _ => .error (.fault .fuel)
  | fuel + 1, f, table =>
    if f.eof then .ok table else
    match readLine f with
    | (.line l, f) => do
      let table ← configLine name table l
      configLoop name fuel f table
    | (.done, _) => .ok table
    | (.ioError, _) => failed .io (format tEof [name])

/-- `"Unable to open {}"`, `src/util.cc` 79. -/
def tOpen : Str := [85, 110, 97, 98, 108, 101, 32, 116, 111, 32, 111, 112, 101, 110, 32, 123, 125]

variable {G : Type}

/-- `ReadableFile::Open`, `src/util.cc` 75-88. -/
def openFile (w : World G) (name : Str) : Mio (List UInt8) :=
  match w.file name with
  | none => failed .io (format tOpen [name])
  | some bs => .ok bs

/-- `conf.Read(config_file)` for a new configuration, `src/configuration.cc` 14-54. -/
def readConf (w : World G) (name : Str) : Mio Config := do
  let bs ← openFile w name
  let table ← configLoop name (bs.length + 2) ⟨bs, false⟩ []
  .ok ⟨name, table⟩

/-- `"Unable to find key '{}' in '{}'"`, `src/configuration.h` 67. -/
def tKey : Str := [85, 110, 97, 98, 108, 101, 32, 116, 111, 32, 102, 105, 110, 100, 32, 107, 101, 121, 32, 39, 123,
  125, 39, 32, 105, 110, 32, 39, 123, 125, 39]

/-- `Configuration::KeyNotFound`, `src/configuration.h` 65-70. -/
def keyNotFound {α : Type} (c : Config) (key : Str) : Mio α := failed .corruption (format tKey [key, c.file])

/-- `GetPath`, `src/configuration.h` 35-40. -/
def getPath (c : Config) (key : Str) : Mio Str := do
  let s ← Mio.ofExec (c.getPathOrElse key kDefault)
  if s = kDefault then keyNotFound c key else .ok s

/-- `GetInteger`, `src/configuration.h` 47-52. -/
def getInteger (c : Config) (key : Str) : Mio Int := do
  let v ← Mio.ofExec (c.getIntegerOrElse key (-2147483648))
  if v = -2147483648 then keyNotFound c key else .ok v

/-- `"unexpected number string: {}"`, `src/util.cc` 56. -/
def tNumber : Str := [117, 110, 101, 120, 112, 101, 99, 116, 101, 100, 32, 110, 117, 109, 98, 101, 114, 32, 115, 116,
  114, 105, 110, 103, 58, 32, 123, 125]

/-- `StringToLong`, `src/util.cc` 51-60. -/
def stringToLong (s : Str) : Mio Int := do
  let t ← Mio.ofExec (trim s)
  let (v, rest) := strtol0 (cstr t)
  if rest ≠ [] then failed .corruption (format tNumber [t]) else .ok v

/-- `"2 column expected but {} found: {}"`, `src/symbol_table.cc` 27. -/
def tColumns : Str := [50, 32, 99, 111, 108, 117, 109, 110, 32, 101, 120, 112, 101, 99, 116, 101, 100, 32, 98, 117,
  116, 32, 123, 125, 32, 102, 111, 117, 110, 100, 58, 32, 123, 125]

/-- One line in the loop of `SymbolTable::Read`, `src/symbol_table.cc` 24-38. -/
def symbolLine (t : Symbols) (line : Str) : Mio Symbols := do
  let fields ← Mio.ofExec (split line [32])
  match fields with
  | [w, x] => do
    let id ← stringToLong x
    let words ← Mio.ofExec (growWords t.words id)
    let words ← Mio.ofExec (aset words id w)
    .ok { t with words := words, ids := (w, wrap32 id) :: t.ids }
  | _ => failed .corruption (format tColumns [natText fields.length, line])

/-- The loop of `SymbolTable::Read`, `src/symbol_table.cc` 23-40, with the check of the status; `fuel` bounds the
lines. -/
def symbolLoop (name : Str) : Nat → File → Symbols → Mio Symbols
  | 0, _, _ => .error (.fault .fuel)
  | fuel + 1, f, t =>
    match readLine f with
    | (.line l, f) => do
      let t ← symbolLine t l
      symbolLoop name fuel f t
    | (.done, _) => .ok t
    | (.ioError, _) => failed .io (format tEof [name])

/-- `"symbol_table: unable to find BOS/EOS symbol"`, `src/symbol_table.cc` 45. -/
def tBosEos : Str := [115, 121, 109, 98, 111, 108, 95, 116, 97, 98, 108, 101, 58, 32, 117, 110, 97, 98, 108, 101, 32,
  116, 111, 32, 102, 105, 110, 100, 32, 66, 79, 83, 47, 69, 79, 83, 32, 115, 121, 109, 98, 111, 108]

/-- `src/symbol_table.cc` 42-50: the ids of `<s>` and `</s>`. -/
def findBosEos (t : Symbols) : Mio Symbols :=
  match mapFind t.ids kBos, mapFind t.ids kEos with
  | some b, some e => .ok { t with bos := b, eos := e }
  | _, _ => failed .corruption tBosEos

/-- `SymbolTable::Read` by file name, `src/symbol_table.cc` 16-51. -/
def symbolsRead (w : World G) (name : Str) : Mio Symbols := do
  let bs ← openFile w name
  let t ← symbolLoop name (bs.length + 2) ⟨bs, false⟩ ⟨[], [], 0, 0⟩
  findBosEos t

/-! ## The recogniser -/

/-- A file named by a key of the configuration, opened and read: `conf.GetPath(key, &filename)`, `fd.Open(filename)` and
`Read(&fd)`, `src/am.cc` 30-36, 40-43, 56-61. -/
def readKey {α : Type} (w : World G) (conf : Config) (key : Str) (p : Rm α) : Mio α := do
  let name ← getPath conf key
  let bs ← openFile w name
  let x ← p name bs
  .ok x.1

/-- `AcousticModel::Read`, `src/am.cc` 26-64, into a new object. -/
def amRead (w : World G) (conf : Config) : Mio AmData := do
  let net ← readKey w conf kNnet readNnet
  let prior ← readKey w conf kPrior readVec
  let logPrior ← Mio.ofExec (applyLog w prior)
  let left ← getInteger conf kLeft
  let right ← getInteger conf kRight
  let chunk ← getInteger conf kChunk
  let numPdfs ← getInteger conf kNumPdfs
  let map ← readKey w conf kTid2pdf readVec
  let tid2pdf ← Mio.ofExec (ints map)
  .ok ⟨net, logPrior, left, right, chunk, numPdfs, tid2pdf⟩

/-- Where a step of `ce_stt_init` leaves things: the status with its text (`none` is OK), the heap, the structure.
`src/ce_stt.cc` 193-231. -/
abbrev Stage (G : Type) := Option (Code × Str) × Heap × Self G

/-- The end of a step that depends on a reader: its status, or its value stored by `f`.
`PK_CHECK_STATUS`, `src/util.h` 35-37. -/
def settle {α : Type} (r : Mio α) (h : Heap) (s : Self G) (f : α → Self G) : Exec (Stage G) :=
  match r with
  | .error (.fault e) => .error e
  | .error (.status c t) => .ok (some (c, t), h, s)
  | .ok x => .ok (none, h, f x)

/-- Leaving a step with a status, such as `src/ce_stt.cc` 71, 91, 121, 126. -/
def leave (c : Code) (message : Str) (h : Heap) (s : Self G) : Exec (Stage G) :=
  .ok (some (c, label c ++ message), h, s)

/-- `"Unable to find key 'fst' in {}"`, `src/ce_stt.cc` 122. -/
def tKeyFst : Str := [85, 110, 97, 98, 108, 101, 32, 116, 111, 32, 102, 105, 110, 100, 32, 107, 101, 121, 32, 39, 102,
  115, 116, 39, 32, 105, 110, 32, 123, 125]

/-- `ReadHclgFst`, `src/ce_stt.cc` 118-131. -/
def readHclg (w : World G) (conf : Config) (h : Heap) (s : Self G) : Exec (Stage G) := do
  let name ← conf.getPathOrElse kFst []
  if name = [] then leave .corruption (format tKeyFst [name]) h s
  else match w.readGraph name with
    | none => leave .io name h s
    | some g =>
      let (a, h) := h.new
      .ok (none, h, { s with fst := some (a, g) })

/-- The acoustic model in `ce_stt_init`, `src/ce_stt.cc` 208-209. -/
def readAm (w : World G) (conf : Config) (h : Heap) (s : Self G) : Exec (Stage G) :=
  let (a, h) := h.new
  settle (amRead w conf) h { s with am := some (a, none) } (fun d => { s with am := some (a, some d) })

/-- `"Unable to find key 'symbol_table' in {}"`, `src/ce_stt.cc` 72. -/
def tKeySymbols : Str := [85, 110, 97, 98, 108, 101, 32, 116, 111, 32, 102, 105, 110, 100, 32, 107, 101, 121, 32, 39,
  115, 121, 109, 98, 111, 108, 95, 116, 97, 98, 108, 101, 39, 32, 105, 110, 32, 123, 125]

/-- `ReadSymbolTable`, `src/ce_stt.cc` 68-79. -/
def readSyms (w : World G) (conf : Config) (h : Heap) (s : Self G) : Exec (Stage G) := do
  let name ← conf.getPathOrElse kSymbols []
  if name = [] then leave .corruption (format tKeySymbols [name]) h s
  else
    let (a, h) := h.new
    settle (symbolsRead w name) h { s with symbols := some (a, none) }
      (fun t => { s with symbols := some (a, some t) })

/-- `self->original_lm->Read`, `src/ce_stt.cc` 99. -/
def originalRead (name : Str) (bs : List UInt8) : Mio (List Nat) := do
  let v ← readVec name bs
  Mio.ofExec (floats v.1)

/-- `self->large_lm_fst->Read` and `InitBucket0`, `src/ce_stt.cc` 105-106. -/
def largeRead (name : Str) (bs : List UInt8) : Mio Lm := do
  let f ← fstRead name bs
  let b ← Mio.ofExec (Fst.initBucket0 f.1)
  .ok ⟨f.1, b⟩

/-- `src/ce_stt.cc` 108-114. -/
def newDelta (h : Heap) (s : Self G) : Exec (Stage G) :=
  match s.symbols with
  | none => .error .assert
  | some (_, none) => .error .ub
  | some (_, some t) =>
    let (a, h) := h.new
    .ok (none, h, { s with delta := some (a, t.bos, t.eos) })

/-- Running the next step when the status is OK, `src/util.h` 35-37 and `src/ce_stt.cc` 193-231. -/
def andThen (x : Exec (Stage G)) (next : Heap → Self G → Exec (Stage G)) : Exec (Stage G) := do
  let (c, h, s) ← x
  match c with
  | some c => .ok (some c, h, s)
  | none => next h s

/-- `src/ce_stt.cc` 101-106. -/
def readLarge (w : World G) (name : Str) (h : Heap) (s : Self G) : Exec (Stage G) :=
  match w.file name with
  | none => leave .io (format tOpen [name]) h s
  | some bs =>
    let (a, h) := h.new
    settle (largeRead name bs) h { s with large := some (a, none) } (fun l => { s with large := some (a, some l) })

/-- `src/ce_stt.cc` 96-99. -/
def readOriginal (w : World G) (name : Str) (h : Heap) (s : Self G) : Exec (Stage G) :=
  match w.file name with
  | none => leave .io (format tOpen [name]) h s
  | some bs =>
    let (a, h) := h.new
    settle (originalRead name bs) h { s with original := some (a, none) }
      (fun v => { s with original := some (a, some v) })

/-- `"Unable to find key 'original_lm' in {}"`, `src/ce_stt.cc` 92. -/
def tKeyOriginal : Str := [85, 110, 97, 98, 108, 101, 32, 116, 111, 32, 102, 105, 110, 100, 32, 107, 101, 121, 32, 39,
  111, 114, 105, 103, 105, 110, 97, 108, 95, 108, 109, 39, 32, 105, 110, 32, 123, 125]

/-- `ReadDeltaLmFst`, `src/ce_stt.cc` 82-115. -/
def readDelta (w : World G) (conf : Config) (h : Heap) (s : Self G) : Exec (Stage G) := do
  let large ← conf.getPathOrElse kLarge []
  if large = [] then .ok (none, h, s)
  else do
    let original ← conf.getPathOrElse kOriginal []
    if original = [] then leave .corruption (format tKeyOriginal [original]) h s
    else andThen (andThen (readOriginal w original h s) (readLarge w large)) newDelta

/-- `new Fbank()`, `src/ce_stt.cc` 221. -/
def newFbank (h : Heap) (s : Self G) : Exec (Stage G) :=
  let (a, h) := h.new
  .ok (none, h, { s with fbank := some (a, ()) })

/-- The steps of `ce_stt_init` after the configuration is read, `src/ce_stt.cc` 203-221. -/
def loadAll (w : World G) (conf : Config) (h : Heap) : Exec (Stage G) :=
  andThen (andThen (andThen (andThen (readHclg w conf h .empty) (readAm w conf)) (readSyms w conf)) (readDelta w conf))
    newFbank

/-! ## The buffer -/

/-- `char error_message[2048] = ""`, `src/ce_stt.cc` 65. -/
def noMessage : Str := List.replicate 2048 0

/-- `pasco_strlcpy(error_message, status.what().c_str(), sizeof(error_message))`, such as `src/ce_stt.cc` 227.  The
string behind `c_str()` is followed by a NUL. -/
def report (buf what : Str) : Exec Str := do
  let r ← strlcpy buf (what ++ [0]) 2048
  .ok r.1

/-- What a C program sees behind the pointer that `ce_stt_last_error` returns, `src/ce_stt.cc` 375-377. -/
def lastError (buf : Str) : Str := cstr buf

/-- `pasco_init_failed`, `src/ce_stt.cc` 226-229: the text goes to `error_message`, what there is of the recogniser is
deleted. -/
def initFailed (a : Nat) (t : Code × Str) (h : Heap) (s : Self G) (buf : Str) :
    Exec (Ptr (Self G) × Heap × Option Code × Str) := do
  let buf ← report buf t.2
  let (h, _) ← destroy h (some (a, s))
  .ok (none, h, some t.1, buf)

/-- `ce_stt_init`, `src/ce_stt.cc` 193-231: the pointer returned, the heap, the code of the status, and
`error_message`. -/
def init (w : World G) (name : Str) (h : Heap) (buf : Str) : Exec (Ptr (Self G) × Heap × Option Code × Str) :=
  let (a, h) := h.new
  match readConf w name with
  | .error (.fault f) => .error f
  | .error (.status c t) => initFailed a (c, t) h .empty buf
  | .ok conf => do
    let (c, h, s) ← loadAll w conf h
    match c with
    | some t => initFailed a t h s buf
    | none => .ok (some (a, s), h, none, buf)

end Verif.Msg
