import Verif.ConfigModel
import Verif.SerModel
import Verif.FstModel

/-!
# Model of loading and destroying a recogniser

`AcousticModel::Read` (`src/am.cc`), `ce_stt_init`, `ce_stt_destroy`, `ce_utt_init` and `ce_utt_destroy` as far as
memory goes (`src/ce_stt.cc`).

The file system is a function from names to contents.  `fst::ConstFst<fst::StdArc>::Read` is vendored OpenFst: an
arbitrary partial function of the file name, with graphs of an arbitrary type `G`.  The heap is the set of blocks made
by the `new` expressions of these functions and not yet deleted; what the objects allocate inside is theirs.
-/

namespace Verif.App

open Verif Verif.Text

/-- What the functions depend on: files that can be opened, with their contents; `ConstFst::Read` (`src/ce_stt.cc` 124);
the comparison `data_[i] >= 0.0` and `log` of `ApplyLog` (`src/vector.cc` 181-182) on the bits of a `float`. -/
structure World (G : Type) where
  file : Str → Option (List UInt8)
  readGraph : Str → Option G
  nonneg : Nat → Bool
  log : Nat → Nat

/-- The file system changed in one place; used in examples.  Not in /repo. -/
def World.with {G : Type} (w : World G) (name : Str) (content : Option (List UInt8)) : World G :=
  { w with file := fun n => if n = name then content else w.file n }

/-! ## Keys -/

/-- `"fst"`, `src/ce_stt.cc` 119. -/
def kFst : Str := [102, 115, 116]

/-- `"nnet"`, `src/am.cc` 31. -/
def kNnet : Str := [110, 110, 101, 116]

/-- `"prior"`, `src/am.cc` 41. -/
def kPrior : Str := [112, 114, 105, 111, 114]

/-- `"left_context"`, `src/am.cc` 48. -/
def kLeft : Str := [108, 101, 102, 116, 95, 99, 111, 110, 116, 101, 120, 116]

/-- `"right_context"`, `src/am.cc` 49. -/
def kRight : Str := [114, 105, 103, 104, 116, 95, 99, 111, 110, 116, 101, 120, 116]

/-- `"chunk_size"`, `src/am.cc` 50. -/
def kChunk : Str := [99, 104, 117, 110, 107, 95, 115, 105, 122, 101]

/-- `"num_pdfs"`, `src/am.cc` 54. -/
def kNumPdfs : Str := [110, 117, 109, 95, 112, 100, 102, 115]

/-- `"tid2pdf"`, `src/am.cc` 56. -/
def kTid2pdf : Str := [116, 105, 100, 50, 112, 100, 102]

/-- `"symbol_table"`, `src/ce_stt.cc` 69. -/
def kSymbols : Str := [115, 121, 109, 98, 111, 108, 95, 116, 97, 98, 108, 101]

/-- `"large_lm"`, `src/ce_stt.cc` 83. -/
def kLarge : Str := [108, 97, 114, 103, 101, 95, 108, 109]

/-- `"original_lm"`, `src/ce_stt.cc` 89. -/
def kOriginal : Str := [111, 114, 105, 103, 105, 110, 97, 108, 95, 108, 109]

/-! ## Reading -/

/-- `ReadableFile::Open`, `src/util.cc` 75-88. -/
def openFile {G : Type} (w : World G) (name : Str) : Io (List UInt8) :=
  match w.file name with
  | none => bad .io
  | some bs => .ok bs

/-- The value of a word that is used; using an indeterminate one is undefined.
The tables are read in `src/decoder.cc` 99-100 and `src/fst.cc` 276, 286. -/
def useWord : Option Nat → Exec Nat
  | none => .error .ub
  | some x => .ok x

/-- `VectorBase<float>::ApplyLog`, `src/vector.cc` 179-184. -/
def applyLog {G : Type} (w : World G) : List (Option Nat) → Exec (List Nat)
  | [] => .ok []
  | v :: vs => do
    let x ← useWord v
    cassert (w.nonneg x)
    let xs ← applyLog w vs
    .ok (w.log x :: xs)

/-- The elements of a `Vector<int32_t>` that was read by `Vector::Read`.  `src/vector.cc` 267-300. -/
def ints : List (Option Nat) → Exec (List Int)
  | [] => .ok []
  | v :: vs => do
    let x ← useWord v
    let xs ← ints vs
    .ok (toI32 x :: xs)

/-- The elements of a `Vector<float>` that was read by `Vector::Read`, as bits.  `src/vector.cc` 267-300. -/
def floats : List (Option Nat) → Exec (List Nat)
  | [] => .ok []
  | v :: vs => do
    let x ← useWord v
    let xs ← floats vs
    .ok (x :: xs)

/-- `AcousticModel`, `src/am.h` 51-58: `nnet_`, `log_prior_`, `left_context_`, `right_context_`, `chunk_size_`,
`num_pdfs_`, `tid2pdf_`. -/
structure AmData where
  net : Ser.Net
  logPrior : List Nat
  left : Int
  right : Int
  chunk : Int
  numPdfs : Int
  tid2pdf : List Int
deriving DecidableEq

/-- A file named by a key of the configuration, opened: `conf.GetPath(key, &filename)` and `fd.Open(filename)`,
`src/am.cc` 31-35, 41-42, 56-58. -/
def openKey {G : Type} (w : World G) (conf : Config) (key : Str) : Io (List UInt8) := do
  let name ← conf.getPath key
  openFile w name

/-- `AcousticModel::Read`, `src/am.cc` 26-64, into a new object.  Simplification: the members set before an error are
not part of the result; `ce_stt_init` deletes the object then. -/
def amRead {G : Type} (w : World G) (conf : Config) : Io AmData := do
  let bs ← openKey w conf kNnet
  let net ← Ser.readNnet bs
  let bs ← openKey w conf kPrior
  let prior ← Ser.readVec bs
  let logPrior ← Io.ofExec (applyLog w prior.1)
  let left ← conf.getInteger kLeft
  let right ← conf.getInteger kRight
  let chunk ← conf.getInteger kChunk
  let numPdfs ← conf.getInteger kNumPdfs
  let bs ← openKey w conf kTid2pdf
  let map ← Ser.readVec bs
  let tid2pdf ← Io.ofExec (ints map.1)
  .ok ⟨net.1, logPrior, left, right, chunk, numPdfs, tid2pdf⟩

/-! ## The heap -/

/-- Blocks made by `new` and not deleted, and the next address.  `src/ce_stt.cc` 62-115 and 178-292. -/
structure Heap where
  next : Nat
  live : List Nat
deriving DecidableEq, Repr

/-- A `new` expression.  `src/ce_stt.cc` 75, 98, 104, 110, 179, 186, 194, 208, 221, 257-267. -/
def Heap.new (h : Heap) : Nat × Heap := (h.next, ⟨h.next + 1, h.next :: h.live⟩)

/-- A `delete` expression: nothing for a null pointer; undefined for a block that is not live.
`src/ce_stt.cc` 178, 185, 234-252, 286-292. -/
def Heap.del (h : Heap) : Option Nat → Exec Heap
  | none => .ok h
  | some a => if a ∈ h.live then .ok { h with live := h.live.erase a } else .error .ub

/-- A pointer to an object: null, or address and content.  `src/ce_stt.cc` 42-48. -/
abbrev Ptr (α : Type) := Option (Nat × α)

/-- The address in a pointer.  `src/ce_stt.cc` 42-48. -/
def Ptr.addr {α : Type} (p : Ptr α) : Option Nat := p.map Prod.fst

/-- A large language model: `LmFst` with its table `bucket_0_`.  `src/fst.h` 99-121. -/
structure Lm where
  fst : Fst.Fst UInt32
  bucket : List (Option (Fst.Arc UInt32))
deriving DecidableEq

/-- `ce_stt_t`, `src/ce_stt.cc` 41-49.  The content of an object whose reading failed is `none`; `Fbank` and the pointers
in `DeltaLmFst` are left out, the latter's `bos_symbol_` and `eos_symbol_` are kept. -/
structure Self (G : Type) where
  fst : Ptr G
  large : Ptr (Option Lm)
  delta : Ptr (Int × Int)
  original : Ptr (Option (List Nat))
  am : Ptr (Option AmData)
  fbank : Ptr Unit
  symbols : Ptr (Option Symbols)
deriving DecidableEq

/-- The `memset` of `src/ce_stt.cc` 195. -/
def Self.empty {G : Type} : Self G := ⟨none, none, none, none, none, none, none⟩

/-- Where a step of `ce_stt_init` leaves things: the status (`none` is OK), the heap, the structure.
`src/ce_stt.cc` 193-231. -/
abbrev Stage (G : Type) := Option Code × Heap × Self G

/-- The end of a step that depends on a reader: its status, or its value stored by `f`.
`PK_CHECK_STATUS`, `src/util.h` 35-37. -/
def settle {G α : Type} (r : Io α) (h : Heap) (s : Self G) (f : α → Self G) : Exec (Stage G) :=
  match r with
  | .error (.fault e) => .error e
  | .error (.status c) => .ok (some c, h, s)
  | .ok x => .ok (none, h, f x)

/-- `ReadHclgFst`, `src/ce_stt.cc` 118-131. -/
def readHclg {G : Type} (w : World G) (conf : Config) (h : Heap) (s : Self G) : Exec (Stage G) := do
  let name ← conf.getPathOrElse kFst []
  if name = [] then .ok (some .corruption, h, s)
  else match w.readGraph name with
    | none => .ok (some .io, h, s)
    | some g =>
      let (a, h) := h.new
      .ok (none, h, { s with fst := some (a, g) })

/-- The acoustic model in `ce_stt_init`, `src/ce_stt.cc` 208-209. -/
def readAm {G : Type} (w : World G) (conf : Config) (h : Heap) (s : Self G) : Exec (Stage G) :=
  let (a, h) := h.new
  settle (amRead w conf) h { s with am := some (a, none) } (fun d => { s with am := some (a, some d) })

/-- `SymbolTable::Read` by file name, `src/symbol_table.cc` 16-51. -/
def symbolsRead {G : Type} (w : World G) (name : Str) : Io Symbols := do
  let bs ← openFile w name
  readSymbols bs

/-- `ReadSymbolTable`, `src/ce_stt.cc` 68-79. -/
def readSyms {G : Type} (w : World G) (conf : Config) (h : Heap) (s : Self G) : Exec (Stage G) := do
  let name ← conf.getPathOrElse kSymbols []
  if name = [] then .ok (some .corruption, h, s)
  else
    let (a, h) := h.new
    settle (symbolsRead w name) h { s with symbols := some (a, none) }
      (fun t => { s with symbols := some (a, some t) })

/-- `self->original_lm->Read`, `src/ce_stt.cc` 99. -/
def originalRead (bs : List UInt8) : Io (List Nat) := do
  let v ← Ser.readVec bs
  Io.ofExec (floats v.1)

/-- `self->large_lm_fst->Read` and `InitBucket0`, `src/ce_stt.cc` 105-106. -/
def largeRead (bs : List UInt8) : Io Lm := do
  let f ← Fst.read bs
  let b ← Io.ofExec (Fst.initBucket0 f.1)
  .ok ⟨f.1, b⟩

/-- `src/ce_stt.cc` 108-114: the delta language model takes the two symbols from the symbol table. -/
def newDelta {G : Type} (h : Heap) (s : Self G) : Exec (Stage G) :=
  match s.symbols with
  | none => .error .assert
  | some (_, none) => .error .ub
  | some (_, some t) =>
    let (a, h) := h.new
    .ok (none, h, { s with delta := some (a, t.bos, t.eos) })

/-- Running the next step when the status is OK (`PK_CHECK_STATUS`, and the `goto`s of `ce_stt_init`).
`src/util.h` 35-37 and `src/ce_stt.cc` 193-231. -/
def andThen {G : Type} (x : Exec (Stage G)) (next : Heap → Self G → Exec (Stage G)) : Exec (Stage G) := do
  let (c, h, s) ← x
  match c with
  | some c => .ok (some c, h, s)
  | none => next h s

/-- `src/ce_stt.cc` 101-106. -/
def readLarge {G : Type} (w : World G) (name : Str) (h : Heap) (s : Self G) : Exec (Stage G) :=
  match w.file name with
  | none => .ok (some .io, h, s)
  | some bs =>
    let (a, h) := h.new
    settle (largeRead bs) h { s with large := some (a, none) } (fun l => { s with large := some (a, some l) })

/-- `src/ce_stt.cc` 96-99. -/
def readOriginal {G : Type} (w : World G) (name : Str) (h : Heap) (s : Self G) : Exec (Stage G) :=
  match w.file name with
  | none => .ok (some .io, h, s)
  | some bs =>
    let (a, h) := h.new
    settle (originalRead bs) h { s with original := some (a, none) }
      (fun v => { s with original := some (a, some v) })

/-- `ReadDeltaLmFst`, `src/ce_stt.cc` 82-115. -/
def readDelta {G : Type} (w : World G) (conf : Config) (h : Heap) (s : Self G) : Exec (Stage G) := do
  let large ← conf.getPathOrElse kLarge []
  if large = [] then .ok (none, h, s)
  else do
    let original ← conf.getPathOrElse kOriginal []
    if original = [] then .ok (some .corruption, h, s)
    else andThen (andThen (readOriginal w original h s) (readLarge w large)) newDelta

/-- `new Fbank()`, `src/ce_stt.cc` 221. -/
def newFbank {G : Type} (h : Heap) (s : Self G) : Exec (Stage G) :=
  let (a, h) := h.new
  .ok (none, h, { s with fbank := some (a, ()) })

/-- `ce_stt_destroy`, `src/ce_stt.cc` 233-254; a null pointer is dereferenced.  The structure itself is not deleted. -/
def destroy {G : Type} (h : Heap) : Ptr (Self G) → Exec (Heap × Self G)
  | none => .error .ub
  | some (_, s) => do
    let h ← h.del s.fst.addr
    let h ← h.del s.large.addr
    let h ← h.del s.delta.addr
    let h ← h.del s.original.addr
    let h ← h.del s.am.addr
    let h ← h.del s.symbols.addr
    let h ← h.del s.fbank.addr
    .ok (h, Self.empty)

/-- `conf.Read(config_file)` for a new configuration, `src/configuration.cc` 14-54, with the opening of the file. -/
def readConf {G : Type} (w : World G) (name : Str) : Io Config := do
  let bs ← openFile w name
  Config.read ⟨[], []⟩ name bs

/-- The steps of `ce_stt_init` after the configuration is read, `src/ce_stt.cc` 203-221. -/
def loadAll {G : Type} (w : World G) (conf : Config) (h : Heap) : Exec (Stage G) :=
  andThen (andThen (andThen (andThen (readHclg w conf h .empty) (readAm w conf)) (readSyms w conf)) (readDelta w conf))
    newFbank

/-- `pasco_init_failed`, `src/ce_stt.cc` 226-229. -/
def initFailed {G : Type} (a : Nat) (c : Code) (h : Heap) (s : Self G) : Exec (Ptr (Self G) × Heap × Option Code) := do
  let (h, _) ← destroy h (some (a, s))
  .ok (none, h, some c)

/-- `ce_stt_init`, `src/ce_stt.cc` 193-231: the pointer returned, the heap, and the status whose text goes to
`error_message` if the pointer is null.  A C++ exception leaves the function. -/
def init {G : Type} (w : World G) (name : Str) (h : Heap) : Exec (Ptr (Self G) × Heap × Option Code) :=
  let (a, h) := h.new
  match readConf w name with
  | .error (.fault f) => .error f
  | .error (.status c) => initFailed a c h .empty
  | .ok conf => do
    let (c, h, s) ← loadAll w conf h
    match c with
    | some c => initFailed a c h s
    | none => .ok (some (a, s), h, none)

/-! ## Utterances -/

/-- The blocks of an utterance: the structure, `internal`, the `Decoder` behind `internal->decoder`, and `hyp`.
`src/ce_stt.h` 34-38 and `src/ce_stt.cc` 53-60. -/
structure UttMem where
  utt : Nat
  internal : Nat
  decoder : Nat
  hyp : Option Nat
deriving DecidableEq

/-- `ce_utt_destroy`, `src/ce_stt.cc` 285-293; deleting `internal` deletes what its `unique_ptr` owns. -/
def uttDestroy (h : Heap) (u : UttMem) : Exec Heap := do
  let h ← h.del u.hyp
  let h ← h.del (some u.decoder)
  let h ← h.del (some u.internal)
  h.del (some u.utt)

/-- The allocations of `ce_utt_init`, `src/ce_stt.cc` 256-283; `ok` is the answer of `SetFormat`. -/
def uttInit (h : Heap) (ok : Bool) : Exec (Option UttMem × Heap) :=
  let (utt, h) := h.new
  let (internal, h) := h.new
  let (decoder, h) := h.new
  let (hyp, h) := h.new
  let u : UttMem := ⟨utt, internal, decoder, some hyp⟩
  if ok then .ok (some u, h)
  else do
    let h ← uttDestroy h u
    .ok (none, h)

/-- `StoreHypText`, `src/ce_stt.cc` 178-179 and 185-186: the old text is deleted, a new one allocated. -/
def uttStore (h : Heap) (u : UttMem) : Exec (UttMem × Heap) := do
  let h ← h.del u.hyp
  let (a, h) := h.new
  .ok ({ u with hyp := some a }, h)

end Verif.App
