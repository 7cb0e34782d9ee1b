import Verif.NnetModel

/-!
# Model of the readers of vectors, matrices and networks, and of their writers

`Vector::Read` (`src/vector.cc`), `Matrix::Read` (`src/matrix.cc`), `Layer::Read` and `Nnet::Read` (`src/nnet.cc`), and
the writers in `tool/convert_am.py`.

A `float` is the word of its 32 bits.  Memory that was allocated but not written is indeterminate: the byte `none`.
The readers of vectors need more than the other readers: `Matrix::Read` ignores the status of the rows it reads, so
that it matters what a failed read leaves in the file and in the vector.
-/

namespace Verif.Ser

/-- `fread(ptr, n, 1, fd)` as used by `ReadableFile::Read`, `src/util.cc` 120-126: the bytes if all `n` could be read,
and the rest of the file.  A short read consumes the file; a read of size 0 does nothing and counts as failed. -/
def fread (n : Nat) (bs : List UInt8) : Option (List UInt8) × List UInt8 :=
  if n = 0 then (none, bs) else if bs.length < n then (none, []) else (some (bs.take n), bs.drop n)

/-- `"VEC0"`, `src/vector.cc` 269. -/
def tagVec : List UInt8 := [86, 69, 67, 48]

/-- `"MAT0"`, `src/matrix.cc` 161. -/
def tagMat : List UInt8 := [77, 65, 84, 48]

/-- `"NN02"`, `src/nnet.h` 11. -/
def tagNnet : List UInt8 := [78, 78, 48, 50]

/-- `"LAY0"`, `src/nnet.h` 12. -/
def tagLayer : List UInt8 := [76, 65, 89, 48]

/-- How a vector looks after `Vector::Read`: the status (`none` is OK), the bytes of the elements, the rest of the
file.  `src/vector.cc` 267-300. -/
structure VecResult where
  status : Option Code
  mem : List (Option UInt8)
  rest : List UInt8
deriving DecidableEq

/-- The memory of a vector of 4-byte elements after `Resize(dim, kUndefined)`, `src/vector.cc` 131-164: kept if the
size is the same, newly allocated (indeterminate) otherwise. -/
def resizeMem (old : List (Option UInt8)) (dim : Int) : Exec (List (Option UInt8)) :=
  if old ≠ [] ∧ (old.length : Int) = 4 * dim then .ok old
  else do
    vecInit 4 dim
    .ok (List.replicate (4 * dim.toNat) none)

/-- The end of `Vector::Read`, `src/vector.cc` 285-299, once size and dimension are read.  The comparison
`dim * sizeof(Real) + 4 != section_size` is done modulo 2^64 with both sides sign-extended from 32 bits, where it
agrees with the comparison of integers.  A short read leaves what there was in the first part of the memory. -/
def readElements (old : List (Option UInt8)) (size dim : Int) (bs : List UInt8) : Exec VecResult :=
  if dim * 4 + 4 ≠ size then .ok ⟨some .corruption, old, bs⟩
  else do
    let mem ← resizeMem old dim
    match fread (4 * dim.toNat) bs with
    | (some v, r) => .ok ⟨none, v.map some, r⟩
    | (none, r) =>
      if dim = 0 then .ok ⟨some .io, mem, r⟩
      else .ok ⟨some .io, bs.map some ++ mem.drop bs.length, r⟩

/-- `Vector::Read` behind the tag, `src/vector.cc` 276-299. -/
def readSized (old : List (Option UInt8)) (bs : List UInt8) : Exec VecResult :=
  match fread 4 bs with
  | (none, r) => .ok ⟨some .io, old, r⟩
  | (some size, r) =>
    match fread 4 r with
    | (none, r) => .ok ⟨some .io, old, r⟩
    | (some dim, r) => readElements old (decI32 size) (decI32 dim) r

/-- `Vector<Real>::Read`, `src/vector.cc` 267-300, for elements of four bytes; `old` is the memory of the vector
before. -/
def vectorRead (old : List (Option UInt8)) (bs : List UInt8) : Exec VecResult :=
  match fread 4 bs with
  | (none, r) => .ok ⟨some .io, old, r⟩
  | (some v, r) =>
    if cstr v ≠ tagVec then .ok ⟨some .corruption, old, r⟩
    else readSized old r

/-- The elements in the memory of a vector: a word, or `none` if some of its bytes are indeterminate.
`src/vector.cc` 267-300. -/
def elements : List (Option UInt8) → List (Option Nat)
  | some a :: some b :: some c :: some d :: m => some (decU32 [a, b, c, d]) :: elements m
  | _ :: _ :: _ :: _ :: m => none :: elements m
  | _ => []

/-- `PK_CHECK_STATUS(v.Read(fd))` for a vector `v` that is still empty.  Such as `src/nnet.cc` 120-121. -/
def readVec : Rd (List (Option Nat)) := fun bs =>
  match vectorRead [] bs with
  | .error f => .error (.fault f)
  | .ok r =>
    match r.status with
    | some c => bad c
    | none => .ok (elements r.mem, r.rest)

/-- The loop of `Matrix::Read`, `src/matrix.cc` 175-188, for `n` more rows; `mem` is the memory of `row_read`.  The
status of the read is dropped; only the dimension is compared. -/
def readRows (cols : Nat) : Nat → List (Option UInt8) → List UInt8 → Io (List (List (Option Nat)) × List UInt8)
  | 0, _, bs => .ok ([], bs)
  | n + 1, mem, bs =>
    match vectorRead mem bs with
    | .error f => .error (.fault f)
    | .ok r =>
      if r.mem.length ≠ 4 * cols then bad .corruption
      else
        match readRows cols n r.mem r.rest with
        | .error e => .error e
        | .ok (rows, rest) => .ok (elements r.mem :: rows, rest)

/-- The end of `Matrix::Read`, `src/matrix.cc` 172-190: the allocation and the rows. -/
def readMatBody (rows cols : Int) : Rd (List (List (Option Nat))) := fun bs =>
  match matInit rows cols with
  | .error f => .error (.fault f)
  | .ok () => readRows cols.toNat rows.toNat [] bs

/-- `Matrix<Real>::Read`, `src/matrix.cc` 159-191, for elements of four bytes and a matrix that is still empty. -/
def readMat : Rd (List (List (Option Nat))) := do
  readTag tagMat
  let _ ← readI32
  let rows ← readI32
  let cols ← readI32
  readMatBody rows cols

/-- A network parameter: the bits of a `float`, or indeterminate.  Read by `src/vector.cc` 267-300. -/
abbrev Word := Option Nat

open Nnet (Layer)

/-- The loop of `SpliceLayer::Read`, `src/nnet.cc` 88-92. -/
def readIndices : Nat → Rd (List Int)
  | 0 => pure []
  | n + 1 => do
    let i ← readI32
    let is ← readIndices n
    pure (i :: is)

/-- `LinearLayer::Read`, `src/nnet.cc` 38-43. -/
def readLinear : Rd (Layer Word) := do
  let W ← readMat
  let b ← readVec
  pure (.linear W b)

/-- `SpliceLayer::Read`, `src/nnet.cc` 77-95. -/
def readSplice : Rd (Layer Word) := do
  let n ← readI32
  if n < 0 then Rd.fail .corruption
  else do
    let is ← readIndices n.toNat
    pure (.splice is)

/-- `BatchNormLayer::Read`, `src/nnet.cc` 119-124. -/
def readBatchNorm : Rd (Layer Word) := do
  let s ← readVec
  let t ← readVec
  pure (.batchNorm s t)

/-- `NarrowLayer::Read`, `src/nnet.cc` 204-215. -/
def readNarrow : Rd (Layer Word) := do
  let l ← readI32
  let r ← readI32
  pure (.narrow l r)

/-- The content of a layer by its type: the `switch` of `Nnet::ReadLayer`, `src/nnet.cc` 234-265, and the call of
`Read` (267).  The numbers are those of the `enum` in `src/nnet.h` 21-30. -/
def readBody (type : Int) : Rd (Layer Word) :=
  if type = 0 then readLinear
  else if type = 1 then pure .relu
  else if type = 2 then pure .normalize
  else if type = 3 then pure .softmax
  else if type = 6 then readSplice
  else if type = 7 then readBatchNorm
  else if type = 8 then pure .logSoftmax
  else if type = 9 then readNarrow
  else Rd.fail .corruption

/-- `Nnet::ReadLayer`, `src/nnet.cc` 221-271. -/
def readLayer : Rd (Layer Word) := do
  readTag tagLayer
  let type ← readI32
  readBody type

/-- The loop of `Nnet::Read`, `src/nnet.cc` 288-290. -/
def readLayers : Nat → Rd (List (Layer Word))
  | 0 => pure []
  | n + 1 => do
    let l ← readLayer
    let ls ← readLayers n
    pure (l :: ls)

/-- A network as read from its file: contexts and layers.  `src/nnet.h` 239-245. -/
structure Net where
  left : Int
  right : Int
  layers : List (Layer Word)
deriving DecidableEq

/-- `Nnet::Read`, `src/nnet.cc` 273-293, into a new network (a negative number of layers makes an empty loop). -/
def readNnet : Rd Net := do
  readTag tagNnet
  let left ← readI32
  let right ← readI32
  let n ← readI32
  let layers ← readLayers n.toNat
  pure ⟨left, right, layers⟩

/-! ## The writers -/

/-- `Layer.write_vector`, `tool/convert_am.py` 26-31; the elements are given by the bits of the `float`s that
`struct.pack("<f", v)` makes of them. -/
def writeVec (v : List Nat) : List UInt8 :=
  [86, 69, 67, 48] ++ (encI32 (v.length * 4 + 4) ++ (encI32 v.length ++ v.flatMap encU32))

/-- `Layer.write_matrix`, `tool/convert_am.py` 33-39; `cols` is `len(mat[0])`. -/
def writeMat (m : List (List Nat)) : List UInt8 :=
  [77, 65, 84, 48] ++ (encI32 8 ++ (encI32 m.length ++ (encI32 (Nnet.numCols m) ++ m.flatMap writeVec)))

/-- `b"LAY0"`, `tool/convert_am.py` 42. -/
def lay0 : List UInt8 := [76, 65, 89, 48]

/-- The `write` methods of the layers, `tool/convert_am.py` 41-43 (all), 63-66 (linear), 93-97 (splice), 109-112
(batch norm), 126-129 (narrow).  The converter has no normalise and no softmax layer; for these two the layout the
reader expects is written. -/
def writeLayer : Layer Nat → List UInt8
  | .linear W b => lay0 ++ (encI32 0 ++ (writeMat W ++ writeVec b))
  | .relu => lay0 ++ encI32 1
  | .normalize => lay0 ++ encI32 2
  | .softmax => lay0 ++ encI32 3
  | .splice idx => lay0 ++ (encI32 6 ++ (encI32 idx.length ++ idx.flatMap encI32))
  | .batchNorm s t => lay0 ++ (encI32 7 ++ (writeVec s ++ writeVec t))
  | .logSoftmax => lay0 ++ encI32 8
  | .narrow l r => lay0 ++ (encI32 9 ++ (encI32 l ++ encI32 r))

/-- `AM.write`, `tool/convert_am.py` 156-168, the `.nnet` file. -/
def writeNnet (left right : Int) (ls : List (Layer Nat)) : List UInt8 :=
  [78, 78, 48, 50] ++ (encI32 left ++ (encI32 right ++ (encI32 ls.length ++ ls.flatMap writeLayer)))

end Verif.Ser
