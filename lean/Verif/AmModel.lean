import Verif.NnetModel

/-!
# Model of `src/am.h` and `src/am.cc`: batching of frames

The configuration values are `int`s as read from the configuration file.  The size of the frame buffer is taken
to fit in an `int`.
-/

namespace Verif.Am

open Nnet (Ops Layer)

/-- `AcousticModel`, `src/am.h` 51-58, without the transition map. -/
structure Model (F : Type) where
  layers : List (Layer F)
  logPrior : List F
  left : Int
  right : Int
  chunk : Int

/-- `AcousticModel::Instance`, `src/am.h` 76-87. -/
structure Inst (F : Type) where
  started : Bool
  feats : List (List F)
deriving DecidableEq

/-- `Instance::Instance`, `src/am.cc` 11. -/
def Inst.new {F : Type} : Inst F := ⟨false, []⟩

/-- `AppendFrame`, `src/am.cc` 66-71. -/
def appendFrame {F : Type} (inst : Inst F) (frame : List F) : Inst F :=
  { inst with feats := inst.feats ++ [frame] }

/-- A loop `for (int i = 0; i < n; ++i) AppendFrame(inst, frame)`, `src/am.cc` 120-122 and 153-155. -/
def appendTimes {F : Type} (inst : Inst F) (frame : List F) : Nat → Inst F
  | 0 => inst
  | n + 1 => appendTimes (appendFrame inst frame) frame n

/-- `BatchAvailable`, `src/am.cc` 73-80. -/
def batchAvailable {F : Type} (am : Model F) (inst : Inst F) : Exec Bool := do
  let s ← i32 (am.left + am.right)
  let s ← i32 (s + am.chunk)
  .ok (decide ((inst.feats.length : Int) ≥ s))

/-- The conversion of an `int` to `size_t` in a comparison with a size.  `src/am.cc` 96, 158. -/
def toSize (x : Int) : Nat := (x % 18446744073709551616).toNat

/-- The loop that fills the batch, `src/am.cc` 100-102: `Row(i).CopyFromVec` asserts equal dimensions. -/
def fillBatch {F : Type} (feats : List (List F)) (dim : Nat) (n : Nat) : Exec (List (List F)) :=
  (List.range n).mapM fun i : Nat => do
    let f ← aget feats i
    cassert (decide (f.length = dim))
    .ok f

/-- The part of `ComputeBatch` after the batch size is settled, `src/am.cc` 89-112; `out` is the old content of
`log_prob`. -/
def runBatch {F : Type} (o : Ops F) (am : Model F) (inst : Inst F) (batchSize : Int) (out : List (List F)) :
    Exec (List (List F)) := do
  if batchSize = 0 then do
    Nnet.resize out 0 (Nnet.numCols out)
    .ok []
  else do
    let n ← i32 (batchSize + am.left)
    let n ← i32 (n + am.right)
    cassert (decide (inst.feats.length ≥ toSize n))
    let first ← aget inst.feats 0
    matInit n first.length
    let batch ← fillBatch inst.feats first.length n.toNat
    let logProb ← Nnet.propagate o am.layers batch out
    cassert (decide ((logProb.length : Int) = batchSize))
    logProb.mapM fun row => Nnet.subVec o row am.logPrior

/-- `ComputeBatch`, `src/am.cc` 82-113; `kBatchSizeAll` is `-1`.  The subtractions from the size are done in
`size_t` and stored in an `int`. -/
def computeBatch {F : Type} (o : Ops F) (am : Model F) (inst : Inst F) (batchSize : Int) (out : List (List F)) :
    Exec (List (List F)) :=
  if batchSize = -1 then do
    let all := wrap32 ((inst.feats.length : Int) - am.left - am.right)
    cassert (decide (all > 0))
    runBatch o am inst all out
  else runBatch o am inst batchSize out

/-- The left padding and the frame itself, `src/am.cc` 118-128. -/
def enter {F : Type} (am : Model F) (inst : Inst F) (frame : List F) : Inst F :=
  let inst := if inst.started then inst else { appendTimes inst frame am.left.toNat with started := true }
  appendFrame inst frame

/-- `chunk_size_` times `pop_front`, `src/am.cc` 139-141 (undefined on an empty deque). -/
def popFront {F : Type} : Nat → List (List F) → Exec (List (List F))
  | 0, fs => .ok fs
  | _ + 1, [] => .error .ub
  | n + 1, _ :: fs => popFront n fs

/-- `Process`, `src/am.cc` 115-142. -/
def process {F : Type} (o : Ops F) (am : Model F) (inst : Inst F) (frame : List F) (out : List (List F)) :
    Exec (List (List F) × Inst F) := do
  let inst := enter am inst frame
  let avail ← batchAvailable am inst
  if avail then do
    let rows ← computeBatch o am inst am.chunk out
    let feats ← popFront am.chunk.toNat inst.feats
    .ok (rows, { inst with feats := feats })
  else .ok ([], inst)

/-- `EndOfStream`, `src/am.cc` 144-164; `last_frame` is a reference to the last element of the deque, which stays
valid when elements are added at the end. -/
def endOfStream {F : Type} (o : Ops F) (am : Model F) (inst : Inst F) (out : List (List F)) :
    Exec (List (List F) × Inst F) :=
  match inst.feats.getLast? with
  | none => .ok ([], inst)
  | some last => do
    let inst := appendTimes inst last am.right.toNat
    let s ← i32 (am.left + am.right)
    if inst.feats.length ≤ toSize s then .ok ([], inst)
    else do
      let rows ← computeBatch o am inst (-1) out
      .ok (rows, inst)

/-- All frames of an utterance, one call of `process` each (`src/ce_stt.cc` 315-329).  Every call comes with the old
content of its output matrix, which may be anything: the matrix is reused within one call of `ce_stt_process`. -/
def feed {F : Type} (o : Ops F) (am : Model F) :
    Inst F → List (List (List F) × List F) → Exec (List (List F) × Inst F)
  | inst, [] => .ok ([], inst)
  | inst, (out, f) :: fs => do
    let (xs, inst) ← process o am inst f out
    let (ys, inst) ← feed o am inst fs
    .ok (xs ++ ys, inst)

/-- An utterance: its frames and the end of the stream (`src/ce_stt.cc` 352-358, with an empty output matrix). -/
def utterance {F : Type} (o : Ops F) (am : Model F) (frames : List (List (List F) × List F)) :
    Exec (List (List F) × Inst F) := do
  let (xs, inst) ← feed o am Inst.new frames
  let (ys, inst) ← endOfStream o am inst []
  .ok (xs ++ ys, inst)

end Verif.Am
