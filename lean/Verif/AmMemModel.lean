import Verif.NetMemModel
import Verif.AmModel

/-!
# Model of `src/am.cc` at the level of memory

In `AmModel` a frame is the list of its numbers.  Here the buffer of frames is a queue of vectors with blocks of their
own, and batches and scores are matrices in memory.
-/

namespace Verif.AmMem

open Mat (Heap Addr View loop)
open VecMem (Vec copyVec addVec)
open Nnet (Ops)
open NetMem (LayerM rowOf forRows readRows resizeTo)
open Am (toSize)

variable {F : Type}

/-- `AcousticModel`, `src/am.h` 53-57, with its matrices and vectors as pointers and dimensions. -/
structure ModelM where
  layers : List LayerM
  logPrior : Vec
  left : Int
  right : Int
  chunk : Int

/-- `AcousticModel::Instance`, `src/am.h` 76-86. -/
structure InstM where
  started : Bool
  feats : List Vec
deriving DecidableEq

/-- `Instance::Instance`, `src/am.cc` 11. -/
def InstM.new : InstM := ⟨false, []⟩

/-- `AppendFrame`, `src/am.cc` 66-71.  The block of `frame` goes to the new element of the queue (the move constructor,
`src/vector.cc` 11-18), so that there is nothing to free at the end. -/
def appendFrame (o : Ops F) (inst : InstM) (frame : Vec) (h : Heap F) : Exec (InstM × Heap F) := do
  let r ← VecMem.resizePlain o.zero 4 .empty frame.dim true h
  let h ← copyVec r.1 frame r.2
  .ok ({ inst with feats := inst.feats ++ [r.1] }, h)

/-- A loop `for (int i = 0; i < n; ++i) AppendFrame(inst, frame)`, `src/am.cc` 120-122 and 153-155. -/
def appendTimes (o : Ops F) (frame : Vec) : Nat → InstM → Heap F → Exec (InstM × Heap F)
  | 0, inst, h => .ok (inst, h)
  | n + 1, inst, h => do
    let r ← appendFrame o inst frame h
    appendTimes o frame n r.1 r.2

/-- `BatchAvailable`, `src/am.cc` 73-80. -/
def batchAvailable (am : ModelM) (inst : InstM) : Exec Bool := do
  let s ← i32 (am.left + am.right)
  let s ← i32 (s + am.chunk)
  .ok (decide ((inst.feats.length : Int) ≥ s))

/-- The loop that fills the batch, `src/am.cc` 100-102. -/
def fillBatch (b : View) (feats : List Vec) (n : Int) (h : Heap F) : Exec (Heap F) :=
  loop n (fun i h => do
    let r ← rowOf b i
    let f ← aget feats i
    copyVec r f h) h

/-- The part of `ComputeBatch` after the batch size is settled, `src/am.cc` 89-113; at the end the destructor of
`batch_input`, `src/matrix.h` 170.  The new `*log_prob` is returned. -/
def runBatch (o : Ops F) (am : ModelM) (inst : InstM) (batchSize : Int) (out : View) (h : Heap F) :
    Exec (View × Heap F) := do
  if batchSize = 0 then resizeTo o out 0 out.cols h
  else do
    let n ← i32 (batchSize + am.left)
    let n ← i32 (n + am.right)
    cassert (decide (inst.feats.length ≥ toSize n))
    let first ← aget inst.feats 0
    let t ← resizeTo o .empty n first.dim h
    let h ← fillBatch t.1 inst.feats n t.2
    let u ← NetMem.propagate o am.layers t.1 out h
    cassert (decide (u.1.rows = batchSize))
    let h ← forRows u.1 (fun _ r h => addVec (fun a b => o.add a (o.mul o.negOne b)) r am.logPrior h) u.2
    let h ← Mat.destroy t.1 h
    .ok (u.1, h)

/-- `ComputeBatch`, `src/am.cc` 82-113; `kBatchSizeAll` is `-1`. -/
def computeBatch (o : Ops F) (am : ModelM) (inst : InstM) (batchSize : Int) (out : View) (h : Heap F) :
    Exec (View × Heap F) :=
  if batchSize = -1 then do
    let all := wrap32 ((inst.feats.length : Int) - am.left - am.right)
    cassert (decide (all > 0))
    runBatch o am inst all out h
  else runBatch o am inst batchSize out h

/-- The left padding and the frame itself, `src/am.cc` 118-127. -/
def enter (o : Ops F) (am : ModelM) (inst : InstM) (frame : Vec) (h : Heap F) : Exec (InstM × Heap F) :=
  if inst.started then appendFrame o inst frame h
  else do
    let r ← appendTimes o frame am.left.toNat inst h
    appendFrame o { r.1 with started := true } frame r.2

/-- `n` times `pop_front`, `src/am.cc` 139-141, each with the destructor of the vector, `src/vector.h` 214 (undefined on
an empty deque).  Also the destructor of the deque, `src/am.h` 82, with all its elements. -/
def popFront : Nat → List Vec → Heap F → Exec (List Vec × Heap F)
  | 0, fs, h => .ok (fs, h)
  | _ + 1, [], _ => .error .ub
  | n + 1, f :: fs, h => do
    let h ← VecMem.destroy f h
    popFront n fs h

/-- `Process`, `src/am.cc` 115-142.  The new `*log_prob` is returned. -/
def process (o : Ops F) (am : ModelM) (inst : InstM) (frame : Vec) (out : View) (h : Heap F) :
    Exec (View × InstM × Heap F) := do
  let r ← enter o am inst frame h
  let avail ← batchAvailable am r.1
  if avail then do
    let u ← computeBatch o am r.1 am.chunk out r.2
    let p ← popFront am.chunk.toNat r.1.feats u.2
    .ok (u.1, { r.1 with feats := p.1 }, p.2)
  else do
    let u ← resizeTo o out 0 0 r.2
    .ok (u.1, r.1, u.2)

/-- `EndOfStream`, `src/am.cc` 144-164; `last_frame` is a reference to the last element of the deque, which stays valid
when elements are added at the end.  The new `*log_prob` is returned. -/
def endOfStream (o : Ops F) (am : ModelM) (inst : InstM) (out : View) (h : Heap F) : Exec (View × InstM × Heap F) :=
  match inst.feats.getLast? with
  | none => do
    let u ← resizeTo o out 0 0 h
    .ok (u.1, inst, u.2)
  | some last => do
    let r ← appendTimes o last am.right.toNat inst h
    let s ← i32 (am.left + am.right)
    if r.1.feats.length ≤ toSize s then do
      let u ← resizeTo o out 0 0 r.2
      .ok (u.1, r.1, u.2)
    else do
      let u ← computeBatch o am r.1 (-1) out r.2
      .ok (u.1, r.1, u.2)

/-- The rows of `log_prob`, as the decoder gets them, `src/ce_stt.cc` 320-323 and 354-358. -/
def readMat (v : View) (h : Heap F) : Exec (List (List F)) :=
  match v.data with
  | none => if v.rows = 0 then .ok [] else .error .ub
  | some a => readRows a v.rows v.cols v.stride h

/-- The loop over the frames in `ce_stt_process`, `src/ce_stt.cc` 317-331: the rows of all frames. -/
def frames (o : Ops F) (am : ModelM) : InstM → View → List Vec → Heap F → Exec (List (List F) × InstM × View × Heap F)
  | inst, out, [], h => .ok ([], inst, out, h)
  | inst, out, f :: fs, h => do
    let r ← process o am inst f out h
    let xs ← readMat r.1 r.2.2
    let q ← frames o am r.2.1 r.1 fs r.2.2
    .ok (xs ++ q.1, q.2)

/-- The matrix `feats` as `Fbank::Process` leaves it, `src/fbank.cc` 283-303, for the frames `fs` of `d` numbers: a new
block with the frames as rows, or no block without frames.  How the numbers come about is `FbankModel`; here they are
written one after the other. -/
def bring (o : Ops F) (d : Int) (fs : List (List F)) (h : Heap F) : Exec (View × Heap F) :=
  if fs = [] then .ok (.empty, h)
  else do
    let t ← resizeTo o .empty fs.length d h
    match t.1.data with
    | none => .error .ub
    | some a => do
      let h ← NetMem.writeRows a fs.length d t.1.stride fs t.2
      .ok (t.1, h)

/-- `feats.Row(frame_idx)` for all frames, `src/ce_stt.cc` 317-318.  In the code each is made when it is used; they are
pointers into `feats`, which stays where it is. -/
def rowsOf (v : View) : Exec (List Vec) := (List.range v.rows.toNat).mapM fun i : Nat => rowOf v i

/-- `ce_stt_process` from the features on, `src/ce_stt.cc` 295-340: `feats` and `log_prob` belong to the call, and their
destructors run at the end. -/
def piece (o : Ops F) (am : ModelM) (d : Int) (inst : InstM) (fs : List (List F)) (h : Heap F) :
    Exec (List (List F) × InstM × Heap F) := do
  let f ← bring o d fs h
  let vs ← rowsOf f.1
  let q ← frames o am inst .empty vs f.2
  let h ← Mat.destroy q.2.2.1 q.2.2.2
  let h ← Mat.destroy f.1 h
  .ok (q.1, q.2.1, h)

/-- The calls of `ce_stt_process` for one utterance, `src/ce_stt.cc` 295-340. -/
def pieces (o : Ops F) (am : ModelM) (d : Int) :
    InstM → List (List (List F)) → Heap F → Exec (List (List F) × InstM × Heap F)
  | inst, [], h => .ok ([], inst, h)
  | inst, p :: ps, h => do
    let r ← piece o am d inst p h
    let q ← pieces o am d r.2.1 ps r.2.2
    .ok (r.1 ++ q.1, q.2)

/-- An utterance: pieces of audio, the end of the stream (`src/ce_stt.cc` 351-359, with a matrix of its own), and the
end of the instance (`src/am.h` 76-86). -/
def utterance (o : Ops F) (am : ModelM) (d : Int) (ps : List (List (List F))) (h : Heap F) :
    Exec (List (List F) × Heap F) := do
  let q ← pieces o am d .new ps h
  let r ← endOfStream o am q.2.1 .empty q.2.2
  let xs ← readMat r.1 r.2.2
  let h ← Mat.destroy r.1 r.2.2
  let u ← popFront r.2.1.feats.length r.2.1.feats h
  .ok (q.1 ++ xs, u.2)

end Verif.AmMem
