import Verif.FbankModel
import Verif.AmMemModel
import Verif.NetMemModel

/-!
# Model of `Fbank::Process` at the level of memory (`src/fbank.cc`, `src/vector.cc`)

In `FbankModel` a vector is the list of its elements.  Here the wave buffer, the window, the scratch buffer, the feature
of a frame and the matrix of features are blocks of memory; some are allocated without being written, some are used again
for every frame, and all that belongs to a call is freed at its end.
-/

namespace Verif.FbankMem

open Mat (Heap Addr View loop peek)
open VecMem (Vec elem setElem get put subVec copyVec resizePlain resizeCopy destroy)
open NetMem (sumLoop rowOf)
open Fbank (Ops fbankDim frameShift frameLength paddedLength calcNumFrames)

variable {F : Type}

/-- The tables of `Fbank` and `Melbanks`, `src/fbank.h` 26-27 and 63-65: `window_function_`, and `fftbin_offset_[i]` with
`bins_[i]`. -/
structure TabM where
  window : Vec
  bins : List (Int × Vec)

/-- `Fbank::ProcessWindow`, `src/fbank.cc` 47-55: the mean is subtracted. -/
def centreM (o : Ops F) (r : Vec) (h : Heap F) : Exec (Heap F) := do
  let sum ← sumLoop r.dim (fun i s => do
    let v ← get r i h
    .ok (o.add s v)) o.zero
  let mean := o.div sum (o.ofInt r.dim)
  loop r.dim (fun i h => do
    let v ← get r i h
    put r i (o.sub v mean) h) h

/-- The pre-emphasis loop, `src/fbank.cc` 58-61, in place: `i` counts down; the last step is the one for element 0. -/
def preemphM (o : Ops F) (r : Vec) : Nat → Heap F → Exec (Heap F)
  | 0, h => do
    let a ← get r 0 h
    put r 0 (o.preemph a a) h
  | i + 1, h => do
    let a ← get r ((i + 1 : Nat) : Int) h
    let b ← get r ((i : Nat) : Int) h
    let h ← put r ((i + 1 : Nat) : Int) (o.preemph a b) h
    preemphM o r i h

/-- `Fbank::ProcessWindow`, `src/fbank.cc` 44-69. -/
def processWindowM (o : Ops F) (t : TabM) (r : Vec) (h : Heap F) : Exec (Heap F) := do
  let h ← centreM o r h
  let h ← preemphM o r (r.dim - 1).toNat h
  cassert (decide (t.window.dim = r.dim))
  loop t.window.dim (fun i h => do
    let x ← get r i h
    let y ← get t.window i h
    put r i (o.mul x y) h) h

/-- `Fbank::ExtractWindow`, `src/fbank.cc` 74-100. -/
def extractWindowM (o : Ops F) (t : TabM) (wave : Vec) (i : Int) (window : Vec) (h : Heap F) : Exec (Heap F) := do
  let start ← i32 (i * frameShift)
  let stop ← i32 (start + frameLength)
  cassert (decide (0 ≤ start ∧ stop ≤ wave.dim))
  cassert (decide ((frameLength : Int) ≤ window.dim))
  let r ← subVec window 0 frameLength h
  let s ← subVec wave start frameLength h
  let h ← copyVec r s h
  let h ← loop (window.dim - frameLength) (fun k h => put window (frameLength + k) o.zero h) h
  processWindowM o t r h

/-- All elements of a vector are read; reading one that was never written is undefined.  Called for
`src/fbank.cc` 227-233. -/
def readVec (v : Vec) (h : Heap F) : Exec (List F) := (List.range v.dim.toNat).mapM fun i : Nat => elem v i h

/-- All elements of a vector are written.  Called for `src/fbank.cc` 227-233. -/
def writeVec (v : Vec) (xs : List F) (h : Heap F) : Exec (Heap F) :=
  loop v.dim (fun i h => do
    let x ← aget xs i
    setElem v i x h) h

/-- What is in the scratch buffer when the transform is called, `src/fbank.cc` 227-233.  It is allocated but may never
have been written, then it contains anything: `wild`. -/
def scratch (wild : Nat → F) (v : Vec) (h : Heap F) : Exec (List F) :=
  (List.range v.dim.toNat).mapM fun i : Nat =>
    match v.data with
    | none => .error .ub
    | some a =>
      match peek h ⟨a.block, a.off + i⟩ with
      | some (some x) => .ok x
      | some none => .ok (wild i)
      | none => .error .ub

/-- `srfft_.Compute(window->Data(), window->Dim(), true, buffer->Data(), buffer->Dim())`, `src/fbank.cc` 227-233.  The
transform itself is that of `FbankModel`, on the contents of the two arrays; it is modelled in `SrfftModel`. -/
def fftM (o : Ops F) (wild : Nat → F) (window buffer : Vec) (h : Heap F) : Exec (Heap F) := do
  let w ← readVec window h
  let b ← scratch wild buffer h
  let r ← o.fft w b
  let h ← writeVec window r.1 h
  writeVec buffer r.2 h

/-- The loop of `Fbank::ComputePowerSpectrum`, `src/fbank.cc` 204-208, for `n` more values of `i`. -/
def powerLoopM (o : Ops F) (w : Vec) : Nat → Nat → Heap F → Exec (Heap F)
  | 0, _, h => .ok h
  | n + 1, i, h => do
    let re ← get w ((i * 2 : Nat) : Int) h
    let im ← get w ((i * 2 + 1 : Nat) : Int) h
    let h ← put w (i : Int) (o.add (o.mul re re) (o.mul im im)) h
    powerLoopM o w n (i + 1) h

/-- `Fbank::ComputePowerSpectrum`, `src/fbank.cc` 193-211. -/
def powerSpectrumM (o : Ops F) (w : Vec) (h : Heap F) : Exec (Heap F) := do
  cassert (decide (0 < w.dim))
  let half := w.dim.tdiv 2
  let a ← get w 0 h
  let b ← get w 1 h
  let h ← powerLoopM o w (half - 1).toNat 1 h
  let h ← put w 0 (o.mul a a) h
  put w half (o.mul b b) h

/-- `VectorBase::VecVec`, `src/vector.cc` 82-92. -/
def vecVecM (o : Ops F) (l r : Vec) (h : Heap F) : Exec F := do
  cassert (decide (r.dim = l.dim))
  sumLoop r.dim (fun i s => do
    let x ← elem l i h
    let y ← elem r i h
    .ok (o.add s (o.mul x y))) o.zero

/-- `Melbanks::Compute`, `src/fbank.cc` 165-184 (the warning about NaN is in `LoudModel`). -/
def melM (o : Ops F) (t : TabM) (w feat : Vec) (h : Heap F) : Exec (Heap F) := do
  cassert (decide (feat.dim = fbankDim))
  loop fbankDim (fun i h => do
    let b ← aget t.bins i
    let s ← subVec w b.1 b.2.dim h
    let e ← vecVecM o b.2 s h
    put feat i e h) h

/-- `ApplyFloor`, `src/vector.cc` 166-176; how many elements it has changed is not used. -/
def floorM (o : Ops F) (v : Vec) (h : Heap F) : Exec (Heap F) :=
  loop v.dim (fun i h => do
    let x ← elem v i h
    if o.lt x o.eps then setElem v i o.eps h else .ok h) h

/-- `ApplyLog`, `src/vector.cc` 178-184. -/
def logM (o : Ops F) (v : Vec) (h : Heap F) : Exec (Heap F) :=
  loop v.dim (fun i h => do
    let x ← elem v i h
    cassert (o.nonneg x)
    setElem v i (o.log x) h) h

/-- `Fbank::ComputeFrame`, `src/fbank.cc` 219-245, with `frame_length_padded_`, which is 512. -/
def computeFrameM (o : Ops F) (t : TabM) (wild : Nat → F) (window feat buffer : Vec) (h : Heap F) : Exec (Heap F) := do
  cassert (decide ((paddedLength : Int) ≤ buffer.dim))
  cassert (decide (feat.dim = fbankDim))
  let h ← fftM o wild window buffer h
  let h ← powerSpectrumM o window h
  let _ ← subVec window 0 (window.dim.tdiv 2 + 1) h
  let h ← melM o t window feat h
  let h ← floorM o feat h
  logM o feat h

/-- The body of the loop of `Fbank::Process`, `src/fbank.cc` 297-303. -/
def frameM (o : Ops F) (t : TabM) (wild : Nat → F) (wave window buffer feat : Vec) (out : View) (i : Int) (h : Heap F) :
    Exec (Heap F) := do
  let h ← extractWindowM o t wave i window h
  let h ← computeFrameM o t wild window feat buffer h
  let r ← rowOf out i
  copyVec r feat h

/-- `Fbank::Process`, `src/fbank.cc` 292-303: the three vectors without contents and the loop; their destructors run at
the end of the function, those of vectors that were made later first. -/
def framesM (o : Ops F) (t : TabM) (wild : Nat → F) (wave : Vec) (out : View) (n : Int) (h : Heap F) :
    Exec ((Vec × Vec × Vec) × Heap F) := do
  let w ← resizePlain o.zero 4 .empty paddedLength false h
  let b ← resizePlain o.zero 4 .empty paddedLength false w.2
  let f ← resizePlain o.zero 4 .empty fbankDim false b.2
  let h ← loop n (frameM o t wild wave w.1 b.1 f.1 out) f.2
  .ok ((w.1, b.1, f.1), h)

/-- `Fbank::Process`, `src/fbank.cc` 305-313: the samples that are not needed any more are removed from the buffer. -/
def shrinkM (o : Ops F) (buf : Vec) (n : Int) (h : Heap F) : Exec ((Vec × Vec) × Heap F) := do
  let remove ← i32 (frameShift * n)
  let size ← i32 (buf.dim - remove)
  let next ← resizePlain o.zero 4 .empty size true h
  let s ← subVec buf remove size next.2
  let h ← copyVec next.1 s next.2
  let r ← resizePlain o.zero 4 buf size true h
  let h ← copyVec r.1 next.1 r.2
  .ok ((r.1, next.1), h)

/-- `Fbank::Process`, `src/fbank.cc` 275-280: the samples are appended to the buffer. -/
def appendM (o : Ops F) (buf wave : Vec) (h : Heap F) : Exec (Vec × Heap F) := do
  let total ← i32 (buf.dim + wave.dim)
  let b ← resizeCopy o.zero 4 buf total h
  let rest ← i32 (b.1.dim - buf.dim)
  let s ← subVec b.1 buf.dim rest b.2
  let h ← copyVec s wave b.2
  .ok (b.1, h)

/-- `Fbank::Process`, `src/fbank.cc` 265-314: `buf` is `inst->wave_buffer`, `feats` is `*fbank_feature`.  Returns the two
as they are left. -/
def processM (o : Ops F) (t : TabM) (wild : Nat → F) (buf wave : Vec) (feats : View) (h : Heap F) :
    Exec (Vec × View × Heap F) := do
  if wave.dim = 0 then do
    let r ← Mat.resizePlain o.zero 4 feats 0 fbankDim true false h
    .ok (buf, r.1, r.2)
  else do
    let b ← appendM o buf wave h
    let n := calcNumFrames b.1.dim
    if n = 0 then do
      let r ← Mat.resizePlain o.zero 4 feats 0 0 true false b.2
      .ok (b.1, r.1, r.2)
    else do
      let m ← Mat.resizePlain o.zero 4 feats n fbankDim true false b.2
      let f ← framesM o t wild b.1 m.1 n m.2
      let r ← shrinkM o b.1 n f.2
      let h ← destroy r.1.2 r.2
      let h ← destroy f.1.2.2 h
      let h ← destroy f.1.2.1 h
      let h ← destroy f.1.1 h
      .ok (r.1.1, m.1, h)

/-- The vector `samples` as `WaveReader::Process` leaves it, `src/pcm_reader.cc` 163-181, for the numbers `y`.  How they
come about is `PcmModel`; here they are written one after the other. -/
def samplesM (o : Ops F) (y : List F) (h : Heap F) : Exec (Vec × Heap F) := do
  let r ← resizePlain o.zero 4 .empty y.length true h
  let h ← writeVec r.1 y r.2
  .ok (r.1, h)

/-- The part of `ce_stt_process` that makes features, `src/ce_stt.cc` 296-314, with the destructors of `feats` and
`samples`, which belong to the call.  The rows of `feats` are returned; in the code they go on to the acoustic model. -/
def featuresM (o : Ops F) (t : TabM) (wild : Nat → F) (buf : Vec) (y : List F) (h : Heap F) :
    Exec (List (List F) × Vec × Heap F) := do
  let s ← samplesM o y h
  if s.1.dim = 0 then do
    let h ← destroy s.1 s.2
    .ok ([], buf, h)
  else do
    let r ← processM o t wild buf s.1 .empty s.2
    let xs ← AmMem.readMat r.2.1 r.2.2
    let h ← Mat.destroy r.2.1 r.2.2
    let h ← destroy s.1 h
    .ok (xs, r.1, h)

/-- The calls of `ce_stt_process` for the pieces of an utterance, `src/ce_stt.cc` 295-314. -/
def feedM (o : Ops F) (t : TabM) : Vec → List ((Nat → F) × List F) → Heap F → Exec (List (List F) × Vec × Heap F)
  | buf, [], h => .ok ([], buf, h)
  | buf, (wild, y) :: cs, h => do
    let r ← featuresM o t wild buf y h
    let q ← feedM o t r.2.1 cs r.2.2
    .ok (r.1 ++ q.1, q.2)

/-- An utterance: a new instance (`src/fbank.h` 117-123), the pieces, and the destructor of the instance, which is that
of `wave_buffer`. -/
def utteranceM (o : Ops F) (t : TabM) (cs : List ((Nat → F) × List F)) (h : Heap F) : Exec (List (List F) × Heap F) := do
  let r ← feedM o t .empty cs h
  let h ← destroy r.2.1 r.2.2
  .ok (r.1, h)

end Verif.FbankMem
