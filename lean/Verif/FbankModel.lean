import Verif.Section

/-!
# Model of `src/fbank.h` and `src/fbank.cc`

Arithmetic on `float` is a parameter: a carrier `F` and uninterpreted operations `Ops F`, about which nothing is
assumed.  A `Vector<float>` is the list of its elements, a `Matrix<float>` the list of its rows.
-/

namespace Verif.Fbank

/-- The operations on `float` used by the feature extraction, and the tables the constructor computes.

* `add`, `sub`, `mul`, `div`: the `float` operators;
* `ofInt`: conversion of an `int`;
* `preemph x y`: the value of `x` after `x -= PK_PREEMPH_COEFF * y` (computed in `double`, then rounded);
* `lt`: `<`; `nonneg x`: `x >= 0.0`; `eps`: `FLT_EPSILON`; `log`: `log`;
* `window`: `window_function_`, the 400 values computed by `HammingWindowInit`, `src/fbank.cc` 248-255;
* `bins`: `fftbin_offset_[i]` and `bins_[i]`, computed by `Melbanks::Melbanks`, `src/fbank.cc` 103-163;
* `fft data buffer`: `srfft_.Compute(data, dim, true, buffer, dim)`, returning both arrays. -/
structure Ops (F : Type) where
  zero : F
  add : F → F → F
  sub : F → F → F
  mul : F → F → F
  div : F → F → F
  ofInt : Int → F
  preemph : F → F → F
  lt : F → F → Bool
  nonneg : F → Bool
  eps : F
  log : F → F
  window : List F
  bins : List (Nat × List F)
  fft : List F → List F → Exec (List F × List F)

/-- `PK_FBANK_DIM`, `src/fbank.h` 10. -/
abbrev fbankDim : Nat := 40

/-- `FRAME_SHIFT`, `src/fbank.cc` 15: `(int)(16000 * 0.001 * 10.0)`. -/
abbrev frameShift : Nat := 160

/-- `FRAME_LENGTH`, `src/fbank.cc` 16: `(int)(16000 * 0.001 * 25.0)`. -/
abbrev frameLength : Nat := 400

/-- `Fbank::RoundUpToNearestPowerOfTwo`, `src/fbank.cc` 24-33.  `n - 1` is not negative, so that the
operations on its 32-bit representation are those on natural numbers; the final `n + 1` may overflow. -/
def roundUp (n : Int) : Exec Int := do
  cassert (decide (0 < n))
  let n := (n - 1).toNat
  let n := n ||| (n >>> 1)
  let n := n ||| (n >>> 2)
  let n := n ||| (n >>> 4)
  let n := n ||| (n >>> 8)
  let n := n ||| (n >>> 16)
  i32 ((n : Int) + 1)

/-- `Fbank::CalcNumFrames`, `src/fbank.cc` 35-42. -/
def calcNumFrames (numSamples : Int) : Int :=
  if numSamples < frameLength then 0 else 1 + (numSamples - frameLength).tdiv frameShift

/-- The pre-emphasis loop, `src/fbank.cc` 58-61, in place: `i` counts down; the last step is the one for
element 0.  `operator()` asserts the index against the dimension. -/
def preemphLoop {F : Type} (o : Ops F) : Nat → List F → Exec (List F)
  | 0, x => do
    cassert (decide (0 < x.length))
    let a ← aget x 0
    aset x 0 (o.preemph a a)
  | i + 1, x => do
    let a ← aget x ((i + 1 : Nat) : Int)
    let b ← aget x ((i : Nat) : Int)
    let x ← aset x ((i + 1 : Nat) : Int) (o.preemph a b)
    preemphLoop o i x

/-- `Fbank::ProcessWindow`, `src/fbank.cc` 44-69; `x` is the sub-window.  The loops that treat every element on
its own are written as `foldl`, `map` and `zipWith`. -/
def processWindow {F : Type} (o : Ops F) (x : List F) : Exec (List F) := do
  let sum := x.foldl o.add o.zero
  let mean := o.div sum (o.ofInt x.length)
  let x := x.map fun v => o.sub v mean
  let x ← preemphLoop o (x.length - 1) x
  cassert (decide (o.window.length = x.length))
  .ok (List.zipWith o.mul x o.window)

/-- `Fbank::ExtractWindow`, `src/fbank.cc` 74-100; `window` is the old content of the window (overwritten
completely: the frame in the first 400 elements, zeros behind them). -/
def extractWindow {F : Type} (o : Ops F) (wave : List F) (frameIdx : Nat) (window : List F) :
    Exec (List F) := do
  let start ← i32 ((frameIdx : Int) * frameShift)
  let stop ← i32 (start + frameLength)
  cassert (decide (0 ≤ start ∧ stop ≤ wave.length))
  cassert (decide (frameLength ≤ window.length))
  let sub ← processWindow o ((wave.drop start.toNat).take frameLength)
  .ok (sub ++ List.replicate (window.length - frameLength) o.zero)

/-- The loop of `Fbank::ComputePowerSpectrum`, `src/fbank.cc` 204-208, in place, for `n` more values of `i`. -/
def powerLoop {F : Type} (o : Ops F) : Nat → Nat → List F → Exec (List F)
  | 0, _, w => .ok w
  | n + 1, i, w => do
    let re ← aget w ((i * 2 : Nat) : Int)
    let im ← aget w ((i * 2 + 1 : Nat) : Int)
    let w ← aset w (i : Int) (o.add (o.mul re re) (o.mul im im))
    powerLoop o n (i + 1) w

/-- `Fbank::ComputePowerSpectrum`, `src/fbank.cc` 193-211. -/
def powerSpectrum {F : Type} (o : Ops F) (w : List F) : Exec (List F) := do
  cassert (decide (0 < w.length))
  let half := w.length / 2
  let a ← aget w 0
  let b ← aget w 1
  let w ← powerLoop o (half - 1) 1 w
  let w ← aset w 0 (o.mul a a)
  aset w (half : Int) (o.mul b b)

/-- `VectorBase::VecVec`, `src/vector.cc` 82-92, of equally long vectors. -/
def dot {F : Type} (o : Ops F) (x y : List F) : F :=
  (List.zipWith o.mul x y).foldl o.add o.zero

/-- One mel energy, `src/fbank.cc` 172-178: `Range` asserts that the bin lies within the vector. -/
def melBin {F : Type} (o : Ops F) (w : List F) (bin : Nat × List F) : Exec F := do
  cassert (decide (bin.1 + bin.2.length ≤ w.length))
  .ok (dot o bin.2 ((w.drop bin.1).take bin.2.length))

/-- `Melbanks::Compute`, `src/fbank.cc` 165-184 (the warning about NaN is in `LoudModel.lean`). -/
def melCompute {F : Type} (o : Ops F) (w : List F) : Exec (List F) := o.bins.mapM (melBin o w)

/-- One element of `ApplyFloor` and `ApplyLog`, `src/vector.cc` 167-184. -/
def floorLog {F : Type} (o : Ops F) (x : F) : Exec F := do
  let x := if o.lt x o.eps then o.eps else x
  cassert (o.nonneg x)
  .ok (o.log x)

/-- `Fbank::ComputeFrame`, `src/fbank.cc` 219-245; returns the feature and the arrays `window` and `buffer` as
they are left.  (`ApplyFloor` runs over all elements before `ApplyLog`; as they treat every element on its own
and only `ApplyLog` can fail, they are merged.) -/
def computeFrame {F : Type} (o : Ops F) (window buffer : List F) : Exec (List F × List F × List F) := do
  let (window, buffer) ← o.fft window buffer
  let window ← powerSpectrum o window
  let energies ← melCompute o window
  let feature ← energies.mapM (floorLog o)
  .ok (feature, window, buffer)

/-- `frame_length_padded_`, `src/fbank.cc` 258: 512, the value of `roundUp 400` (`C44_padded_frame`). -/
abbrev paddedLength : Nat := 512

/-- The loop of `Fbank::Process`, `src/fbank.cc` 297-303, for `n` more frames from frame `i` on. -/
def frameLoop {F : Type} (o : Ops F) (wave : List F) : Nat → Nat → List F → List F → Exec (List (List F))
  | 0, _, _, _ => .ok []
  | n + 1, i, window, buffer => do
    let window ← extractWindow o wave i window
    let (feat, window, buffer) ← computeFrame o window buffer
    cassert (decide (feat.length = fbankDim))
    let rest ← frameLoop o wave n (i + 1) window buffer
    .ok (feat :: rest)

/-- The contents of the two arrays allocated with `kUndefined` in `src/fbank.cc` 294-295: anything, but of the
allocated length. -/
structure Junk (F : Type) where
  window : List F
  buffer : List F
  hw : window.length = paddedLength
  hb : buffer.length = paddedLength

/-- `Fbank::Process`, `src/fbank.cc` 265-314: `buf` is `inst->wave_buffer`; returns the feature rows and the
new buffer.  `Resize(0, PK_FBANK_DIM)` for an empty wave runs into the assertion of `Matrix::Init` whatever the
old size of the matrix was. -/
def process {F : Type} (o : Ops F) (junk : Junk F) (buf wave : List F) :
    Exec (List (List F) × List F) := do
  if wave.length = 0 then do
    matInit 0 fbankDim
    .ok ([], buf)
  else do
    let total ← i32 ((buf.length : Int) + wave.length)
    vecInit 4 total
    let buf := buf ++ wave
    let numFrames := calcNumFrames buf.length
    if numFrames = 0 then .ok ([], buf)
    else do
      matInit numFrames fbankDim
      let rows ← frameLoop o buf numFrames.toNat 0 junk.window junk.buffer
      let remove ← i32 (frameShift * numFrames)
      let next := (buf.length : Int) - remove
      vecInit 4 next
      .ok (rows, (buf.drop remove.toNat).take next.toNat)

/-- Feeding a signal piece by piece: all feature rows in order, and the buffer afterwards.  Every call gets its
own indeterminate memory.  A caller of `Fbank::Process`, `src/fbank.cc` 265-314. -/
def feed {F : Type} (o : Ops F) : List F → List (Junk F × List F) → Exec (List (List F) × List F)
  | buf, [] => .ok ([], buf)
  | buf, (j, c) :: cs => do
    let (xs, buf) ← process o j buf c
    let (ys, buf) ← feed o buf cs
    .ok (xs ++ ys, buf)

end Verif.Fbank
