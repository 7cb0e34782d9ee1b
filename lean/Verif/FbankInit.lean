import Verif.FbankModel
import Verif.SrfftModel

/-!
# Model of the constructors in `src/fbank.cc`

The tables that are a parameter of `Verif.FbankModel` are computed here: the Hamming window, the mel filters and the FFT.
Arithmetic is a parameter again.
-/

namespace Verif.Fbank

/-- The operations on `float` used by the constructors and by the feature extraction.
Used by `src/fbank.cc` 24-263. -/
structure Arith (F : Type) where
  zero : F
  add : F → F → F
  sub : F → F → F
  mul : F → F → F
  div : F → F → F
  /-- conversion of an `int` -/
  ofInt : Int → F
  /-- `x - PK_PREEMPH_COEFF * y`, computed in `double` and rounded -/
  preemph : F → F → F
  lt : F → F → Bool
  le : F → F → Bool
  /-- `x >= 0.0` -/
  nonneg : F → Bool
  /-- `FLT_EPSILON` -/
  eps : F
  log : F → F
  /-- `Melbanks::MelScale`, `src/fbank.h` 30-32 -/
  melScale : F → F
  /-- `M_2PI / n` as `float` -/
  hammAngle : Int → F
  /-- `0.54 - 0.46 * cos(x)`, computed in `double` and rounded -/
  hamm : F → F
  /-- the arithmetic of the FFT -/
  fft : Srfft.Ops F

variable {F : Type}

/-- `Fbank::HammingWindowInit`, `src/fbank.cc` 248-255.  `Resize` sets the elements to zero. -/
def hammingInit (a : Arith F) : Exec (List F) := do
  vecInit 4 frameLength
  let w := List.replicate frameLength a.zero
  let step := a.hammAngle (frameLength - 1)
  Srfft.forN frameLength (fun i w => aset w i (a.hamm (a.mul step (a.ofInt i)))) w

/-- The state of the loop over the FFT bins: `this_fftbin`, `first_index`, `last_index`, `src/fbank.cc` 132-135. -/
structure BinState (F : Type) where
  row : List F
  first : Int
  last : Int

/-- The weight of a filter at a frequency inside it, `src/fbank.cc` 142-147. -/
def binWeight (a : Arith F) (left center right mel : F) : F :=
  if a.le mel center then a.div (a.sub mel left) (a.sub center left)
  else a.div (a.sub right mel) (a.sub right center)

/-- The body of the loop over the FFT bins, `src/fbank.cc` 136-154. -/
def binStep (a : Arith F) (width left center right : F) (i : Nat) (s : BinState F) : Exec (BinState F) :=
  if a.lt left (a.melScale (a.mul width (a.ofInt i))) && a.lt (a.melScale (a.mul width (a.ofInt i))) right then do
    let row ← aset s.row i (binWeight a left center right (a.melScale (a.mul width (a.ofInt i))))
    .ok ⟨row, if s.first = -1 then i else s.first, i⟩
  else .ok s

/-- One filter, `src/fbank.cc` 126-162, from the given bin width, lowest mel frequency and distance of the centres: the
offset and the weights.  `num` is `num_fft_bins`. -/
def melFilter (a : Arith F) (num : Nat) (width low delta : F) (idx : Nat) : Exec (Nat × List F) := do
  let left := a.add low (a.mul (a.ofInt idx) delta)
  let center := a.add low (a.mul (a.ofInt (idx + 1)) delta)
  let right := a.add low (a.mul (a.ofInt (idx + 2)) delta)
  let s ← Srfft.forN num (binStep a width left center right) ⟨List.replicate num a.zero, -1, -1⟩
  cassert (decide (s.first ≠ -1 ∧ s.first < s.last))
  let size := s.last + 1 - s.first
  vecInit 4 size
  cassert (decide (s.first + size ≤ s.row.length))
  if 0 ≤ s.first then .ok (s.first.toNat, (s.row.drop s.first.toNat).take size.toNat) else .error .ub

/-- `Melbanks::Melbanks`, `src/fbank.cc` 103-163.  (`PK_FBANK_DIM >= 3` holds.) -/
def melInit (a : Arith F) (padded : Int) : Exec (List (Nat × List F)) := do
  cassert (decide (padded.tmod 2 = 0))
  let num := padded.tdiv 2
  let width := a.div (a.ofInt 16000) (a.ofInt padded)
  let low := a.melScale (a.ofInt 20)
  let high := a.melScale (a.ofInt 8000)
  let delta := a.div (a.sub high low) (a.ofInt (fbankDim + 1))
  vecInit 4 num
  (List.range fbankDim).mapM (melFilter a num.toNat width low delta)

/-- `Fbank::Fbank`, `src/fbank.cc` 257-263: the operations and tables the feature extraction works with.  `ComputeFrame`
passes the lengths of the two vectors to the FFT (`src/fbank.cc` 228-233). -/
def make (a : Arith F) : Exec (Ops F) := do
  let padded ← roundUp frameLength
  let bins ← melInit a padded
  let t ← Srfft.new a.fft padded
  let window ← hammingInit a
  .ok { zero := a.zero, add := a.add, sub := a.sub, mul := a.mul, div := a.div, ofInt := a.ofInt, preemph := a.preemph,
        lt := a.lt, nonneg := a.nonneg, eps := a.eps, log := a.log, window := window, bins := bins,
        fft := fun w b => Srfft.compute a.fft t w w.length true b b.length }

end Verif.Fbank
