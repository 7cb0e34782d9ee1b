import Verif.PcmSpec
import Verif.PcmModel

/-!
# What a caller of `ce_read_pcm_header` finds in its format object, independently of the model
-/

namespace Verif.Header.Spec

open Verif.Pcm (Format)
open Verif.Pcm.Spec (field signed)

/-- The first 22 bytes are those of a PCM file. -/
structure Begins (file : List UInt8) : Prop where
  length : 22 ≤ file.length
  riff : field file 0 4 = [82, 73, 70, 70]
  wave : field file 8 4 = [87, 65, 86, 69]
  fmt : field file 12 4 = [102, 109, 116, 32]
  fmtSize : signed 4 (field file 16 4) = 16
  pcm : signed 2 (field file 20 2) = 1

/-- The byte rate and the block alignment are those of one channel. -/
structure Agrees (file : List UInt8) : Prop where
  begins : Begins file
  length : 36 ≤ file.length
  byteRate : signed 4 (field file 28 4) = (signed 4 (field file 24 4) * signed 2 (field file 34 2)).tdiv 8
  blockAlign : signed 2 (field file 32 2) = (signed 2 (field file 34 2)).tdiv 8

/-- `f'` is `f` with the fields that the file gives, each as soon as the file gives it. -/
structure Written (file : List UInt8) (f f' : Format) : Prop where
  channels : Begins file → 24 ≤ file.length → f'.channels = signed 2 (field file 22 2)
  channelsKept : ¬ (Begins file ∧ 24 ≤ file.length) → f'.channels = f.channels
  rate : Begins file → 28 ≤ file.length → f'.rate = signed 4 (field file 24 4)
  rateKept : ¬ (Begins file ∧ 28 ≤ file.length) → f'.rate = f.rate
  bits : Agrees file → f'.bits = signed 2 (field file 34 2)
  bitsKept : ¬ Agrees file → f'.bits = f.bits

end Verif.Header.Spec
