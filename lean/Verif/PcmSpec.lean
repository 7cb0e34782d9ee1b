import Verif.Basic

/-!
# What decoding a PCM stream and a WAVE header means, independently of the model
-/

namespace Verif.Pcm.Spec

/-- Value of a byte string read least significant byte first. -/
def leVal : List UInt8 → Nat
  | [] => 0
  | b :: bs => b.toNat + 256 * leVal bs

/-- Two's complement value of `b` bytes, least significant first. -/
def signed (b : Nat) (bs : List UInt8) : Int :=
  if 2 * leVal bs < 256 ^ b then leVal bs else (leVal bs : Int) - 256 ^ b

/-- The samples of a stream with `b` bytes per sample: sample `i` is the value of bytes `b*i … b*i+b-1`;
an incomplete sample at the end does not count. -/
def samples (b : Nat) (bs : List UInt8) : List Int :=
  (List.range (bs.length / b)).map fun i => signed b ((bs.drop (b * i)).take b)

/-- Field of `n` bytes at offset `o` of a header. -/
def field (h : List UInt8) (o n : Nat) : List UInt8 := (h.drop o).take n

/-- A PCM `.wav` header of 44 bytes with the given fields: the four tags, a `fmt ` chunk of 16 bytes, and
format 1. -/
structure Header (h : List UInt8) (channels rate byteRate blockAlign bits : Int) : Prop where
  length : h.length = 44
  riff : field h 0 4 = [82, 73, 70, 70]
  wave : field h 8 4 = [87, 65, 86, 69]
  fmt : field h 12 4 = [102, 109, 116, 32]
  fmtSize : signed 4 (field h 16 4) = 16
  pcm : signed 2 (field h 20 2) = 1
  channels_eq : signed 2 (field h 22 2) = channels
  rate_eq : signed 4 (field h 24 4) = rate
  byteRate_eq : signed 4 (field h 28 4) = byteRate
  blockAlign_eq : signed 2 (field h 32 2) = blockAlign
  bits_eq : signed 2 (field h 34 2) = bits
  data : field h 36 4 = [100, 97, 116, 97]

/-- The header the WAVE format documents: byte rate and block alignment agree with channel count, sample
rate and bits per sample. -/
def WavHeader (h : List UInt8) (channels rate bits : Int) : Prop :=
  Header h channels rate ((rate * channels * bits) / 8) ((channels * bits) / 8) bits

end Verif.Pcm.Spec
