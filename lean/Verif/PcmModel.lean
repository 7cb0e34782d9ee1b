import Verif.Section

/-!
# Model of `src/pcm_reader.h` and `src/pcm_reader.cc`

The conversion of an integer sample to `float` is a parameter `conv`: it is exact for 8 and 16 bit
samples and rounds for 32 bit samples, and nothing here depends on which `float` comes out.
-/

namespace Verif.Pcm

/-- `ce_wave_format_t`, `src/ce_stt.h` 21-25. -/
structure Format where
  channels : Int
  rate : Int
  bits : Int
deriving DecidableEq, Repr

/-- `"RIFF"`, `src/pcm_reader.cc` 41. -/
def tagRiff : List UInt8 := [82, 73, 70, 70]

/-- `"WAVE"`, `src/pcm_reader.cc` 47. -/
def tagWave : List UInt8 := [87, 65, 86, 69]

/-- `"fmt "`, `src/pcm_reader.cc` 50. -/
def tagFmt : List UInt8 := [102, 109, 116, 32]

/-- `"data"`, `src/pcm_reader.cc` 105. -/
def tagData : List UInt8 := [100, 97, 116, 97]

/-- `src/pcm_reader.cc` 87-111, the checks on the last four fields and the start of the data chunk:
`sample_rate * bits_per_sample` is computed in `int` (overflow is undefined) and C division truncates
toward zero. -/
def checkRates (channels rate bytesRate blockAlign bits : Int) : Rd Format :=
  match i32 (rate * bits) with
  | .error f => Rd.fault f
  | .ok m => do
    if bytesRate ≠ m.tdiv 8 then Rd.fail .corruption
    else if blockAlign ≠ bits.tdiv 8 then Rd.fail .corruption
    else do
      readTag tagData
      let _ ← readI32
      pure ⟨channels, rate, bits⟩

/-- `ReadPcmHeader`, `src/pcm_reader.cc` 40-112.  The C++ function also stores the fields read so far
into `wave_fmt` when it fails later; only the result of a successful call is modelled. -/
def readPcmHeader : Rd Format := do
  readTag tagRiff
  let _ ← readI32
  readTag tagWave
  readTag tagFmt
  let subchunk1Size ← readI32
  if subchunk1Size ≠ 16 then Rd.fail .corruption
  else do
    let audioFormat ← readI16
    if audioFormat ≠ 1 then Rd.fail .corruption
    else do
      let channels ← readI16
      let rate ← readI32
      let bytesRate ← readI32
      let blockAlign ← readI16
      let bits ← readI16
      checkRates channels rate bytesRate blockAlign bits

/-- `WaveReader`, `src/pcm_reader.h` 45-65: `buffer_`, `format_` (indeterminate until the first successful
`SetFormat`; never read before that because of `ready_`) and `ready_`. -/
structure Reader where
  ready : Bool
  format : Format
  buffer : List UInt8
deriving DecidableEq, Repr

/-- `WaveReader::WaveReader`, `src/pcm_reader.cc` 114. -/
def Reader.new : Reader := ⟨false, ⟨0, 0, 0⟩, []⟩

/-- `WaveReader::SetFormat`, `src/pcm_reader.cc` 116-146. -/
def Reader.setFormat (r : Reader) (f : Format) : Io Reader :=
  if f.channels ≠ 1 then bad .corruption
  else if f.rate ≠ 16000 then bad .corruption
  else if f.bits = 8 ∨ f.bits = 16 ∨ f.bits = 32 then .ok { r with ready := true, format := f }
  else bad .corruption

/-- `WaveReader::Reset`, `src/pcm_reader.h` 57-59. -/
def Reader.reset (r : Reader) : Reader := { r with buffer := [] }

/-- `ReadInt8`, `src/pcm_reader.cc` 29-33, at the start of `bs`; reading past the end is undefined. -/
def readInt8 : List UInt8 → Exec (Int × List UInt8)
  | a :: bs => .ok (if a.toNat < 128 then (a.toNat : Int) else (a.toNat : Int) - 256, bs)
  | _ => .error .ub

/-- `ReadInt16`, `src/pcm_reader.cc` 22-26. -/
def readInt16 : List UInt8 → Exec (Int × List UInt8)
  | a :: b :: bs => .ok (decI16 [a, b], bs)
  | _ => .error .ub

/-- `ReadInt32`, `src/pcm_reader.cc` 15-19. -/
def readInt32 : List UInt8 → Exec (Int × List UInt8)
  | a :: b :: c :: d :: bs => .ok (decI32 [a, b, c, d], bs)
  | _ => .error .ub

/-- The `switch` of `src/pcm_reader.cc` 169-181. -/
def readSample (bits : Int) (bs : List UInt8) : Exec (Int × List UInt8) :=
  if bits = 8 then readInt8 bs
  else if bits = 16 then readInt16 bs
  else if bits = 32 then readInt32 bs
  else .error .assert

/-- The loop of `src/pcm_reader.cc` 167-182; `ptr` is the part of the buffer from `current_ptr` on. -/
def sampleLoop {F : Type} (conv : Int → F) (bits : Int) : Nat → List UInt8 → Exec (List F)
  | 0, _ => .ok []
  | n + 1, ptr => do
    let (v, ptr) ← readSample bits ptr
    let vs ← sampleLoop conv bits n ptr
    .ok (conv v :: vs)

/-- `src/pcm_reader.cc` 163-187: decode all whole samples of `buffer_` and drop their bytes.
`bits` is 8, 16 or 32 when `ready_` holds, so that a zero or negative number of bytes per sample
(division by zero, or a huge unsigned divisor) only occurs in unreachable states; it is a fault here. -/
def decodeBuffer {F : Type} (conv : Int → F) (bits : Int) (buf : List UInt8) :
    Exec (List F × List UInt8) := do
  let bps := bits.tdiv 8
  if bps ≤ 0 then .error .ub
  else do
    let numSamples := wrap32 ((buf.length : Int).tdiv bps)
    vecInit 4 numSamples
    let out ← sampleLoop conv bits numSamples.toNat buf
    let processed ← i32 (bps * numSamples)
    cassert (decide (processed ≤ buf.length))
    .ok (out, buf.drop processed.toNat)

/-- `WaveReader::Process`, `src/pcm_reader.cc` 148-190.  `data` is the memory `buffer` points to, `none`
for a null pointer; reading more than that memory holds is undefined. -/
def Reader.process {F : Type} (conv : Int → F) (r : Reader) (data : Option (List UInt8)) (size : Int) :
    Io (List F × Reader) :=
  match data with
  | none => bad .runtime
  | some mem =>
    if size ≤ 0 then bad .runtime
    else if !r.ready then bad .runtime
    else if (mem.length : Int) < size then .error (.fault .ub)
    else do
      let (out, rest) ← Io.ofExec (decodeBuffer conv r.format.bits (r.buffer ++ mem.take size.toNat))
      .ok (out, { r with buffer := rest })

/-- Feeding a stream piece by piece, the way callers of `WaveReader::Process` do (`ce_stt_process` and
`ProcessAudio`, `src/main.cc` 28-52, call it once per piece): all samples in order, and the reader
afterwards. -/
def Reader.feed {F : Type} (conv : Int → F) : Reader → List (List UInt8) → Io (List F × Reader)
  | r, [] => .ok ([], r)
  | r, c :: cs => do
    let (xs, r) ← r.process conv (some c) c.length
    let (ys, r) ← Reader.feed conv r cs
    .ok (xs ++ ys, r)

/-- `Read16kPcm`, `src/pcm_reader.cc` 194-211, on the bytes of the file (opening it is not modelled). -/
def read16kPcm {F : Type} (conv : Int → F) (file : List UInt8) : Io (List F) := do
  let (fmt, _) ← readPcmHeader file
  let r ← Reader.new.setFormat fmt
  let dataSize := wrap32 ((file.length : Int) - 44)
  if dataSize < 0 then .error (.fault .throw)
  else do
    let (buf, _) ← readBytes dataSize.toNat (file.drop 44)
    let (out, _) ← r.process conv (some buf) dataSize
    .ok out

end Verif.Pcm
