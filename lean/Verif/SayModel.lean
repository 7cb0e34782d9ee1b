import Verif.MsgModel
import Verif.ApiModel

/-!
# Model of the texts of all failed calls of the C interface

`Verif.Api` is about programs that call the functions of `src/ce_stt.h` in any order, with the kind of the last error
only; `Verif.Msg` is about the texts of `ce_stt_init`.  Here every call has its text, and `error_message` is a buffer of
2048 bytes that all calls share.

Simplification: what a call does and returns is that of `Verif.Api`; the status with its text is computed beside it (and
proved to be the same status).  Texts are bytes.
-/

namespace Verif.Msg

open Verif Verif.Text Verif.App Verif.Api

variable {G F D α : Type}

/-! ## `src/pcm_reader.cc` -/

/-- `"num_channels = {} not supported"`, `src/pcm_reader.cc` 120. -/
def tChannels : Str := [110, 117, 109, 95, 99, 104, 97, 110, 110, 101, 108, 115, 32, 61, 32, 123, 125, 32, 110, 111,
  116, 32, 115, 117, 112, 112, 111, 114, 116, 101, 100]

/-- `"sample_rate = {} not supported"`, `src/pcm_reader.cc` 127. -/
def tRate : Str := [115, 97, 109, 112, 108, 101, 95, 114, 97, 116, 101, 32, 61, 32, 123, 125, 32, 110, 111, 116, 32,
  115, 117, 112, 112, 111, 114, 116, 101, 100]

/-- `"bits_per_sample == 8, 16 or 32 expected, but {} found"`, `src/pcm_reader.cc` 139. -/
def tBits : Str := [98, 105, 116, 115, 95, 112, 101, 114, 95, 115, 97, 109, 112, 108, 101, 32, 61, 61, 32, 56, 44, 32,
  49, 54, 32, 111, 114, 32, 51, 50, 32, 101, 120, 112, 101, 99, 116, 101, 100, 44, 32, 98, 117, 116, 32, 123, 125, 32,
  102, 111, 117, 110, 100]

/-- `WaveReader::SetFormat`, `src/pcm_reader.cc` 116-146. -/
def setFormat (r : Pcm.Reader) (f : Pcm.Format) : Mio Pcm.Reader :=
  if f.channels ≠ 1 then failed .corruption (format tChannels [intText f.channels])
  else if f.rate ≠ 16000 then failed .corruption (format tRate [intText f.rate])
  else if f.bits = 8 ∨ f.bits = 16 ∨ f.bits = 32 then .ok { r with ready := true, format := f }
  else failed .corruption (format tBits [intText f.bits])

/-- `"buffer is nullptr"`, `src/pcm_reader.cc` 151. -/
def tNull : Str := [98, 117, 102, 102, 101, 114, 32, 105, 115, 32, 110, 117, 108, 108, 112, 116, 114]

/-- `"unexpected size: {}"`, `src/pcm_reader.cc` 154. -/
def tSize : Str := [117, 110, 101, 120, 112, 101, 99, 116, 101, 100, 32, 115, 105, 122, 101, 58, 32, 123, 125]

/-- `"WaveReader is not ready"`, `src/pcm_reader.cc` 157. -/
def tReady : Str := [87, 97, 118, 101, 82, 101, 97, 100, 101, 114, 32, 105, 115, 32, 110, 111, 116, 32, 114, 101, 97,
  100, 121]

/-- `WaveReader::Process`, `src/pcm_reader.cc` 148-190. -/
def readerProcess (conv : Int → F) (r : Pcm.Reader) (data : Option (List UInt8)) (size : Int) :
    Mio (List F × Pcm.Reader) :=
  match data with
  | none => failed .runtime tNull
  | some mem =>
    if size ≤ 0 then failed .runtime (format tSize [intText size])
    else if !r.ready then failed .runtime tReady
    else if (mem.length : Int) < size then .error (.fault .ub)
    else do
      let (out, rest) ← Mio.ofExec (Pcm.decodeBuffer conv r.format.bits (r.buffer ++ mem.take size.toNat))
      .ok (out, { r with buffer := rest })

/-- `ReadValue<int16_t>`, `src/util.h` 139-142. -/
def readI16 : Rm Int := do
  let b ← readBytes 2
  pure (decI16 b)

/-- `"subchunk1_size == 16 expected, but {} found: {}"`, `src/pcm_reader.cc` 55. -/
def tSubchunk : Str := [115, 117, 98, 99, 104, 117, 110, 107, 49, 95, 115, 105, 122, 101, 32, 61, 61, 32, 49, 54, 32,
  101, 120, 112, 101, 99, 116, 101, 100, 44, 32, 98, 117, 116, 32, 123, 125, 32, 102, 111, 117, 110, 100, 58, 32, 123,
  125]

/-- `"audio_format == 1 expected, but {} found: {}"`, `src/pcm_reader.cc` 65. -/
def tAudio : Str := [97, 117, 100, 105, 111, 95, 102, 111, 114, 109, 97, 116, 32, 61, 61, 32, 49, 32, 101, 120, 112,
  101, 99, 116, 101, 100, 44, 32, 98, 117, 116, 32, 123, 125, 32, 102, 111, 117, 110, 100, 58, 32, 123, 125]

/-- `"bytes_rate == {} expected, but {} found: {}"`, `src/pcm_reader.cc` 89. -/
def tBytesRate : Str := [98, 121, 116, 101, 115, 95, 114, 97, 116, 101, 32, 61, 61, 32, 123, 125, 32, 101, 120, 112,
  101, 99, 116, 101, 100, 44, 32, 98, 117, 116, 32, 123, 125, 32, 102, 111, 117, 110, 100, 58, 32, 123, 125]

/-- `"block_align == {} expected, but {} found: {}"`, `src/pcm_reader.cc` 97. -/
def tBlockAlign : Str := [98, 108, 111, 99, 107, 95, 97, 108, 105, 103, 110, 32, 61, 61, 32, 123, 125, 32, 101, 120,
  112, 101, 99, 116, 101, 100, 44, 32, 98, 117, 116, 32, 123, 125, 32, 102, 111, 117, 110, 100, 58, 32, 123, 125]

/-- The end of `ReadPcmHeader`, `src/pcm_reader.cc` 87-111.  The second number of the text about `block_align` is
`bytes_rate` (99). -/
def checkRates (channels rate bytesRate blockAlign bits : Int) : Rm Pcm.Format :=
  match i32 (rate * bits) with
  | .error f => Rm.fault f
  | .ok m =>
    if bytesRate ≠ m.tdiv 8 then
      Rm.fail .corruption fun name => format tBytesRate [intText (m.tdiv 8), intText bytesRate, name]
    else if blockAlign ≠ bits.tdiv 8 then
      Rm.fail .corruption fun name => format tBlockAlign [intText (bits.tdiv 8), intText bytesRate, name]
    else do
      readTag Pcm.tagData
      let _ ← readI32
      pure ⟨channels, rate, bits⟩

/-- `ReadPcmHeader`, `src/pcm_reader.cc` 40-112. -/
def readPcmHeader : Rm Pcm.Format := do
  readTag Pcm.tagRiff
  let _ ← readI32
  readTag Pcm.tagWave
  readTag Pcm.tagFmt
  let subchunk1Size ← readI32
  if subchunk1Size ≠ 16 then Rm.fail .corruption fun name => format tSubchunk [intText subchunk1Size, name]
  else do
    let audioFormat ← readI16
    if audioFormat ≠ 1 then Rm.fail .corruption fun name => format tAudio [intText audioFormat, name]
    else do
      let channels ← readI16
      let rate ← readI32
      let bytesRate ← readI32
      let blockAlign ← readI16
      let bits ← readI16
      checkRates channels rate bytesRate blockAlign bits

/-! ## `src/ce_stt.cc` -/

/-- `if (!status.ok())` with `pasco_strlcpy(error_message, status.what().c_str(), …)`, `src/ce_stt.cc` 274-275, 309 and
337, 367-368. -/
def saying (buf : Str) (r : Mio α) : Exec Str :=
  match r with
  | .error (.status _ t) => report buf t
  | _ => .ok buf

/-- `"utt is NULL"`, `src/ce_stt.cc` 137. -/
def tUttNull : Str := [117, 116, 116, 32, 105, 115, 32, 78, 85, 76, 76]

/-- A program between two calls: what there is, with the kind of the last error, and `error_message`,
`src/ce_stt.cc` 65. -/
abbrev Talk (G F : Type) := Session G F × Str

/-- Before the first call.  `src/ce_stt.cc` 65. -/
def Talk.start : Talk G F := (.start, noMessage)

/-- `ce_stt_init`, `src/ce_stt.cc` 193-231. -/
def sttInit (w : World G) (x : Talk G F) (name : Str) : Exec (Ret F × Talk G F) := do
  let (p, heap, c, buf) ← init w name x.1.heap x.2
  match p, c with
  | some (a, self), _ => .ok (.ptr (some a), { x.1 with heap := heap, stts := x.1.stts.put a self }, buf)
  | none, some c => .ok (.ptr none, { x.1 with heap := heap, msg := .status c }, buf)
  | none, none => .ok (.ptr none, { x.1 with heap := heap }, buf)

/-- `ce_utt_init`, `src/ce_stt.cc` 256-283. -/
def uttInit (mach : Main.Machine G F D) (x : Talk G F) (p : Option Nat) (f : Pcm.Format) : Exec (Ret F × Talk G F) := do
  let (r, s) ← Api.uttInit mach x.1 p f
  let buf ← saying x.2 (setFormat Pcm.Reader.new f)
  .ok (r, s, buf)

/-- What `ce_stt_process` writes to `error_message`, `src/ce_stt.cc` 300-309 and 337 with 135-139.  The members
`internal` and `recognizer` are not null here, see `Verif.Api`. -/
def processSays (mach : Main.Machine G F D) (x : Talk G F) (u : Option Nat) (data : Option (List UInt8)) (size : Int) :
    Exec Str :=
  match u with
  | none => report x.2 tUttNull
  | some a =>
    match x.1.utts.get a with
    | none => .error .ub
    | some y => saying x.2 (readerProcess mach.conv y.data.reader data size)

/-- `ce_stt_process`, `src/ce_stt.cc` 295-340. -/
def process (mach : Main.Machine G F D) (x : Talk G F) (u : Option Nat) (mem : Stt.Mem F) (data : Option (List UInt8))
    (size : Int) : Exec (Ret F × Talk G F) := do
  let (r, s) ← Api.process mach x.1 u mem data size
  let buf ← processSays mach x u data size
  .ok (r, s, buf)

/-- `ce_read_pcm_header`, `src/ce_stt.cc` 364-373.  The file object made from a `FILE *` has an empty name
(`src/util.cc` 66-68, `src/util.h` 117-118). -/
def readHeader (x : Talk G F) (file : List UInt8) : Exec (Ret F × Talk G F) := do
  let (r, s) ← Api.readHeader x.1 file
  let buf ← saying x.2 (readPcmHeader [] file)
  .ok (r, s, buf)

/-- One call, `src/ce_stt.cc` 193-377.  The functions that are not listed write nothing to `error_message`:
`ce_stt_destroy` (233-254), `ce_utt_destroy` (285-293), `ce_stt_end_of_stream` of an utterance that is one (342-362),
`ce_stt_last_error` (375-377). -/
def step (mach : Main.Machine G F D) (w : World G) (x : Talk G F) : Call F → Exec (Ret F × Talk G F)
  | .sttInit name => sttInit w x name
  | .uttInit p f => uttInit mach x p f
  | .process u mem data size => process mach x u mem data size
  | .readHeader file => readHeader x file
  | c => do
    let (r, s) ← Api.step mach w x.1 c
    .ok (r, s, x.2)

/-- Call after call.  There is no counterpart in /repo: this is the program of a user of the library. -/
def run (mach : Main.Machine G F D) (w : World G) : Talk G F → List (Call F) → Exec (List (Ret F) × Talk G F)
  | x, [] => .ok ([], x)
  | x, c :: cs => do
    let (r, x) ← step mach w x c
    let (rs, x) ← run mach w x cs
    .ok (r :: rs, x)

end Verif.Msg
