import Verif.PcmModel

/-!
# Model of `ReadPcmHeader` with the caller's format object and the caller's file

`PcmModel.lean` has the answer of a successful call only.  Here every call leaves a format object and a file position behind,
as it does for the caller of `ce_read_pcm_header`.
-/

namespace Verif.Header

open Verif.Pcm (Format tagRiff tagWave tagFmt tagData)

/-- What the caller sees change: the `ce_wave_format_t` the pointer `wave_fmt` points to (`src/pcm_reader.cc` 40), and the
bytes of the file from its position on. -/
structure Mem where
  fmt : Format
  file : List UInt8
deriving DecidableEq, Repr

/-- A part of `ReadPcmHeader`: a fault, a non-OK `Status` (`PK_CHECK_STATUS`, `src/util.h` 35-37), or a value; the last two
with the memory. -/
def Into (α : Type) := Mem → Exec (Except Code α × Mem)

instance : Monad Into where
  pure a := fun s => .ok (.ok a, s)
  bind p q := fun s => p s >>= fun x => match x.1 with
    | .error c => .ok (.error c, x.2)
    | .ok a => q a x.2

/-- Return a non-OK `Status`. -/
def fail {α : Type} (c : Code) : Into α := fun s => .ok (.error c, s)

/-- `ReadableFile::Read`, `src/util.cc` 120-126: `fread` of fewer bytes than asked for takes what there is.  Simplification:
what it leaves in the local variable is not kept, because every caller returns then. -/
def read (n : Nat) : Into (List UInt8) := fun s =>
  if n = 0 ∨ s.file.length < n then .ok (.error .io, { s with file := s.file.drop n })
  else .ok (.ok (s.file.take n), { s with file := s.file.drop n })

/-- `ReadAndVerifyString`, `src/util.cc` 128-143. -/
def tag (expected : List UInt8) : Into Unit := do
  let v ← read expected.length
  if cstr v = expected then pure () else fail .corruption

/-- `ReadValue<int32_t>`, `src/util.h` 135-138. -/
def int32 : Into Int := do
  let v ← read 4
  pure (decI32 v)

/-- `ReadValue<int16_t>`, `src/util.h` 135-138. -/
def int16 : Into Int := do
  let v ← read 2
  pure (decI16 v)

/-- An assignment to a field of `*wave_fmt`, `src/pcm_reader.cc` 73, 77 and 102. -/
def store (f : Format → Format) : Into Unit := fun s => .ok (.ok (), { s with fmt := f s.fmt })

/-- An `int` expression that may overflow. -/
def int (x : Int) : Into Int := fun s => i32 x >>= fun v => .ok (.ok v, s)

/-- `ReadPcmHeader`, `src/pcm_reader.cc` 40-112. -/
def readPcmHeader : Into Unit := do
  tag tagRiff
  let _ ← int32
  tag tagWave
  tag tagFmt
  let subchunk1Size ← int32
  if subchunk1Size ≠ 16 then fail .corruption
  else do
    let audioFormat ← int16
    if audioFormat ≠ 1 then fail .corruption
    else do
      let channels ← int16
      store fun f => { f with channels := channels }
      let rate ← int32
      store fun f => { f with rate := rate }
      let bytesRate ← int32
      let blockAlign ← int16
      let bits ← int16
      let m ← int (rate * bits)
      if bytesRate ≠ m.tdiv 8 then fail .corruption
      else if blockAlign ≠ bits.tdiv 8 then fail .corruption
      else do
        store fun f => { f with bits := bits }
        tag tagData
        let _ ← int32
        pure ()

/-- `ce_read_pcm_header`, `src/ce_stt.cc` 364-373: whether the pointer it returns is the one it was given, the status of the
message, and the memory.  The `FILE` stays open (`owned_` is false, `src/util.cc` 66-73). -/
def ceReadPcmHeader (fmt : Format) (file : List UInt8) : Exec (Option Code × Format × List UInt8) := do
  let x ← readPcmHeader ⟨fmt, file⟩
  match x.1 with
  | .error c => .ok (some c, x.2.fmt, x.2.file)
  | .ok () => .ok (none, x.2.fmt, x.2.file)

end Verif.Header
