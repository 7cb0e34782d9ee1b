import Verif.PcmModel
import Verif.FbankModel
import Verif.AmModel
import Verif.DecoderModel
import Verif.TextModel

/-!
# Model of the C interface, `src/ce_stt.h` and `src/ce_stt.cc`

The stages are those of the other models.  A pointer is an `Option`; what a null pointer leads to is explicit.
`float` in the front end and in the acoustic model, and `float` and `double` in the decoder, are arbitrary types with
uninterpreted operations, as in the models of the stages.
-/

namespace Verif.Stt

open Verif

/-- `ce_stt_t`, `src/ce_stt.cc` 41-49, that is what does not change during an utterance: conversion of samples, feature
extraction, acoustic model, everything constant in the decoder, symbol table.  `perFrame` is the division of
`src/ce_stt.cc` 183; `fuel` bounds the loop over epsilon arcs of the decoder. -/
structure Rec (F D : Type) where
  conv : Int → F
  fb : Fbank.Ops F
  nn : Nnet.Ops F
  am : Am.Model F
  dec : Decoder.Env F D
  fuel : Nat
  syms : List Text.Str
  perFrame : F → Nat → F
  zero : F

/-- What is behind the acoustic model's input: its buffer and the decoder (`ce_utt_internal_t`, `src/ce_stt.cc` 57-58)
and the result fields of `ce_utt_t` (`src/ce_stt.h` 36-37). -/
structure Back (F : Type) where
  am : Am.Inst F
  dec : Decoder.Dec F
  hyp : Text.Str
  ll : F
deriving DecidableEq

/-- `ce_utt_t` and `ce_utt_internal_t`, `src/ce_stt.h` 34-38 and `src/ce_stt.cc` 53-59. -/
structure Utt (F : Type) where
  reader : Pcm.Reader
  wave : List F
  back : Back F
deriving DecidableEq

/-- Indeterminate memory used by one call: the arrays of the feature extraction and the new character arrays.
Simplification: all character arrays allocated in one call have the same old content.
`src/ce_stt.cc` 179, 186, 267 and `src/fbank.cc` 294-296. -/
structure Mem (F : Type) where
  fb : Fbank.Junk F
  fill : Nat → UInt8

/-- `StoreHypText`, `src/ce_stt.cc` 158-189.  The likelihood is only stored together with a non-empty text. -/
def storeHyp {F D : Type} (r : Rec F D) (fill : Nat → UInt8) (b : Back F) : Exec (Back F) := do
  let (words, weight) ← Decoder.bestPath r.dec b.dec
  let hyp ← Text.storeHypText r.syms words fill
  .ok { b with hyp := hyp, ll := if words.isEmpty then b.ll else r.perFrame weight b.dec.frames }

/-- One row of scores, `src/ce_stt.cc` 322-327.  The return value of `Decoder::Process` is ignored. -/
def decodeRow {F D : Type} (r : Rec F D) (fill : Nat → UInt8) (b : Back F) (row : List F) : Exec (Back F) := do
  let (_, _, d) ← Decoder.process r.dec r.fuel row b.dec
  if d.frames % 20 = 0 then storeHyp r fill { b with dec := d } else .ok { b with dec := d }

/-- The loop over the frames, `src/ce_stt.cc` 315-331; `out` is the old content of `log_prob`. -/
def frameLoop {F D : Type} (r : Rec F D) (fill : Nat → UInt8) :
    List (List F) → List (List F) → Back F → Exec (Back F)
  | _, [], b => .ok b
  | out, f :: fs, b => do
    let (rows, inst) ← Am.process r.nn r.am b.am f out
    let b ← rows.foldlM (decodeRow r fill) { b with am := inst }
    frameLoop r fill rows fs b

/-- `ce_stt_process` behind `wave_reader.Process`, `src/ce_stt.cc` 309-333, on the samples. -/
def afterSamples {F D : Type} (r : Rec F D) (mem : Mem F) (u : Utt F) (xs : List F) : Exec (Utt F) := do
  if xs.length = 0 then .ok u
  else do
    let (feats, wave) ← Fbank.process r.fb mem.fb u.wave xs
    let back ← frameLoop r mem.fill [] feats u.back
    .ok { u with wave := wave, back := back }

/-- What `ce_stt_process` and `ce_stt_end_of_stream` leave in `error_message`, `src/ce_stt.cc` 65.  The text of a
status is not modelled. -/
inductive Msg where
  | none
  | uttNull
  | internalNull
  | recognizerNull
  | status (c : Code)
deriving DecidableEq

/-- How a caller sees the utterance: `ce_utt_t *`, its `internal`, and the `recognizer` of that, each possibly null.
`src/ce_stt.h` 34-38, `src/ce_stt.cc` 53-60. -/
inductive Handle (F D : Type) where
  | null
  | noInternal (hyp : Text.Str) (ll : F)
  | noRecognizer (u : Utt F)
  | ready (r : Rec F D) (u : Utt F)

/-- `CheckParamUtt`, `src/ce_stt.cc` 135-154: 0 or `CE_STT_FAILED`, and the message. -/
def checkParamUtt {F D : Type} (h : Handle F D) (msg : Msg) : Int × Msg :=
  match h with
  | .null => (-1, .uttNull)
  | .noInternal _ _ => (-1, .internalNull)
  | .noRecognizer _ => (-1, .recognizerNull)
  | .ready _ _ => (0, msg)

/-- `ce_stt_process`, `src/ce_stt.cc` 295-340: return value, utterance, message. -/
def processApi {F D : Type} (mem : Mem F) (h : Handle F D) (msg : Msg) (data : Option (List UInt8)) (size : Int) :
    Exec (Int × Handle F D × Msg) :=
  let (code, msg) := checkParamUtt h msg
  if code = -1 then .ok (-1, h, msg)
  else match h with
    | .ready r u =>
      match u.reader.process r.conv data size with
      | .error (.fault f) => .error f
      | .error (.status c) => .ok (-1, h, .status c)
      | .ok (xs, reader) => do
        let u' ← afterSamples r mem { u with reader := reader } xs
        .ok (xs.length, .ready r u', msg)
    | _ => .error .ub

/-- The end of `ce_stt_end_of_stream`, `src/ce_stt.cc` 350-361. -/
def finish {F D : Type} (r : Rec F D) (fill : Nat → UInt8) (u : Utt F) : Exec (Utt F) := do
  let (rows, inst) ← Am.endOfStream r.nn r.am u.back.am []
  let d ← rows.foldlM (fun d row => do
    let (_, _, d) ← Decoder.process r.dec r.fuel row d
    .ok d) u.back.dec
  let back ← storeHyp r fill { u.back with am := inst, dec := Decoder.endOfStream d }
  .ok { u with back := back }

/-- `ce_stt_end_of_stream`, `src/ce_stt.cc` 342-362: `c_utt->internal` is read before anything is checked. -/
def endApi {F D : Type} (fill : Nat → UInt8) (h : Handle F D) (msg : Msg) : Exec (Handle F D × Msg) :=
  match h with
  | .null => .error .ub
  | _ =>
    let (code, msg) := checkParamUtt h msg
    if code = -1 then .ok (h, msg)
    else match h with
      | .ready r u => do
        let u' ← finish r fill u
        .ok (.ready r u', msg)
      | _ => .error .ub

/-- `ce_utt_init`, `src/ce_stt.cc` 256-283; `none` for the recogniser is a null pointer, which is dereferenced.  The
result `Handle.null` is the null pointer returned for an unsupported format. -/
def initApi {F D : Type} (rec : Option (Rec F D)) (format : Pcm.Format) (msg : Msg) : Exec (Handle F D × Msg) :=
  match rec with
  | none => .error .ub
  | some r => do
    let d ← Decoder.initDecoder r.dec r.fuel Decoder.fresh
    match Pcm.Reader.new.setFormat format with
    | .error (.fault f) => .error f
    | .error (.status c) => .ok (.null, .status c)
    | .ok reader => .ok (.ready r ⟨reader, [], ⟨Am.Inst.new, d, [0], r.zero⟩⟩, msg)

/-- A stream fed piece by piece, every piece with its own memory: what `ProcessAudio`, `src/main.cc` 39-45, does. -/
def feedApi {F D : Type} : List (Mem F × List UInt8) → Handle F D → Msg → Exec (Handle F D × Msg)
  | [], h, msg => .ok (h, msg)
  | (mem, c) :: cs, h, msg => do
    let (_, h, msg) ← processApi mem h msg (some c) c.length
    feedApi cs h msg

/-- A whole utterance through the interface, `src/main.cc` 35-47. -/
def recognise {F D : Type} (r : Rec F D) (format : Pcm.Format) (fill : Nat → UInt8)
    (cs : List (Mem F × List UInt8)) : Exec (Handle F D × Msg) := do
  let (h, msg) ← initApi (some r) format .none
  let (h, msg) ← feedApi cs h msg
  endApi fill h msg

end Verif.Stt
