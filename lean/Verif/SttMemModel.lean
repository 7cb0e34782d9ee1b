import Verif.SttModel
import Verif.MdecModel

/-!
# Model of the C interface with the memory of the decoder, `src/ce_stt.cc`

In `SttModel` the decoder is the one whose tokens and word histories are values.  Here it is the one with its memory
(pool of tokens, hash table of states, collected word histories, arc cache), as it is in the program; everything in front
of it is the same.  Simplification: the pointers a caller passes are those the interface returned (others are the subject
of C43).
-/

namespace Verif.SttMem

open Verif

variable {F D : Type}

/-- The acoustic model's buffer, the decoder (`ce_utt_internal_t`, `src/ce_stt.cc` 57-58) and the result fields of
`ce_utt_t` (`src/ce_stt.h` 36-37). -/
structure Back (F : Type) where
  am : Am.Inst F
  dec : Mdec.Mem F
  hyp : Text.Str
  ll : F

/-- `ce_utt_t` and `ce_utt_internal_t`, `src/ce_stt.h` 34-38 and `src/ce_stt.cc` 53-59. -/
structure Utt (F : Type) where
  reader : Pcm.Reader
  wave : List F
  back : Back F

/-- `StoreHypText`, `src/ce_stt.cc` 158-189. -/
def storeHyp (r : Stt.Rec F D) (fill : Nat → UInt8) (b : Back F) : Exec (Back F) := do
  let (words, weight) ← Mdec.bestPath r.dec b.dec
  let hyp ← Text.storeHypText r.syms words fill
  .ok { b with hyp := hyp, ll := if words.isEmpty then b.ll else r.perFrame weight b.dec.frames.toNat }

/-- One row of scores, `src/ce_stt.cc` 322-329. -/
def decodeRow (r : Stt.Rec F D) (fill : Nat → UInt8) (b : Back F) (row : List F) : Exec (Back F) := do
  let (_, _, d) ← Mdec.process r.dec r.fuel row b.dec
  if d.frames.tmod 20 = 0 then storeHyp r fill { b with dec := d } else .ok { b with dec := d }

/-- The loop over the frames, `src/ce_stt.cc` 315-331; `out` is the old content of `log_prob`. -/
def frameLoop (r : Stt.Rec F D) (fill : Nat → UInt8) : List (List F) → List (List F) → Back F → Exec (Back F)
  | _, [], b => .ok b
  | out, f :: fs, b => do
    let (rows, inst) ← Am.process r.nn r.am b.am f out
    let b ← rows.foldlM (decodeRow r fill) { b with am := inst }
    frameLoop r fill rows fs b

/-- `ce_stt_process` behind `wave_reader.Process`, `src/ce_stt.cc` 309-333, on the samples. -/
def afterSamples (r : Stt.Rec F D) (mem : Stt.Mem F) (u : Utt F) (xs : List F) : Exec (Utt F) := do
  if xs.length = 0 then .ok u
  else do
    let (feats, wave) ← Fbank.process r.fb mem.fb u.wave xs
    let back ← frameLoop r mem.fill [] feats u.back
    .ok { u with wave := wave, back := back }

/-- `ce_stt_process`, `src/ce_stt.cc` 295-340: return value, utterance, message. -/
def processApi (r : Stt.Rec F D) (mem : Stt.Mem F) (u : Utt F) (msg : Stt.Msg) (data : Option (List UInt8)) (size : Int) :
    Exec (Int × Utt F × Stt.Msg) :=
  match u.reader.process r.conv data size with
  | .error (.fault f) => .error f
  | .error (.status c) => .ok (-1, u, .status c)
  | .ok (xs, reader) => do
    let u' ← afterSamples r mem { u with reader := reader } xs
    .ok (xs.length, u', msg)

/-- `ce_stt_end_of_stream`, `src/ce_stt.cc` 342-362. -/
def endApi (r : Stt.Rec F D) (fill : Nat → UInt8) (u : Utt F) : Exec (Utt F) := do
  let (rows, inst) ← Am.endOfStream r.nn r.am u.back.am []
  let d ← rows.foldlM (fun d row => do
    let (_, _, d) ← Mdec.process r.dec r.fuel row d
    .ok d) u.back.dec
  let back ← storeHyp r fill { u.back with am := inst, dec := Mdec.endOfStream d }
  .ok { u with back := back }

/-- `ce_utt_init`, `src/ce_stt.cc` 256-283, with the constructor of the decoder, `src/decoder.cc` 49-64; `none` is the
null pointer returned for an unsupported format. -/
def initApi (r : Stt.Rec F D) (format : Pcm.Format) (msg : Stt.Msg) : Exec (Option (Utt F) × Stt.Msg) := do
  let m ← Mdec.new
  let d ← Mdec.initDecoder r.dec r.fuel m
  match Pcm.Reader.new.setFormat format with
  | .error (.fault f) => .error f
  | .error (.status c) => .ok (none, .status c)
  | .ok reader => .ok (some ⟨reader, [], ⟨Am.Inst.new, d, [0], r.zero⟩⟩, msg)

/-- A stream fed piece by piece, every piece with its own memory: what `ProcessAudio`, `src/main.cc` 39-45, does. -/
def feedApi (r : Stt.Rec F D) : List (Stt.Mem F × List UInt8) → Utt F → Stt.Msg → Exec (Utt F × Stt.Msg)
  | [], u, msg => .ok (u, msg)
  | (mem, c) :: cs, u, msg => do
    let (_, u, msg) ← processApi r mem u msg (some c) c.length
    feedApi r cs u msg

/-- A whole utterance through the interface, `src/main.cc` 35-47.  Without an utterance `ce_stt_end_of_stream` follows
a null pointer, which is undefined. -/
def recognise (r : Stt.Rec F D) (format : Pcm.Format) (fill : Nat → UInt8) (cs : List (Stt.Mem F × List UInt8)) :
    Exec (Utt F × Stt.Msg) := do
  match ← initApi r format .none with
  | (none, _) => .error .ub
  | (some u, msg) => do
    let (u, msg) ← feedApi r cs u msg
    let u ← endApi r fill u
    .ok (u, msg)

end Verif.SttMem
