import Verif.HearModel
import Verif.SttMemModel

/-!
# Model of the C interface with all of its memory, `src/ce_stt.cc`

In `SttMemModel` the decoder has its memory, and what is in front of it works on values.  Here the samples, the wave buffer,
the features, the frames of the acoustic model and the scores are in memory as well.  The blocks of `float` of the front end
and the memory of the decoder are apart from each other: no pointer leads from one to the other.
-/

namespace Verif.Whole

open Mat (Heap View)
open VecMem (Vec destroy)
open FbankMem (TabM samplesM processM)
open AmMem (ModelM InstM rowsOf readMat popFront)

variable {F D : Type}

/-- `ce_utt_t` and `ce_utt_internal_t`, `src/ce_stt.h` 34-38 and `src/ce_stt.cc` 53-59.  The field `am` of `back` is not
used: `am_inst` is in `front`. -/
structure Utt (F : Type) where
  reader : Pcm.Reader
  front : Hear.Utt
  back : SttMem.Back F

/-- What is in the memory that one call allocates: the `float`s and the characters.  `src/ce_stt.cc` 179, 186, 267 and
`src/fbank.cc` 294-296. -/
structure Wild (F : Type) where
  floats : Nat → F
  chars : Nat → UInt8

/-- The loop over the frames, `src/ce_stt.cc` 317-331.  The rows of `log_prob` are read before the first of them is
decoded; in the code each is read when its turn comes, and the decoder does not write to them. -/
def frameLoop (r : Stt.Rec F D) (M : ModelM) (fill : Nat → UInt8) :
    InstM → View → List Vec → SttMem.Back F → Heap F → Exec (InstM × View × SttMem.Back F × Heap F)
  | inst, out, [], b, h => .ok (inst, out, b, h)
  | inst, out, f :: fs, b, h => do
    let p ← AmMem.process r.nn M inst f out h
    let xs ← readMat p.1 p.2.2
    let b ← xs.foldlM (SttMem.decodeRow r fill) b
    frameLoop r M fill p.2.1 p.1 fs b p.2.2

/-- `ce_stt_process` behind `wave_reader.Process`, `src/ce_stt.cc` 309-333, on the samples `y`, with the destructors of
`log_prob`, `feats` and `samples` at the end. -/
def afterSamples (r : Stt.Rec F D) (t : TabM) (M : ModelM) (wild : Wild F) (u : Utt F) (y : List F) (h : Heap F) :
    Exec (Utt F × Heap F) := do
  let s ← samplesM r.fb y h
  if s.1.dim = 0 then do
    let h ← destroy s.1 s.2
    .ok (u, h)
  else do
    let p ← processM r.fb t wild.floats u.front.buf s.1 .empty s.2
    let vs ← rowsOf p.2.1
    let q ← frameLoop r M wild.chars u.front.am .empty vs u.back p.2.2
    let h ← Mat.destroy q.2.1 q.2.2.2
    let h ← Mat.destroy p.2.1 h
    let h ← destroy s.1 h
    .ok ({ u with front := ⟨p.1, q.1⟩, back := q.2.2.1 }, h)

/-- `ce_stt_process`, `src/ce_stt.cc` 295-340: return value, utterance, message. -/
def processApi (r : Stt.Rec F D) (t : TabM) (M : ModelM) (wild : Wild F) (u : Utt F) (msg : Stt.Msg)
    (data : Option (List UInt8)) (size : Int) (h : Heap F) : Exec (Int × Utt F × Stt.Msg × Heap F) :=
  match u.reader.process r.conv data size with
  | .error (.fault f) => .error f
  | .error (.status c) => .ok (-1, u, .status c, h)
  | .ok (xs, reader) => do
    let p ← afterSamples r t M wild { u with reader := reader } xs h
    .ok (xs.length, p.1, msg, p.2)

/-- `ce_stt_end_of_stream`, `src/ce_stt.cc` 342-362, with the destructor of `log_prob`. -/
def endApi (r : Stt.Rec F D) (M : ModelM) (fill : Nat → UInt8) (u : Utt F) (h : Heap F) : Exec (Utt F × Heap F) := do
  let p ← AmMem.endOfStream r.nn M u.front.am .empty h
  let rows ← readMat p.1 p.2.2
  let d ← rows.foldlM (fun d row => do
    let (_, _, d) ← Mdec.process r.dec r.fuel row d
    .ok d) u.back.dec
  let back ← SttMem.storeHyp r fill { u.back with dec := Mdec.endOfStream d }
  let h ← Mat.destroy p.1 p.2.2
  .ok ({ u with front := ⟨u.front.buf, p.2.1⟩, back := back }, h)

/-- `ce_utt_init`, `src/ce_stt.cc` 256-283; `none` is the null pointer returned for an unsupported format.  Nothing of the
front end is allocated. -/
def initApi (r : Stt.Rec F D) (format : Pcm.Format) (msg : Stt.Msg) : Exec (Option (Utt F) × Stt.Msg) := do
  let m ← Mdec.new
  let d ← Mdec.initDecoder r.dec r.fuel m
  match Pcm.Reader.new.setFormat format with
  | .error (.fault f) => .error f
  | .error (.status c) => .ok (none, .status c)
  | .ok reader => .ok (some ⟨reader, ⟨.empty, .new⟩, ⟨Am.Inst.new, d, [0], r.zero⟩⟩, msg)

/-- The destructors of `am_inst` and of `fbank_inst` in `ce_utt_destroy`, `src/ce_stt.cc` 285-293 and 57-58. -/
def destroyFront (u : Utt F) (h : Heap F) : Exec (Heap F) := do
  let p ← popFront u.front.am.feats.length u.front.am.feats h
  destroy u.front.buf p.2

/-- A stream fed piece by piece: what `ProcessAudio`, `src/main.cc` 39-45, does. -/
def feedApi (r : Stt.Rec F D) (t : TabM) (M : ModelM) :
    List (Wild F × List UInt8) → Utt F → Stt.Msg → Heap F → Exec (Utt F × Stt.Msg × Heap F)
  | [], u, msg, h => .ok (u, msg, h)
  | (wild, c) :: cs, u, msg, h => do
    let p ← processApi r t M wild u msg (some c) c.length h
    feedApi r t M cs p.2.1 p.2.2.1 p.2.2.2

/-- A whole utterance through the interface, `src/main.cc` 35-47: text, likelihood, the decoder's memory, message, and the
front end's memory after `ce_utt_destroy`.  Without an utterance `ce_stt_end_of_stream` follows a null pointer, which is
undefined. -/
def recognise (r : Stt.Rec F D) (t : TabM) (M : ModelM) (format : Pcm.Format) (fill : Nat → UInt8)
    (cs : List (Wild F × List UInt8)) (h : Heap F) : Exec ((Text.Str × F × Mdec.Mem F × Stt.Msg) × Heap F) := do
  match ← initApi r format .none with
  | (none, _) => .error .ub
  | (some u, msg) => do
    let p ← feedApi r t M cs u msg h
    let q ← endApi r M fill p.1 p.2.2
    let h ← destroyFront q.1 q.2
    .ok ((q.1.back.hyp, q.1.back.ll, q.1.back.dec, p.2.1), h)

end Verif.Whole
