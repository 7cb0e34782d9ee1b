import Verif.MainModel

/-!
# The program with its warnings

`PK_WARN` (`src/util.h` 40-41) writes a line to `std::cout`.  The models of the stages leave this out.  Here are the
functions on the way from `main` to the three places where a warning is written (`src/fbank.cc` 181, `src/decoder.cc`
135, `src/fst.cc` 269), once more, with what they write.  Whatever writes nothing is taken from the other models.
`std::cout` and `printf` share a buffer (the default), so that the order of the lines is the order of the calls.
-/

namespace Verif.Loud

open Verif Verif.Fst Verif.Decoder

/-- The three warnings: no arc for `<s>` in the large language model, a word of the graph that it does not know, and a
mel energy that is not a number.  `src/fst.cc` 269, `src/decoder.cc` 135, `src/fbank.cc` 181. -/
inductive Warning where
  | noBos
  | mismatch
  | nan
deriving DecidableEq, Repr

/-- A run that may write warnings: these, and its outcome.  `src/util.h` 40-41. -/
structure Talk (α : Type) where
  said : List Warning
  res : Exec α
deriving DecidableEq

/-- One piece of a run after the other.  There is no counterpart in /repo: the sequencing of C++. -/
def Talk.bind {α β : Type} (x : Talk α) (f : α → Talk β) : Talk β :=
  match x.res with
  | .error e => ⟨x.said, .error e⟩
  | .ok a => ⟨x.said ++ (f a).said, (f a).res⟩

instance : Monad Talk where
  pure a := ⟨[], .ok a⟩
  bind := Talk.bind

/-- A piece of a run that writes nothing.  There is no counterpart in /repo. -/
def Talk.lift {α : Type} (x : Exec α) : Talk α := ⟨[], x⟩

/-- `PK_WARN`, `src/util.h` 40-41. -/
def warn (w : Warning) : Talk Unit := ⟨[w], .ok ()⟩

variable {F D : Type}

/-! ## Features -/

/-- One mel energy and the test of `src/fbank.cc` 172-182. -/
def melBin (isNan : F → Bool) (o : Fbank.Ops F) (w : List F) (bin : Nat × List F) : Talk F := do
  let energy ← Talk.lift (Fbank.melBin o w bin)
  if isNan energy then do
    warn .nan
    pure energy
  else pure energy

/-- `Melbanks::Compute`, `src/fbank.cc` 165-184. -/
def melCompute (isNan : F → Bool) (o : Fbank.Ops F) (w : List F) : Talk (List F) := o.bins.mapM (melBin isNan o w)

/-- `Fbank::ComputeFrame`, `src/fbank.cc` 219-245. -/
def computeFrame (isNan : F → Bool) (o : Fbank.Ops F) (window buffer : List F) : Talk (List F × List F × List F) := do
  let (window, buffer) ← Talk.lift (o.fft window buffer)
  let window ← Talk.lift (Fbank.powerSpectrum o window)
  let energies ← melCompute isNan o window
  let feature ← Talk.lift (energies.mapM (Fbank.floorLog o))
  pure (feature, window, buffer)

/-- The loop of `Fbank::Process`, `src/fbank.cc` 297-303, for `n` more frames from frame `i` on. -/
def fbankLoop (isNan : F → Bool) (o : Fbank.Ops F) (wave : List F) :
    Nat → Nat → List F → List F → Talk (List (List F))
  | 0, _, _, _ => pure []
  | n + 1, i, window, buffer => do
    let window ← Talk.lift (Fbank.extractWindow o wave i window)
    let (feat, window, buffer) ← computeFrame isNan o window buffer
    Talk.lift (cassert (decide (feat.length = Fbank.fbankDim)))
    let rest ← fbankLoop isNan o wave n (i + 1) window buffer
    pure (feat :: rest)

/-- `Fbank::Process`, `src/fbank.cc` 265-314: the feature rows and the new buffer. -/
def fbankProcess (isNan : F → Bool) (o : Fbank.Ops F) (junk : Fbank.Junk F) (buf wave : List F) :
    Talk (List (List F) × List F) :=
  if wave.length = 0 then do
    Talk.lift (matInit 0 Fbank.fbankDim)
    pure ([], buf)
  else do
    let total ← Talk.lift (i32 ((buf.length : Int) + wave.length))
    Talk.lift (vecInit 4 total)
    let buf := buf ++ wave
    let numFrames := Fbank.calcNumFrames buf.length
    if numFrames = 0 then pure ([], buf)
    else do
      Talk.lift (matInit numFrames Fbank.fbankDim)
      let rows ← fbankLoop isNan o buf numFrames.toNat 0 junk.window junk.buffer
      let remove ← Talk.lift (i32 (Fbank.frameShift * numFrames))
      let next := (buf.length : Int) - remove
      Talk.lift (vecInit 4 next)
      pure (rows, (buf.drop remove.toNat).take next.toNat)

/-! ## Search -/

/-- The members of `DeltaLmFst`, `src/fst.h` 126-154, with the operations it uses: small and large language model, the
two symbols. -/
structure Lm (F : Type) where
  ops : FloatOps F
  small : List F
  large : IFst F
  bos : Int
  eos : Int

/-- `DeltaLmFst` as the decoder uses it, `src/fst.cc` 253-290. -/
def Lm.fst (l : Lm F) : IFst F := Fst.delta l.ops l.small l.large l.bos l.eos

/-- `DeltaLmFst::StartState`, `src/fst.cc` 263-272. -/
def startState (l : Lm F) : Talk Int := do
  let s ← Talk.lift l.large.start
  let r ← Talk.lift (l.large.getArc s l.bos)
  match r with
  | some a => pure a.next
  | none => do
    warn .noBos
    pure s

/-- `Decoder::PropogateLm`, `src/decoder.cc` 123-141: the new LM state and the weight. -/
def propagateLm (ar : Arith F D) (lm : IFst F) (s label : Int) : Talk (Int × F) :=
  if label ≠ 0 then do
    let r ← Talk.lift (lm.getArc s label)
    match r with
    | some a => pure (a.next, a.weight)
    | none => do
      warn .mismatch
      pure (s, ar.zero)
  else pure (s, ar.zero)

/-- The online composition, `src/decoder.cc` 271-277 and 360-365: new LM state and total cost. -/
def addLm (e : Env F D) (s label : Int) (total : D) : Talk (Int × D) :=
  match e.lm with
  | none => pure (s, total)
  | some lm => do
    let (s', w) ← propagateLm e.ar lm s label
    pure (s', e.ar.dadd total (e.ar.toD w))

/-- One arc in `Decoder::ProcessNonemitting`, `src/decoder.cc` 262-289: the language model is asked before the cost is
compared with the cutoff. -/
def nonemitArc (e : Env F D) (i : Nat) (cutoff : D) (acc : Dec F × List State) (arc : GArc F) :
    Talk (Dec F × List State) :=
  let (d, stack) := acc
  if arc.ilabel ≠ 0 then pure (d, stack) else
  match d.toks[i]? with
  | none => Talk.lift (.error .ub)
  | some tok => do
    let total := e.ar.toD (e.ar.fadd (e.ar.fadd tok.cost arc.weight) e.ar.zero)
    let (lm', total) ← addLm e tok.state.2 arc.olabel total
    if e.ar.dlt cutoff total then pure (d, stack) else do
    let (ins, d) ← Talk.lift (insertTok e d (arc.next, lm') arc.olabel tok.hist (e.ar.toF total))
    pure (d, if ins then (arc.next, lm') :: stack else stack)

/-- The `while` loop of `Decoder::ProcessNonemitting`, `src/decoder.cc` 250-291, bounded by `fuel` iterations. -/
def nonemitLoop (e : Env F D) (cutoff : D) : Nat → Dec F → List State → Talk (Dec F)
  | _, d, [] => pure d
  | 0, _, _ :: _ => Talk.lift (.error .fuel)
  | fuel + 1, d, st :: stack =>
    match d.idx.lookup st with
    | none => Talk.lift (.error .assert)
    | some i => do
      let (d, stack) ← (e.g.arcs st.1).foldlM (nonemitArc e i cutoff) (d, stack)
      nonemitLoop e cutoff fuel d stack

/-- `Decoder::ProcessNonemitting`, `src/decoder.cc` 240-292. -/
def processNonemitting (e : Env F D) (cutoff : D) (fuel : Nat) (d : Dec F) : Talk (Dec F) := do
  Talk.lift (cassert (d.toks.all (fun t => decide (0 ≤ t.state.1))))
  nonemitLoop e cutoff fuel d (d.toks.map (·.state)).reverse

/-- One arc of a token, `src/decoder.cc` 347-373. -/
def emitArc (e : Env F D) (frame : List F) (ab : F) (tok : Token F) (acc : D × Dec F) (arc : GArc F) :
    Talk (D × Dec F) :=
  let (nwc, d) := acc
  if arc.ilabel = 0 then pure (nwc, d) else do
    let total ← Talk.lift (emitTotal e frame tok.cost arc)
    if e.ar.dlt nwc total then pure (nwc, d) else do
    let (lm', total') ← addLm e tok.state.2 arc.olabel total
    Talk.lift (cassert (decide (0 ≤ arc.next ∧ 0 ≤ lm')))
    let (_, d) ← Talk.lift (insertTok e d (arc.next, lm') arc.olabel tok.hist (e.ar.toF total'))
    pure (tighten e.ar ab nwc total, d)

/-- One token of the loop `src/decoder.cc` 337-377. -/
def emitTok (e : Env F D) (frame : List F) (wc ab : F) (acc : D × Dec F) (tok : Token F) : Talk (D × Dec F) :=
  if e.ar.flt wc tok.cost then pure acc else do
    let (nwc, d) ← (e.g.arcs tok.state.1).foldlM (emitArc e frame ab tok) acc
    pure (nwc, { d with live := d.live - 1 })

/-- `Decoder::ProcessEmitting`, `src/decoder.cc` 295-383. -/
def processEmitting (e : Env F D) (frame : List F) (d : Dec F) : Talk (Option (Cutoffs F D) × Dec F) := do
  let d : Dec F := { d with idx := [], toks := d.prev, prev := d.toks }
  let (cut, ab, bestTok) ← Talk.lift (getCutoff e.ar d.prev)
  let wc := e.ar.toF cut
  if e.ar.finite (e.ar.toD wc) = false then pure (none, d) else do
  let nwc ← Talk.lift ((e.g.arcs bestTok.state.1).foldlM (bestArc e frame ab bestTok.cost) e.ar.inf)
  let (nwc, d') ← d.prev.foldlM (emitTok e frame wc ab) (nwc, d)
  pure (some ⟨wc, nwc⟩, { d' with prev := [] })

/-- `Decoder::Process`, `src/decoder.cc` 70-95. -/
def decode (e : Env F D) (fuel : Nat) (frame : List F) (d : Dec F) : Talk (Bool × Option (Cutoffs F D) × Dec F) := do
  let (c, d) ← processEmitting e frame d
  match c with
  | none => pure (false, none, d)
  | some c =>
    let cutoff := e.ar.toD (e.ar.toF c.next)
    if e.ar.finite cutoff = false then pure (false, some c, d) else do
    let d ← processNonemitting e cutoff fuel d
    if d.toks = [] then pure (false, some c, d) else
    pure (true, some c, { d with frames := d.frames + 1 })

/-! ## The C interface -/

/-- A recogniser whose language model is known by its parts, and the test `isnan`.  `src/ce_stt.cc` 41-49,
`src/fbank.cc` 180. -/
structure Rec (F D : Type) where
  base : Stt.Rec F D
  lm : Option (Lm F)
  isNan : F → Bool

/-- The recogniser as the other models see it: without the language model's parts.  `src/ce_stt.cc` 41-49. -/
def Rec.plain (r : Rec F D) : Stt.Rec F D := { r.base with dec := { r.base.dec with lm := r.lm.map Lm.fst } }

/-- `lm_start_state`, `src/decoder.cc` 113-116. -/
def lmStart (r : Rec F D) : Talk Int :=
  match r.lm with
  | some l => startState l
  | none => pure 0

/-- `Decoder::Initialize`, `src/decoder.cc` 104-121. -/
def initDecoder (r : Rec F D) (fuel : Nat) (d : Dec F) : Talk (Dec F) := do
  let e := r.plain.dec
  Talk.lift (cassert (decide (0 ≤ e.g.start)))
  let ls ← lmStart r
  let (_, d) ← Talk.lift (insertTok e { d with toks := [], prev := [] } (e.g.start, ls) 0 [] e.ar.zero)
  processNonemitting e e.ar.inf fuel { d with frames := 0 }

/-- One row of scores, `src/ce_stt.cc` 322-327. -/
def decodeRow (r : Rec F D) (fill : Nat → UInt8) (b : Stt.Back F) (row : List F) : Talk (Stt.Back F) := do
  let (_, _, d) ← decode r.plain.dec r.plain.fuel row b.dec
  if d.frames % 20 = 0 then Talk.lift (Stt.storeHyp r.plain fill { b with dec := d }) else pure { b with dec := d }

/-- The loop over the frames, `src/ce_stt.cc` 315-331. -/
def frameLoop (r : Rec F D) (fill : Nat → UInt8) : List (List F) → List (List F) → Stt.Back F → Talk (Stt.Back F)
  | _, [], b => pure b
  | out, f :: fs, b => do
    let (rows, inst) ← Talk.lift (Am.process r.plain.nn r.plain.am b.am f out)
    let b ← rows.foldlM (decodeRow r fill) { b with am := inst }
    frameLoop r fill rows fs b

/-- `ce_stt_process` behind `wave_reader.Process`, `src/ce_stt.cc` 309-333, on the samples. -/
def afterSamples (r : Rec F D) (mem : Stt.Mem F) (u : Stt.Utt F) (xs : List F) : Talk (Stt.Utt F) :=
  if xs.length = 0 then pure u
  else do
    let (feats, wave) ← fbankProcess r.isNan r.plain.fb mem.fb u.wave xs
    let back ← frameLoop r mem.fill [] feats u.back
    pure { u with wave := wave, back := back }

/-- `ce_stt_process`, `src/ce_stt.cc` 295-340, for an utterance of the recogniser `r` (that is what `ce_utt_init`
returns): what is done with the bytes.  A status other than OK leaves the utterance as it is. -/
def feed (r : Rec F D) (mem : Stt.Mem F) (data : List UInt8) (u : Stt.Utt F) : Talk (Stt.Utt F) :=
  match u.reader.process r.plain.conv (some data) data.length with
  | .error (.fault f) => Talk.lift (.error f)
  | .error (.status _) => pure u
  | .ok (xs, reader) => afterSamples r mem { u with reader := reader } xs

/-- `ce_stt_end_of_stream`, `src/ce_stt.cc` 342-362, for an utterance of the recogniser `r`. -/
def finish (r : Rec F D) (fill : Nat → UInt8) (u : Stt.Utt F) : Talk (Stt.Utt F) := do
  let (rows, inst) ← Talk.lift (Am.endOfStream r.plain.nn r.plain.am u.back.am [])
  let d ← rows.foldlM (fun d row => do
    let (_, _, d) ← decode r.plain.dec r.plain.fuel row d
    pure d) u.back.dec
  let back ← Talk.lift (Stt.storeHyp r.plain fill { u.back with am := inst, dec := Decoder.endOfStream d })
  pure { u with back := back }

/-- `ce_utt_init`, `src/ce_stt.cc` 256-283: `none` is the null pointer returned for an unsupported format. -/
def uttInit (r : Rec F D) (format : Pcm.Format) : Talk (Option (Stt.Utt F)) := do
  let d ← initDecoder r r.plain.fuel Decoder.fresh
  match Pcm.Reader.new.setFormat format with
  | .error (.fault f) => Talk.lift (.error f)
  | .error (.status _) => pure none
  | .ok reader => pure (some ⟨reader, [], ⟨Am.Inst.new, d, [0], r.plain.zero⟩⟩)

/-! ## The program -/

/-- What is written to standard output: what `main.cc` writes, or a warning.  `src/main.cc`, `src/util.h` 40-41. -/
inductive Out where
  | result (o : Main.Out)
  | warning (w : Warning)
deriving DecidableEq

/-- A piece of a run: what it writes, and its value or the end of the program.  `src/main.cc` 28-106. -/
structure Prog (α : Type) where
  out : List Out
  res : Except Main.End α
deriving DecidableEq

/-- One piece after the other.  Sequencing in `src/main.cc` 28-106. -/
def Prog.bind {α β : Type} (p : Prog α) (f : α → Prog β) : Prog β :=
  match p.res with
  | .error e => ⟨p.out, .error e⟩
  | .ok a => ⟨p.out ++ (f a).out, (f a).res⟩

/-- A call of the library: it writes warnings.  Calls in `src/main.cc` 28-106. -/
def Prog.call {α : Type} (t : Talk α) : Prog α :=
  ⟨t.said.map .warning, match t.res with
    | .ok a => .ok a
    | .error f => .error (.fault f)⟩

/-- A piece of the program that calls nothing which warns.  `src/main.cc` 28-106. -/
def Prog.quiet {α : Type} (p : Main.Prog α) : Prog α := ⟨p.out.map .result, p.res⟩

/-- The loop of `src/main.cc` 39-44; see `Main.audioLoop`. -/
def audioLoop (r : Rec F D) (mem : Nat → Stt.Mem F) : Nat → Nat → Bool → List UInt8 → Stt.Utt F → Talk (Stt.Utt F)
  | 0, _, _, _, _ => Talk.lift (.error .fuel)
  | fuel + 1, i, eof, rest, u =>
    if eof then pure u
    else
      let buffer := rest.take 1024
      if buffer.length = 0 then pure u
      else do
        let u ← feed r (mem i) buffer u
        audioLoop r mem fuel (i + 1) (decide (buffer.length < 1024)) (rest.drop 1024) u

/-- `src/main.cc` 38-51, with an utterance. -/
def runUtterance (r : Rec F D) (junk : Main.Junk F) (data : List UInt8) (u : Stt.Utt F) : Talk Text.Str := do
  let u ← audioLoop r junk.piece (data.length + 2) 0 false data u
  let u ← finish r junk.last u
  Talk.lift (Main.fromC u.back.hyp)

/-- `src/main.cc` 36-51: what `ce_utt_init` returned is looked at. -/
def withUtterance (r : Rec F D) (junk : Main.Junk F) (data : List UInt8) : Option (Stt.Utt F) → Prog Text.Str
  | none => .quiet Main.fatal
  | some u => .call (runUtterance r junk data u)

/-- `src/main.cc` 35-51, behind the header.  `none` for the recogniser: a null pointer in it is dereferenced. -/
def processData (rec : Option (Rec F D)) (junk : Main.Junk F) (fmt : Pcm.Format) (data : List UInt8) : Prog Text.Str :=
  match rec with
  | none => .call (Talk.lift (.error .ub))
  | some r => (Prog.call (uttInit r fmt)).bind (withUtterance r junk data)

variable {G : Type}

/-- `ProcessAudio`, `src/main.cc` 28-52. -/
def processAudio (w : App.World G) (rec : Option (Rec F D)) (junk : Main.Junk F) (name : Text.Str) : Prog Text.Str :=
  match w.file name with
  | none => .quiet Main.fatal
  | some bs =>
    match Pcm.readPcmHeader bs with
    | .error (.status _) => .quiet Main.fatal
    | .error (.fault f) => ⟨[], .error (.fault f)⟩
    | .ok (fmt, data) => processData rec junk fmt data

/-- One line of a script file, `src/main.cc` 63-72. -/
def scpLine (w : App.World G) (rec : Option (Rec F D)) (junk : Main.Junk F) (line : Text.Str) : Prog Unit :=
  (Prog.quiet (Main.Prog.lift (Text.split line [32]))).bind fun fields =>
    match fields with
    | [name, wav] => (processAudio w rec junk wav).bind fun hyp => .quiet (Main.Prog.say (name ++ [32] ++ hyp))
    | _ => .quiet ⟨[.message], .error (.exit 22)⟩

/-- The loop of `process_scp` and the check behind it, `src/main.cc` 61-74; see `Main.scpLoop`. -/
def scpLoop (w : App.World G) (rec : Option (Rec F D)) (junk : Nat → Main.Junk F) : Nat → Nat → Text.File → Prog Unit
  | 0, _, _ => ⟨[], .error (.fault .fuel)⟩
  | fuel + 1, i, f =>
    match Text.readLine f with
    | (.line l, f) => (scpLine w rec (junk i) l).bind fun _ => scpLoop w rec junk fuel (i + 1) f
    | (.done, _) => .quiet (Main.checkStatus none)
    | (.ioError, _) => .quiet (Main.checkStatus (some .io))

/-- `process_scp`, `src/main.cc` 55-75. -/
def processScp (w : App.World G) (rec : Option (Rec F D)) (junk : Nat → Main.Junk F) (name : Text.Str) : Prog Unit :=
  match w.file name with
  | none => .quiet (Main.checkStatus (some .io))
  | some bs => scpLoop w rec junk (bs.length + 2) 0 ⟨bs, false⟩

/-- `src/main.cc` 96-102. -/
def processInput (w : App.World G) (rec : Option (Rec F D)) (junk : Nat → Main.Junk F) (input : Text.Str) : Prog Unit :=
  if input.drop (input.length - 4) = Main.wavSuffix then
    (processAudio w rec (junk 0) input).bind fun hyp => .quiet (Main.Prog.say hyp)
  else processScp w rec junk input

/-- The parts of the language model of a recogniser, `src/ce_stt.cc` 42-48, 104-112: see `Main.Machine.lmOf`. -/
def lmOf (mach : Main.Machine G F D) (s : App.Self G) : Option (Option (Lm F)) :=
  match s.delta, s.original, s.large with
  | none, _, _ => some none
  | some (_, e), some (_, some u), some (_, some l) =>
    some (some ⟨mach.lm, u.map fun x => mach.word (some x),
      lmFst mach.lm (Main.fstOf mach.word l.fst) (l.bucket.map (·.map (Main.arcOf mach.word))) mach.lmFuel, e.1, e.2⟩)
  | _, _, _ => none

/-- The recogniser `ce_utt_init` gets, `src/ce_stt.cc` 256-283: that of `Main.Machine.recogniser`, and the parts of the
language model. -/
def recogniser (mach : Main.Machine G F D) (isNan : F → Bool) (s : App.Self G) : Option (Rec F D) :=
  match mach.recogniser s, lmOf mach s with
  | some r, some lm => some ⟨r, lm, isNan⟩
  | _, _ => none

/-- `main`, `src/main.cc` 86-106, with the arguments behind the name of the program.  `ce_stt_init` writes no warning. -/
def main (mach : Main.Machine G F D) (isNan : F → Bool) (w : App.World G) (junk : Nat → Main.Junk F) :
    List Text.Str → Prog Unit
  | [conf, input] =>
    if input.length < 4 then .quiet Main.printUsage
    else (Prog.quiet (Main.Prog.lift (App.init w conf ⟨0, []⟩))).bind fun p =>
      match p.1 with
      | none => .quiet Main.fatal
      | some (a, s) => (processInput w (recogniser mach isNan s) junk input).bind fun _ =>
          (Prog.quiet (Main.Prog.lift (App.destroy p.2.1 (some (a, s))))).bind fun _ => .quiet (pure ())
  | _ => .quiet Main.printUsage

end Verif.Loud
