import Verif.InitModel
import Verif.SttModel

/-!
# Model of the program, `src/main.cc`

A run is the list of things written to standard output together with the way it ends.  Loading is that of
`Verif.InitModel`, recognition that of `Verif.SttModel`; `Machine.recogniser` joins the two: it makes a recogniser in the sense
of the latter from one in the sense of the former.
-/

namespace Verif.Main

open Verif Verif.Text

/-! ## From bits to numbers -/

/-- The arithmetic of the machine, and what the code compiled into it fixes.  `graph` are the accessors of the vendored
`ConstFst` (its states, arcs and final weights), `word` the value of a `float` with these bits (an indeterminate word
has some value), `conv` the conversion of samples, `fb` the feature extraction of `src/fbank.cc` with its tables, `nn`
and `ar` the operations of the network and of the decoder, `lm` those of the language model, `perFrame` the division of
`src/ce_stt.cc` 183.  `fuel` and `lmFuel` bound the loop over epsilon arcs and the recursion along backoff arcs. -/
structure Machine (G F D : Type) where
  graph : G → Decoder.Graph F
  word : Option Nat → F
  conv : Int → F
  fb : Fbank.Ops F
  nn : Nnet.Ops F
  ar : Decoder.Arith F D
  lm : Fst.FloatOps F
  amScale : F
  perFrame : F → Nat → F
  zero : F
  fuel : Nat
  lmFuel : Nat

variable {G F D : Type}

/-- The numbers of a layer, `src/nnet.h` 48-123: the same memory, read as `float`. -/
def layerOf (g : Option Nat → F) : Nnet.Layer (Option Nat) → Nnet.Layer F
  | .linear W b => .linear (W.map (·.map g)) (b.map g)
  | .relu => .relu
  | .normalize => .normalize
  | .softmax => .softmax
  | .splice idx => .splice idx
  | .batchNorm s t => .batchNorm (s.map g) (t.map g)
  | .logSoftmax => .logSoftmax
  | .narrow l r => .narrow l r

/-- The weight of an arc, `src/fst.h` 18-26, read as `float`. -/
def arcOf (g : Option Nat → F) (a : Fst.Arc UInt32) : Fst.Arc F :=
  ⟨a.next, a.ilabel, a.olabel, g (some a.weight.toNat)⟩

/-- The weights of an `Fst`, `src/fst.h` 87-95, read as `float`. -/
def fstOf (g : Option Nat → F) (f : Fst.Fst UInt32) : Fst.Fst F :=
  ⟨f.start, f.arcs.map (arcOf g), f.stateIdx, f.finals.map fun x => g (some x.toNat)⟩

/-- `recognizer->delta_lm_fst` as the decoder uses it, `src/ce_stt.cc` 110-114: the small language model, the large one
with its table, and the two symbols.  That the cache around it changes nothing is C15. -/
def Machine.deltaOf (mach : Machine G F D) (u : List Nat) (l : App.Lm) (e : Int × Int) : Fst.IFst F :=
  Fst.delta mach.lm (u.map fun x => mach.word (some x))
    (Fst.lmFst mach.lm (fstOf mach.word l.fst) (l.bucket.map (·.map (arcOf mach.word))) mach.lmFuel) e.1 e.2

/-- The language model of a recogniser: absent, or all parts are there (`DeltaLmFst` holds pointers to the other two).
`src/ce_stt.cc` 42-48, 104-112. -/
def Machine.lmOf (mach : Machine G F D) (s : App.Self G) : Option (Option (Fst.IFst F)) :=
  match s.delta, s.original, s.large with
  | none, _, _ => some none
  | some (_, e), some (_, some u), some (_, some l) => some (some (mach.deltaOf u l e))
  | _, _, _ => none

/-- The acoustic model, `src/am.h` 51-58, with numbers. -/
def Machine.amOf (mach : Machine G F D) (d : App.AmData) : Am.Model F :=
  ⟨d.net.layers.map (layerOf mach.word), d.logPrior.map fun x => mach.word (some x), d.left, d.right, d.chunk⟩

/-- The recogniser `ce_utt_init` gets, `src/ce_stt.cc` 256-283, as the stages see it: the decoder is made from
`recognizer->fst`, `am->TransitionPdfIdMap()`, 0.1 and `delta_lm_fst` (260-264).  `none` if a pointer is null or the
object behind it was not read. -/
def Machine.recogniser (mach : Machine G F D) (s : App.Self G) : Option (Stt.Rec F D) :=
  match s.fst, s.am, s.symbols, s.fbank, mach.lmOf s with
  | some (_, g), some (_, some d), some (_, some t), some _, some lm =>
    some ⟨mach.conv, mach.fb, mach.nn, mach.amOf d, ⟨mach.ar, mach.graph g, lm, d.tid2pdf, mach.amScale⟩, mach.fuel,
      t.words, mach.perFrame, mach.zero⟩
  | _, _, _, _, _ => none

/-! ## Runs of the program -/

/-- What is written to standard output: a line of text (without its newline), a message about an error (its text is not
modelled), or the description of the usage (`src/main.cc` 79-82). -/
inductive Out where
  | line (s : Str)
  | message
  | usage
deriving DecidableEq

/-- How a run ends before the end of `main`: `exit` with a code, or a fault.  `src/main.cc` 17, 23, 66, 83. -/
inductive End where
  | exit (code : Nat)
  | fault (f : Fault)
deriving DecidableEq

/-- A piece of a run: what it writes, and its value or the end of the program.  `src/main.cc` 28-106. -/
structure Prog (α : Type) where
  out : List Out
  res : Except End α
deriving DecidableEq

/-- One piece after the other.  Sequencing in `src/main.cc` 28-106. -/
def Prog.bind {α β : Type} (p : Prog α) (f : α → Prog β) : Prog β :=
  match p.res with
  | .error e => ⟨p.out, .error e⟩
  | .ok a => ⟨p.out ++ (f a).out, (f a).res⟩

instance : Monad Prog where
  pure a := ⟨[], .ok a⟩
  bind := Prog.bind

/-- A computation without output.  Calls in `src/main.cc` 28-106. -/
def Prog.lift {α : Type} : Exec α → Prog α
  | .ok a => ⟨[], .ok a⟩
  | .error f => ⟨[], .error (.fault f)⟩

/-- `printf` or `puts` of one line.  `src/main.cc` 16, 22, 65, 72, 79-82, 99. -/
def Prog.say (s : Str) : Prog Unit := ⟨[.line s], .ok ()⟩

/-- `Fatal`, `src/main.cc` 15-18. -/
def fatal {α : Type} : Prog α := ⟨[.message], .error (.exit 22)⟩

/-- `CheckStatus`, `src/main.cc` 20-25; `none` is the status OK. -/
def checkStatus : Option Code → Prog Unit
  | none => pure ()
  | some _ => ⟨[.message], .error (.exit 1)⟩

/-- `print_usage`, `src/main.cc` 78-84. -/
def printUsage {α : Type} : Prog α := ⟨[.usage], .error (.exit 1)⟩

/-- Indeterminate memory used while one file is recognised: for every piece, and at the end.  `src/main.cc` 38-46. -/
structure Junk (F : Type) where
  piece : Nat → Stt.Mem F
  last : Nat → UInt8

/-- The loop of `src/main.cc` 39-44; `eof` is the end-of-file indicator, which `fread` sets when it gets fewer bytes than
it was asked for; `i` counts the pieces.  The value of `ce_stt_process` is ignored.  `fuel` bounds the iterations. -/
def audioLoop (mem : Nat → Stt.Mem F) : Nat → Nat → Bool → List UInt8 → Stt.Handle F D → Stt.Msg →
    Exec (Stt.Handle F D × Stt.Msg)
  | 0, _, _, _, _, _ => .error .fuel
  | fuel + 1, i, eof, rest, h, msg =>
    if eof then .ok (h, msg)
    else
      let buffer := rest.take 1024
      if buffer.length = 0 then .ok (h, msg)
      else do
        let (_, h, msg) ← Stt.processApi (mem i) h msg (some buffer) buffer.length
        audioLoop mem fuel (i + 1) (decide (buffer.length < 1024)) (rest.drop 1024) h msg

/-- A C string in memory, as a `std::string`; without a NUL the bytes behind the array are read.  `src/main.cc` 47. -/
def fromC (s : Str) : Exec Str := if 0 ∈ s then .ok (cstr s) else .error .ub

/-- `utt->hyp`, `src/main.cc` 47. -/
def hypOf : Stt.Handle F D → Exec Str
  | .null => .error .ub
  | .noInternal hyp _ => fromC hyp
  | .noRecognizer u => fromC u.back.hyp
  | .ready _ u => fromC u.back.hyp

/-- `src/main.cc` 38-51, with an utterance.  What `ce_utt_destroy` and `fclose` do is not seen here, see C67. -/
def runUtterance (junk : Junk F) (data : List UInt8) (h : Stt.Handle F D) (msg : Stt.Msg) : Exec Str := do
  let (h, msg) ← audioLoop junk.piece (data.length + 2) 0 false data h msg
  let (h, _) ← Stt.endApi junk.last h msg
  hypOf h

/-- `src/main.cc` 35-51, behind the header. -/
def processData (rec : Option (Stt.Rec F D)) (junk : Junk F) (fmt : Pcm.Format) (data : List UInt8) : Prog Str :=
  (Prog.lift (Stt.initApi rec fmt .none)).bind fun p =>
    match p.1 with
    | .null => fatal
    | _ => Prog.lift (runUtterance junk data p.1 p.2)

/-- `ProcessAudio`, `src/main.cc` 28-52. -/
def processAudio (w : App.World G) (rec : Option (Stt.Rec F D)) (junk : Junk F) (name : Str) : Prog Str :=
  match w.file name with
  | none => fatal
  | some bs =>
    match Pcm.readPcmHeader bs with
    | .error (.status _) => fatal
    | .error (.fault f) => ⟨[], .error (.fault f)⟩
    | .ok (fmt, data) => processData rec junk fmt data

/-- One line of a script file, `src/main.cc` 63-72. -/
def scpLine (w : App.World G) (rec : Option (Stt.Rec F D)) (junk : Junk F) (line : Str) : Prog Unit :=
  (Prog.lift (split line [32])).bind fun fields =>
    match fields with
    | [name, wav] => (processAudio w rec junk wav).bind fun hyp => Prog.say (name ++ [32] ++ hyp)
    | _ => ⟨[.message], .error (.exit 22)⟩

/-- The loop of `process_scp` and the check behind it, `src/main.cc` 61-74; `junk i` is the memory used for the line
with number `i`, `fuel` bounds the iterations. -/
def scpLoop (w : App.World G) (rec : Option (Stt.Rec F D)) (junk : Nat → Junk F) : Nat → Nat → File → Prog Unit
  | 0, _, _ => ⟨[], .error (.fault .fuel)⟩
  | fuel + 1, i, f =>
    match readLine f with
    | (.line l, f) => (scpLine w rec (junk i) l).bind fun _ => scpLoop w rec junk fuel (i + 1) f
    | (.done, _) => checkStatus none
    | (.ioError, _) => checkStatus (some .io)

/-- `process_scp`, `src/main.cc` 55-75. -/
def processScp (w : App.World G) (rec : Option (Stt.Rec F D)) (junk : Nat → Junk F) (name : Str) : Prog Unit :=
  match w.file name with
  | none => checkStatus (some .io)
  | some bs => scpLoop w rec junk (bs.length + 2) 0 ⟨bs, false⟩

/-- `".wav"`, `src/main.cc` 97. -/
def wavSuffix : Str := [46, 119, 97, 118]

/-- `src/main.cc` 96-102. -/
def processInput (w : App.World G) (rec : Option (Stt.Rec F D)) (junk : Nat → Junk F) (input : Str) : Prog Unit :=
  if input.drop (input.length - 4) = wavSuffix then (processAudio w rec (junk 0) input).bind Prog.say
  else processScp w rec junk input

/-- `main`, `src/main.cc` 86-106, with the arguments behind the name of the program (strings without NUL).  The exit code
is 0 if it runs to the end. -/
def main (mach : Machine G F D) (w : App.World G) (junk : Nat → Junk F) : List Str → Prog Unit
  | [conf, input] =>
    if input.length < 4 then printUsage
    else (Prog.lift (App.init w conf ⟨0, []⟩)).bind fun p =>
      match p.1 with
      | none => fatal
      | some (a, s) => (processInput w (mach.recogniser s) junk input).bind fun _ =>
          (Prog.lift (App.destroy p.2.1 (some (a, s)))).bind fun _ => pure ()
  | _ => printUsage

end Verif.Main
