import Verif.MainModel
import Verif.SayModel

/-!
# Model of the program with all that it writes

`Verif.Main` has the results of the program and the places where it writes a message.  Here is what the messages say,
and every byte that goes to standard output (without the warnings of `PK_WARN`, see `Verif.Loud`). -/

namespace Verif.Tell

open Verif Verif.Text Verif.Main Verif.Msg

variable {G F D : Type}

/-- What is written: a line, a message with its text as it is written, or the description of the usage.
`src/main.cc` 16, 22, 65, 72, 79-82, 99. -/
inductive Out where
  | line (s : Str)
  | message (bytes : Str)
  | usage
deriving DecidableEq

/-- The four lines of `print_usage`, `src/main.cc` 79-82. -/
def usageText : Str :=
  [85, 115, 97, 103, 101, 58, 32, 112, 111, 99, 107, 101, 116, 107, 97, 108, 100, 105, 32, 60, 109, 111, 100, 101,
  108, 45, 102, 105, 108, 101, 62, 32, 60, 105, 110, 112, 117, 116, 45, 102, 105, 108, 101, 62] ++ [10] ++ [32, 32,
  73, 110, 112, 117, 116, 45, 102, 105, 108, 101, 58] ++ [10] ++
    [32, 32, 32, 32, 42, 46, 119, 97, 118, 58, 32, 100, 101, 99, 111, 100, 101, 32, 116, 104, 105, 115, 32, 102, 105,
  108, 101, 46] ++ [10] ++ [32, 32, 32, 32, 42, 46, 115, 99, 112, 58, 32, 100, 101, 99, 111, 100, 101, 32, 97, 117,
  100, 105, 111, 115, 32, 108, 105, 115, 116, 101, 100, 32, 105, 110, 32, 105, 116, 46] ++ [10]

/-- The bytes on standard output.  `src/main.cc` 16, 22, 65, 72, 79-82, 99. -/
def Out.bytes : Out → Str
  | .line s => s ++ [10]
  | .message t => t
  | .usage => usageText

/-- A piece of a run: what it writes, and its value or the end of the program.  `src/main.cc` 28-106. -/
structure Prog (α : Type) where
  out : List Out
  res : Except End α
deriving DecidableEq

/-- All bytes on standard output, in order.  `src/main.cc` 28-106. -/
def Prog.bytes {α : Type} (p : Prog α) : Str := (p.out.map Out.bytes).flatten

/-- One piece after the other.  Sequencing in `src/main.cc` 28-106. -/
def Prog.bind {α β : Type} (p : Prog α) (f : α → Prog β) : Prog β :=
  match p.res with
  | .error e => ⟨p.out, .error e⟩
  | .ok a => ⟨p.out ++ (f a).out, (f a).res⟩

/-- A computation without output.  Calls in `src/main.cc` 28-106. -/
def Prog.lift {α : Type} : Exec α → Prog α
  | .ok a => ⟨[], .ok a⟩
  | .error f => ⟨[], .error (.fault f)⟩

/-- `printf` or `puts` of a result.  `src/main.cc` 72, 99. -/
def Prog.say (s : Str) : Prog Unit := ⟨[.line s], .ok ()⟩

/-- `Fatal`, `src/main.cc` 15-18; `%s` ends at a NUL. -/
def fatal {α : Type} (msg : Str) : Prog α := ⟨[.message ([101, 114, 114, 111, 114, 58, 32] ++ cstr msg ++ [10])],
  .error (.exit 22)⟩

/-- `CheckStatus`, `src/main.cc` 20-25, with the text of the status; `none` is the status OK. -/
def checkStatus : Option Str → Prog Unit
  | none => ⟨[], .ok ()⟩
  | some what => ⟨[.message ([112, 97, 115, 99, 111, 58, 32] ++ cstr what ++ [10])], .error (.exit 1)⟩

/-- `print_usage`, `src/main.cc` 78-84. -/
def printUsage {α : Type} : Prog α := ⟨[.usage], .error (.exit 1)⟩

/-- `"unable to open: "`, `src/main.cc` 32. -/
def tUnable : Str := [117, 110, 97, 98, 108, 101, 32, 116, 111, 32, 111, 112, 101, 110, 58, 32]

/-- `src/main.cc` 35-51, behind the header, with `error_message` before and after it.  `ce_stt_process` gets a buffer
and a positive size here (39-44), so that it writes nothing to `error_message`. -/
def processData (rec : Option (Stt.Rec F D)) (junk : Junk F) (fmt : Pcm.Format) (data : List UInt8) (buf : Str) :
    Prog (Str × Str) :=
  (Prog.lift (Stt.initApi rec fmt .none)).bind fun p =>
    match p.1 with
    | .null => (Prog.lift (saying buf (setFormat Pcm.Reader.new fmt))).bind fun buf => fatal (lastError buf)
    | _ => (Prog.lift (runUtterance junk data p.1 p.2)).bind fun hyp => ⟨[], .ok (hyp, buf)⟩

/-- `ProcessAudio`, `src/main.cc` 28-52, with `error_message` before and after it. -/
def processAudio (w : App.World G) (rec : Option (Stt.Rec F D)) (junk : Junk F) (name buf : Str) : Prog (Str × Str) :=
  match w.file name with
  | none => fatal (tUnable ++ name)
  | some bs =>
    match Msg.readPcmHeader [] bs with
    | .error (.status _ t) => (Prog.lift (report buf t)).bind fun buf => fatal (lastError buf)
    | .error (.fault f) => ⟨[], .error (.fault f)⟩
    | .ok (fmt, data) => processData rec junk fmt data buf

/-- `"scp: unexpected line: %s\n"`, `src/main.cc` 65. -/
def unexpectedLine (line : Str) : Str := [115, 99, 112, 58, 32, 117, 110, 101, 120, 112, 101, 99, 116, 101, 100, 32,
  108, 105, 110, 101, 58, 32] ++ cstr line ++ [10]

/-- One line of a script file, `src/main.cc` 63-72. -/
def scpLine (w : App.World G) (rec : Option (Stt.Rec F D)) (junk : Junk F) (line buf : Str) : Prog Str :=
  (Prog.lift (split line [32])).bind fun fields =>
    match fields with
    | [name, wav] => (processAudio w rec junk wav buf).bind fun x =>
        (Prog.say (name ++ [32] ++ x.1)).bind fun _ => ⟨[], .ok x.2⟩
    | _ => ⟨[.message (unexpectedLine line)], .error (.exit 22)⟩

/-- The loop of `process_scp` and the check behind it, `src/main.cc` 61-74, for the script with the name `scp`; `junk i`
is the memory used for the line with number `i`, `fuel` bounds the iterations. -/
def scpLoop (w : App.World G) (rec : Option (Stt.Rec F D)) (junk : Nat → Junk F) (scp : Str) :
    Nat → Nat → File → Str → Prog Unit
  | 0, _, _, _ => ⟨[], .error (.fault .fuel)⟩
  | fuel + 1, i, f, buf =>
    match readLine f with
    | (.line l, f) => (scpLine w rec (junk i) l buf).bind fun buf => scpLoop w rec junk scp fuel (i + 1) f buf
    | (.done, _) => checkStatus none
    | (.ioError, _) => checkStatus (some (label .io ++ format tEof [scp]))

/-- `process_scp`, `src/main.cc` 55-75. -/
def processScp (w : App.World G) (rec : Option (Stt.Rec F D)) (junk : Nat → Junk F) (name buf : Str) : Prog Unit :=
  match w.file name with
  | none => checkStatus (some (label .io ++ format tOpen [name]))
  | some bs => scpLoop w rec junk name (bs.length + 2) 0 ⟨bs, false⟩ buf

/-- `src/main.cc` 96-102. -/
def processInput (w : App.World G) (rec : Option (Stt.Rec F D)) (junk : Nat → Junk F) (input buf : Str) : Prog Unit :=
  if input.drop (input.length - 4) = wavSuffix then (processAudio w rec (junk 0) input buf).bind fun x => Prog.say x.1
  else processScp w rec junk input buf

/-- `main`, `src/main.cc` 86-106, with the arguments behind the name of the program (strings without NUL).  The exit
code is 0 if it runs to the end. -/
def main (mach : Machine G F D) (w : App.World G) (junk : Nat → Junk F) : List Str → Prog Unit
  | [conf, input] =>
    if input.length < 4 then printUsage
    else (Prog.lift (Msg.init w conf ⟨0, []⟩ noMessage)).bind fun p =>
      match p.1 with
      | none => fatal (lastError p.2.2.2)
      | some (a, s) => (processInput w (mach.recogniser s) junk input p.2.2.2).bind fun _ =>
          (Prog.lift (App.destroy p.2.1 (some (a, s)))).bind fun _ => ⟨[], .ok ()⟩
  | _ => printUsage

end Verif.Tell
