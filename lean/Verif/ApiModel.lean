import Verif.MainModel

/-!
# Model of a program that uses the C interface, `src/ce_stt.h`

`Verif.SttModel` is about one utterance, `Verif.InitModel` about one recogniser.  Here a program holds any number of
recognisers and utterances and calls the functions of `src/ce_stt.h` in any order, with any of the pointers it was
given.  What the objects share is in one state: the heap and `error_message`.

Simplifications: addresses are not used again after a block was deleted (a dangling pointer never points to a new
object); the programs do not write to the members of `ce_utt_t`; the text in `hyp` stays in its block (see C67 for its
replacement); `ce_read_pcm_header` is given the rest of the file as bytes, and the position in the file afterwards is left
out.  The objects behind a recogniser do not change after `ce_stt_init`: `Fbank::Process`, `AcousticModel::Process`, `SymbolTable::Get` are `const` members and
have no `mutable` data (`src/fbank.h` 57-59, `src/am.h` 42-47, `src/symbol_table.h` 26), the graph and the language model
are pointers to `const` in `Decoder` (`src/decoder.h` 69-72; the cache around the latter belongs to the decoder, 138).
-/

namespace Verif.Api

open Verif Verif.Text

variable {G F D : Type}

/-- Objects by address.  There is no counterpart in /repo. -/
abbrev Store (α : Type) := List (Nat × α)

/-- The object at an address, if there is one.  There is no counterpart in /repo. -/
def Store.get {α : Type} (l : Store α) (a : Nat) : Option α := (l.find? fun p => p.1 == a).map Prod.snd

/-- The store without the object at an address.  There is no counterpart in /repo. -/
def Store.del {α : Type} (l : Store α) (a : Nat) : Store α := l.filter fun p => p.1 != a

/-- The store with a new content of an address.  There is no counterpart in /repo. -/
def Store.put {α : Type} (l : Store α) (a : Nat) (x : α) : Store α := (a, x) :: l.del a

/-- `ce_utt_t` and `ce_utt_internal_t`, `src/ce_stt.h` 34-38 and `src/ce_stt.cc` 53-60: the blocks, the address in
`internal->recognizer`, and the rest. -/
structure Utt (F : Type) where
  mem : App.UttMem
  stt : Nat
  data : Stt.Utt F

/-- All there is: the heap, the recognisers, destroyed or not (`ce_stt_destroy`, `src/ce_stt.cc` 233-254, does not delete
the structure), the utterances that are not destroyed, `error_message` (65). -/
structure Session (G F : Type) where
  heap : App.Heap
  stts : Store (App.Self G)
  utts : Store (Utt F)
  msg : Stt.Msg

/-- Before the first call.  `src/ce_stt.cc` 65. -/
def Session.start : Session G F := ⟨⟨0, []⟩, [], [], .none⟩

/-- A call of a function of `src/ce_stt.h` 40-76, or a look at `hyp` and `loglikelihood_per_frame` (36-37) by the
caller.  A pointer is an `Option`; `mem` and `fill` are the contents of uninitialised memory that the call gets. -/
inductive Call (F : Type) where
  | sttInit (name : Str)
  | sttDestroy (p : Option Nat)
  | uttInit (p : Option Nat) (format : Pcm.Format)
  | uttDestroy (u : Option Nat)
  | process (u : Option Nat) (mem : Stt.Mem F) (data : Option (List UInt8)) (size : Int)
  | endOfStream (u : Option Nat) (fill : Nat → UInt8)
  | look (u : Option Nat)
  | readHeader (file : List UInt8)
  | lastError

/-- What the caller gets: nothing, a pointer, an `int32_t`, text and likelihood, a message, or a format or NULL.  `src/ce_stt.h` 40-76. -/
inductive Ret (F : Type) where
  | done
  | ptr (p : Option Nat)
  | code (n : Int)
  | text (hyp : Str) (ll : F)
  | message (m : Stt.Msg)
  | format (f : Option Pcm.Format)
deriving DecidableEq

/-- `ce_stt_init`, `src/ce_stt.cc` 193-231. -/
def sttInit (w : App.World G) (s : Session G F) (name : Str) : Exec (Ret F × Session G F) := do
  let (p, heap, c) ← App.init w name s.heap
  match p, c with
  | some (a, self), _ => .ok (.ptr (some a), { s with heap := heap, stts := s.stts.put a self })
  | none, some c => .ok (.ptr none, { s with heap := heap, msg := .status c })
  | none, none => .ok (.ptr none, { s with heap := heap })

/-- `ce_stt_destroy`, `src/ce_stt.cc` 233-254. -/
def sttDestroy (s : Session G F) : Option Nat → Exec (Ret F × Session G F)
  | none => .error .ub
  | some a =>
    match s.stts.get a with
    | none => .error .ub
    | some self => do
      let (heap, self) ← App.destroy s.heap (some (a, self))
      .ok (.done, { s with heap := heap, stts := s.stts.put a self })

/-- `ce_utt_init`, `src/ce_stt.cc` 256-283.  A destroyed recogniser has null members, and
`recognizer->am->TransitionPdfIdMap()` (262) is then undefined. -/
def uttInit (mach : Main.Machine G F D) (s : Session G F) (p : Option Nat) (format : Pcm.Format) :
    Exec (Ret F × Session G F) :=
  match p with
  | none => .error .ub
  | some a =>
    match s.stts.get a with
    | none => .error .ub
    | some self => do
      let (h, msg) ← Stt.initApi (mach.recogniser self) format s.msg
      match h with
      | .ready _ u => do
        let (m, heap) ← App.uttInit s.heap true
        match m with
        | some m => .ok (.ptr (some m.utt), { s with heap := heap, utts := s.utts.put m.utt ⟨m, a, u⟩, msg := msg })
        | none => .error .ub
      | _ => do
        let (_, heap) ← App.uttInit s.heap false
        .ok (.ptr none, { s with heap := heap, msg := msg })

/-- `ce_utt_destroy`, `src/ce_stt.cc` 285-293.  `Decoder::~Decoder`, `src/decoder.cc` 66-68, does not use the recogniser. -/
def uttDestroy (s : Session G F) : Option Nat → Exec (Ret F × Session G F)
  | none => .error .ub
  | some a =>
    match s.utts.get a with
    | none => .error .ub
    | some x => do
      let heap ← App.uttDestroy s.heap x.mem
      .ok (.done, { s with heap := heap, utts := s.utts.del a })

/-- `ce_stt_process` after `ce_stt_destroy` of the recogniser, `src/ce_stt.cc` 306-313: the reader belongs to the
utterance; with at least one sample, a member function of the null pointer `recognizer->fbank` is called. -/
def processOrphan (mach : Main.Machine G F D) (s : Session G F) (a : Nat) (x : Utt F) (data : Option (List UInt8))
    (size : Int) : Exec (Ret F × Session G F) :=
  match x.data.reader.process mach.conv data size with
  | .error (.fault f) => .error f
  | .error (.status c) => .ok (.code (-1), { s with msg := .status c })
  | .ok (xs, reader) =>
    if xs.length = 0 then
      .ok (.code 0, { s with utts := s.utts.put a { x with data := { x.data with reader := reader } } })
    else .error .ub

/-- `ce_stt_process`, `src/ce_stt.cc` 295-340. -/
def process (mach : Main.Machine G F D) (s : Session G F) (u : Option Nat) (mem : Stt.Mem F)
    (data : Option (List UInt8)) (size : Int) : Exec (Ret F × Session G F) :=
  match u with
  | none => do
    let (code, _, msg) ← Stt.processApi mem (.null : Stt.Handle F D) s.msg data size
    .ok (.code code, { s with msg := msg })
  | some a =>
    match s.utts.get a with
    | none => .error .ub
    | some x =>
      match s.stts.get x.stt with
      | none => .error .ub
      | some self =>
        match mach.recogniser self with
        | none => processOrphan mach s a x data size
        | some r => do
          let (code, h, msg) ← Stt.processApi mem (.ready r x.data) s.msg data size
          match h with
          | .ready _ d => .ok (.code code, { s with utts := s.utts.put a { x with data := d }, msg := msg })
          | _ => .error .ub

/-- `ce_stt_end_of_stream`, `src/ce_stt.cc` 342-362.  After `ce_stt_destroy` of the recogniser, a member function of the
null pointer `recognizer->am` is called (353). -/
def endOfStream (mach : Main.Machine G F D) (s : Session G F) (u : Option Nat) (fill : Nat → UInt8) :
    Exec (Ret F × Session G F) :=
  match u with
  | none => do
    let (_, msg) ← Stt.endApi fill (.null : Stt.Handle F D) s.msg
    .ok (.done, { s with msg := msg })
  | some a =>
    match s.utts.get a with
    | none => .error .ub
    | some x =>
      match s.stts.get x.stt with
      | none => .error .ub
      | some self =>
        match mach.recogniser self with
        | none => .error .ub
        | some r => do
          let (h, msg) ← Stt.endApi fill (.ready r x.data) s.msg
          match h with
          | .ready _ d => .ok (.done, { s with utts := s.utts.put a { x with data := d }, msg := msg })
          | _ => .error .ub

/-- The caller reads `utt->hyp`, as `src/main.cc` 47 does, and `utt->loglikelihood_per_frame`. -/
def look (s : Session G F) : Option Nat → Exec (Ret F × Session G F)
  | none => .error .ub
  | some a =>
    match s.utts.get a with
    | none => .error .ub
    | some x => do
      let hyp ← Main.fromC x.data.back.hyp
      .ok (.text hyp x.data.back.ll, s)

/-- `ce_read_pcm_header`, `src/ce_stt.cc` 364-373. -/
def readHeader (s : Session G F) (file : List UInt8) : Exec (Ret F × Session G F) :=
  match Pcm.readPcmHeader file with
  | .error (.fault f) => .error f
  | .error (.status c) => .ok (.format none, { s with msg := .status c })
  | .ok (format, _) => .ok (.format (some format), s)

/-- One call, `src/ce_stt.cc` 193-377. -/
def step (mach : Main.Machine G F D) (w : App.World G) (s : Session G F) : Call F → Exec (Ret F × Session G F)
  | .sttInit name => sttInit w s name
  | .sttDestroy p => sttDestroy s p
  | .uttInit p format => uttInit mach s p format
  | .uttDestroy u => uttDestroy s u
  | .process u mem data size => process mach s u mem data size
  | .endOfStream u fill => endOfStream mach s u fill
  | .look u => look s u
  | .readHeader file => readHeader s file
  | .lastError => .ok (.message s.msg, s)

/-- Call after call.  There is no counterpart in /repo: this is the program of a user of the library. -/
def run (mach : Main.Machine G F D) (w : App.World G) : Session G F → List (Call F) → Exec (List (Ret F) × Session G F)
  | s, [] => .ok ([], s)
  | s, c :: cs => do
    let (x, s) ← step mach w s c
    let (xs, s) ← run mach w s cs
    .ok (x :: xs, s)

end Verif.Api
