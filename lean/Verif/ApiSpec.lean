import Verif.ApiModel

/-!
# What a user of the C interface relies on
-/

namespace Verif.Api.Spec

open Verif Verif.Text

variable {G F D : Type}

/-- The program has made these calls, in this order, and got these answers. -/
inductive Ran (mach : Main.Machine G F D) (w : App.World G) : List (Call F × Ret F) → Session G F → Prop
  | nil : Ran mach w [] .start
  | snoc {tr s c x s'} : Ran mach w tr s → step mach w s c = .ok (x, s') → Ran mach w (tr ++ [(c, x)]) s'

/-- The call is about the content of utterance `a`. -/
def About (a : Nat) : Call F → Bool
  | .process (some u) _ _ _ => u == a
  | .endOfStream (some u) _ => u == a
  | .look (some u) => u == a
  | _ => false

/-- The same call for utterance `b`. -/
def for' (b : Nat) : Call F → Call F
  | .process _ mem data size => .process (some b) mem data size
  | .endOfStream _ fill => .endOfStream (some b) fill
  | .look _ => .look (some b)
  | c => c

/-- What is seen of utterance `a` when all the rest is left out: a program that loads one recogniser, makes one utterance
and then does with it what was done with `a`, with the same answers. -/
def alone (name : Str) (format : Pcm.Format) (b a : Nat) (tr : List (Call F × Ret F)) : List (Call F × Ret F) :=
  (.sttInit name, .ptr (some 0)) :: (.uttInit (some 0) format, .ptr (some b)) ::
    (tr.filter fun p => About a p.1).map fun p => (for' b p.1, p.2)

/-- The call does more than look. -/
def notLook : Call F → Bool
  | .look _ => false
  | _ => true

/-- Utterance `a` was given the pieces `ds` and ended, and nothing else was done with it but looking. -/
def Fed (a : Nat) (ds : List (Stt.Mem F × List UInt8)) (fill : Nat → UInt8) (tr : List (Call F × Ret F)) : Prop :=
  (tr.map Prod.fst).filter (fun c => About a c && notLook c) =
    (ds.map fun d => .process (some a) d.1 (some d.2) d.2.length) ++ [.endOfStream (some a) fill]

/-- Recognisers that were tried to load. -/
def loads (tr : List (Call F × Ret F)) : Nat :=
  tr.countP fun p => match p.1 with
    | .sttInit _ => true
    | _ => false

/-- Everything that was made was destroyed. -/
structure Tidy (tr : List (Call F × Ret F)) : Prop where
  stts : ∀ name p, (Call.sttInit name, Ret.ptr (some p)) ∈ tr → ∃ x, (Call.sttDestroy (some p), x) ∈ tr
  utts : ∀ p f a, (Call.uttInit p f, Ret.ptr (some a)) ∈ tr → ∃ x, (Call.uttDestroy (some a), x) ∈ tr

end Verif.Api.Spec
