import Verif.LoudModel
import Verif.MainSpec

/-!
# What standard output is for
-/

namespace Verif.Loud.Spec

open Verif Verif.Fst

variable {W F D G : Type}

/-- What is left of the output when the warnings are taken out. -/
def results (out : List Out) : List Main.Out := out.filterMap fun
  | .result o => some o
  | .warning _ => none

/-- What is not a number is neither smaller than the floor of the energies nor passes for a number that has a logarithm. -/
structure NanLike (isNan : F → Bool) (o : Fbank.Ops F) : Prop where
  lt : ∀ x, isNan x = true → o.lt x o.eps = false
  nonneg : ∀ x, isNan x = true → o.nonneg x = false

/-- From state `s` the language model finds the word `w`, after finitely many backoff arcs, and goes to `s'`. -/
def Finds (t : Transducer W) (s : Nat) (w : Int) (s' : Nat) : Prop :=
  ∃ bs e a, Chain t w s bs e ∧ firstArc t e w = some a ∧ a.next = (s' : Int)

/-- From state `s` the language model does not find the word `w`: the backoff arcs, fewer than `depth`, lead to a state
that has neither the word nor a backoff arc. -/
def Lacks (t : Transducer W) (depth s : Nat) (w : Int) : Prop :=
  ∃ bs e, bs.length < depth ∧ Chain t w s bs e ∧ e < t.states.length ∧ firstArc t e w = none ∧ firstArc t e 0 = none

/-- The language model covers the words: it finds the begin of the sentence, and from wherever it gets, every word. -/
def Covers (t : Transducer W) (begin : Int) (words : Int → Prop) : Prop :=
  ∃ S : Nat → Prop, (∃ s s' : Nat, t.start = (s : Int) ∧ Finds t s begin s' ∧ S s') ∧
    ∀ s, S s → ∀ w, words w → w ≠ 0 → ∃ s', Finds t s w s' ∧ S s'

/-- The words of a decoding graph. -/
def WordOf (g : Decoder.Graph F) (w : Int) : Prop := ∃ s, ∃ a ∈ g.arcs s, a.olabel = w

/-- The begin of the sentence has the number `id`. -/
def Begins (m : App.Spec.Model G) (id : Int) : Prop :=
  Text.IsLast (m.symbols.map fun e => (e.word, (e.id : Int))) Text.sentBegin id

end Verif.Loud.Spec
