import Verif.EndSpec
import Verif.FstSpec

/-!
# Specification: backoff models that answer every question
-/

namespace Verif.Fst

open Verif

variable {W : Type}

/-- A backoff model: states are numbers an `int` holds; arcs lead to states of the model; backoff arcs lead downwards, and
there are fewer than `depth` levels; the states without a backoff arc (in an ARPA model that of the unigrams) have arcs for
the beginning and the end of a sentence. -/
structure Backoff (t : Transducer W) (depth : Nat) (bos eos : Int) : Prop where
  size : t.states.length ≤ 2 ^ 31
  start : ∃ s : Nat, t.start = (s : Int) ∧ s < t.states.length
  next : ∀ s l a, firstArc t s l = some a → ∃ d : Nat, a.next = (d : Int) ∧ d < t.states.length
  falls : ∃ level : Nat → Nat, (∀ s, level s < depth) ∧
    ∀ (s : Nat) a (d : Nat), firstArc t s 0 = some a → a.next = (d : Int) → level d < level s
  begins : bos ≠ 0 ∧ ∀ s, s < t.states.length → firstArc t s 0 = none → ∃ a, firstArc t s bos = some a
  ends : 0 < eos ∧ ∀ s, s < t.states.length → firstArc t s 0 = none → ∃ a, firstArc t s eos = some a

end Verif.Fst
