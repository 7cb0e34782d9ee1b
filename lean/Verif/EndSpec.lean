import Verif.DecoderSpec

/-!
# Specification: models the decoder can work with whatever it hears
-/

namespace Verif.Decoder

open Verif Verif.Fst

variable {F D : Type}

/-- From the state `s` of the graph one can take `n` arcs one after the other without consuming a frame. -/
inductive Silent (g : Graph F) : Int → Nat → Prop where
  | nil {s : Int} : Silent g s 0
  | cons {s : Int} {a : GArc F} {n : Nat} : a ∈ g.arcs s → a.ilabel = 0 → Silent g a.next n → Silent g s (n + 1)

/-- Graph, transition map and language model fit together, for scores of `width` transition groups: states are numbers an
`int` holds; at most `N` arcs leave a state; no more than `k` arcs in a row consume nothing (so there is no cycle of
such arcs); every arc that consumes a frame has a score; and the language model, in the states `P` that it can get into,
answers whatever it is asked. -/
structure Sturdy (e : Env F D) (P : Int → Prop) (width N k : Nat) : Prop where
  start : 0 ≤ e.g.start ∧ e.g.start < 2 ^ 31
  next : ∀ s, ∀ a ∈ e.g.arcs s, 0 ≤ a.next ∧ a.next < 2 ^ 31
  branch : ∀ s, (e.g.arcs s).length ≤ N
  silent : ∀ s n, Silent e.g s n → n ≤ k
  score : ∀ s, ∀ a ∈ e.g.arcs s, a.ilabel ≠ 0 →
    ∃ ti pi : Nat, a.ilabel = (ti : Int) ∧ e.pdf[ti]? = some (pi : Int) ∧ pi < width
  lmState : ∀ s, P s → 0 ≤ s ∧ s < 2 ^ 31
  lmStart : ∀ lm, e.lm = some lm → ∃ s, lm.start = .ok s ∧ P s
  lmArc : ∀ lm, e.lm = some lm → ∀ s, P s → ∀ g, ∀ a ∈ e.g.arcs g, a.olabel ≠ 0 →
    ∃ r, lm.getArc s a.olabel = .ok r ∧ ∀ b, r = some b → P b.next
  lmFinal : ∀ lm, e.lm = some lm → ∀ s, P s → ∃ w, lm.final s = .ok w

/-- Whichever state an arc leads to, some arc that consumes a frame leaves it; and so it is with the state decoding starts
in. -/
structure Lively (g : Graph F) : Prop where
  start : ∃ a ∈ g.arcs g.start, a.ilabel ≠ 0
  next : ∀ s, ∀ a ∈ g.arcs s, ∃ b ∈ g.arcs a.next, b.ilabel ≠ 0

end Verif.Decoder
