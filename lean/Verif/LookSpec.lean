import Verif.LookModel

/-!
# The beam search on a graph that is a mathematical object
-/

namespace Verif.Look.Spec

open Verif Verif.Fst Verif.Decoder Verif.Look

variable {F D : Type}

/-- A call with the graph of the environment, whose lookups never fail. -/
def step (e : Env F D) (fuel : Nat) (d : Dec F) : Call F → Exec (Answer F × Dec F)
  | .init => do
    let d ← Decoder.initDecoder e fuel d
    .ok (.unit, d)
  | .frame f => do
    let x ← Decoder.process e fuel f d
    .ok (.bool x.1, x.2.2)
  | .eos => .ok (.unit, endOfStream d)
  | .best => do
    let x ← Decoder.bestPath e d
    .ok (.path x.1 x.2, d)

/-- Calls one after the other. -/
def run (e : Env F D) (fuel : Nat) : Dec F → List (Call F) → Exec (List (Answer F))
  | _, [] => .ok []
  | d, c :: cs => do
    let x ← step e fuel d c
    let as ← run e fuel x.2 cs
    .ok (x.1 :: as)

/-- The graph that was written: no arcs leave states that do not exist. -/
def graph (ofBits : Nat → F) (g : Hclg.Source) : Graph F where
  start := g.start
  arcs s := if 0 ≤ s then ((g.states[s.toNat]?).map (·.2)).getD [] |>.map fun a => ⟨a.ilabel, a.olabel, ofBits a.weight, a.next⟩
    else []
  final s := ofBits (((g.states[s.toNat]?).map (·.1)).getD 0)

/-- A set of states that contains the start and that arcs do not leave, on which the lookups give what the graph has. -/
structure Covers (P : Int → Prop) (l : LGraph F) (g : Graph F) : Prop where
  start : l.start = g.start
  start_in : P g.start
  next : ∀ s, P s → ∀ a ∈ g.arcs s, P a.next
  arcs : ∀ s, P s → l.arcs s = .ok (g.arcs s)
  final : ∀ s, P s → l.final s = .ok (g.final s)

end Verif.Look.Spec
