import Verif.EndSpec
import Verif.IeeeSpec

/-!
# Specification: models with moderate costs
-/

namespace Verif.Ieee.Spec

open Verif Verif.Fst Verif.Decoder

/-- The costs in graph and language model (in the states `P` it gets into, for the words of the graph) are numbers no larger than `W`; states are final
at such a cost, or not at all. -/
structure Modest (e : Env F32 F64) (P : Int → Prop) (W : Rat) : Prop where
  arc : ∀ s, ∀ a ∈ e.g.arcs s, ∃ w, Is a.weight w ∧ |w| ≤ W
  final : ∀ s, e.g.final s = .inf false ∨ ∃ w, Is (e.g.final s) w ∧ |w| ≤ W
  lmArc : ∀ lm, e.lm = some lm → ∀ s, P s → ∀ g, ∀ b ∈ e.g.arcs g, b.olabel ≠ 0 →
    ∀ a, lm.getArc s b.olabel = .ok (some a) → ∃ w, Is a.weight w ∧ |w| ≤ W
  lmFinal : ∀ lm, e.lm = some lm → ∀ s, P s → ∀ u, lm.final s = .ok u → u = .inf false ∨ ∃ w, Is u w ∧ |w| ≤ W

/-- The scores of every frame, times the scale, are no larger than `S`. -/
def Calm (e : Env F32 F64) (S : Rat) (rows : List (List F32)) : Prop :=
  ∃ r, Is e.amScale r ∧ ∀ f ∈ rows, ∀ lp ∈ f, ∃ q, Is lp q ∧ |r * q| ≤ S

end Verif.Ieee.Spec
