import Verif.EndSpec

/-!
# Specification: models with few states
-/

namespace Verif.Decoder

open Verif Verif.Fst

variable {F D : Type}

/-- The states of the graph are below `K`, those the language model gets into, the ones in `P`, below `M`. -/
structure Compact (e : Env F D) (P : Int → Prop) (K M : Nat) : Prop where
  start : e.g.start < K
  next : ∀ s, ∀ a ∈ e.g.arcs s, a.next < K
  lm : ∀ s, P s → s < M
  pos : 0 < M

end Verif.Decoder
