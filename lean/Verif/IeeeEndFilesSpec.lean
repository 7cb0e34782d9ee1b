import Verif.IeeeEndSpec
import Verif.IeeeNnetSpec
import Verif.EndLmSpec

/-!
# Specification: language models with moderate costs
-/

namespace Verif.Ieee.Spec

open Verif Verif.Fst

/-- The costs of the backoff model `t`, and the costs `small` of the words in question, are numbers up to `2 ^ a`; states are
final at such a cost, or not at all. -/
structure Light (small : List F32) (t : Transducer F32) (a : ℕ) (words : Int → Prop) : Prop where
  arc : ∀ s l b, firstArc t s l = some b → AtMost a b.weight
  final : ∀ s w, finalOf t s = some w → w = .inf false ∨ AtMost a w
  word : ∀ w, words w → 0 < w ∧ ∃ x, small[w.toNat]? = some x ∧ AtMost a x

end Verif.Ieee.Spec
