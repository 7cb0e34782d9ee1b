import Verif.IeeeSpec
import Mathlib.Algebra.BigOperators.Intervals
import Mathlib.Algebra.Order.Ring.Rat

/-!
# Specification: the sliding mean without rounding
-/

namespace Verif.Ieee.Spec

/-- The sum of coefficient `i` over the last at most 600 frames up to and including frame `t`. -/
def slideSum (X : ℕ → ℕ → ℚ) (t i : ℕ) : ℚ := ∑ j ∈ Finset.Ico (t + 1 - 600) (t + 1), X j i

/-- The number of frames of the utterance that frame `t` is compared with. -/
def slideOwn (t : ℕ) : ℕ := min (t + 1) 600

/-- The number of frames with the global mean that are added to them: 200, or as many as are missing to 600. -/
def slideExtra (t : ℕ) : ℕ := min (600 - slideOwn t) 200

/-- The mean that is taken off coefficient `i` of frame `t`, for the global mean `g`. -/
def slideMean (X : ℕ → ℕ → ℚ) (g : ℕ → ℚ) (t i : ℕ) : ℚ :=
  (slideSum X t i + slideExtra t * g i) / (slideOwn t + slideExtra t : ℕ)

/-- The rows of a matrix of `float`s are frames of 40 numbers, `X t i` is coefficient `i` of frame `t`; no number is larger
than `M`. -/
structure Frames (raw : List (List F32)) (X : ℕ → ℕ → ℚ) (M : ℚ) : Prop where
  width : ∀ x ∈ raw, x.length = 40
  value : ∀ t i, t < raw.length → i < 40 → ∃ x v, raw[t]? = some x ∧ x[i]? = some v ∧ Is v (X t i)
  small : ∀ t i, t < raw.length → i < 40 → |X t i| ≤ M

/-- Global statistics of 41 `float`s: 40 sums and the number of frames; the means are `g`, and none is larger than `M`. -/
structure Global (global : List F32) (g : ℕ → ℚ) (M : ℚ) : Prop where
  width : global.length = 41
  value : ∃ c : ℚ, 1 ≤ c ∧ c ≤ 2 ^ 60 ∧ (∃ v, global[40]? = some v ∧ Is v c) ∧
    ∀ i, i < 40 → |g i| ≤ M ∧ ∃ v, global[i]? = some v ∧ Is v (g i * c)

end Verif.Ieee.Spec
