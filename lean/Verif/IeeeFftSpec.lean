import Verif.IeeeFbank
import Verif.IeeeSpec
import Mathlib.Analysis.SpecialFunctions.Trigonometric.Basic

/-!
# What is asked of the C library for the accuracy of the FFT
-/

namespace Verif.Ieee

open Verif.Ieee.Spec

/-- `cos` and `sin` are right up to 2^-24 for numbers up to 8.  Any C library is: the functions for `double` are right up to
about 2^-53, those for `float` up to about 2^-24. -/
structure TrigLaws (lib : Lib) : Prop where
  cos : ∀ {x : F32} {q : ℚ}, Is x q → |q| ≤ 8 → ∃ c, Is (lib.cos x) c ∧ |(c : ℝ) - Real.cos (q : ℝ)| ≤ 1 / 2 ^ 24
  sin : ∀ {x : F32} {q : ℚ}, Is x q → |q| ≤ 8 → ∃ s, Is (lib.sin x) s ∧ |(s : ℝ) - Real.sin (q : ℝ)| ≤ 1 / 2 ^ 24

/-- The real number a machine number stands for. -/
def Worth (x : F32) (r : ℝ) : Prop := ∃ q : ℚ, Is x q ∧ (q : ℝ) = r

/-- The `i`-th element of an array of `float`s is a number that is within `e` of `r`. -/
def NearAt (l : List F32) (i : ℕ) (r e : ℝ) : Prop := ∃ v q, l[i]? = some v ∧ Worth v q ∧ |q - r| ≤ e

/-- An array of `float`s holds the spectrum `X` of a real signal of length `N`, packed as in C48 (the real
parts at 0 and `N / 2` first, then the real and imaginary parts at 1, 2, ...), each number within `e`. -/
def PackedNear (N : ℕ) (l : List F32) (X : ℕ → ℂ) (e : ℝ) : Prop :=
  NearAt l 0 (X 0).re e ∧ NearAt l 1 (X (N / 2)).re e ∧
  ∀ k, 0 < k → k < N / 2 → NearAt l (2 * k) (X k).re e ∧ NearAt l (2 * k + 1) (X k).im e

end Verif.Ieee
