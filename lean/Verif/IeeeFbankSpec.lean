import Verif.IeeeFbank
import Verif.IeeeSpec
import Mathlib.Analysis.SpecialFunctions.Log.Basic

/-!
# What is asked of the C library
-/

namespace Verif.Ieee

open Verif.Ieee.Spec

/-- What every C library satisfies: `cos` and `sin` of a number are numbers from -1 to 1, and `sin` of a small number is
small; `log` of a number from 2^-23 on is a number near the logarithm (which lies between -15.95 and 88.73); `logf` is right
up to a millionth between 1 and 16. -/
structure LibLaws (lib : Lib) : Prop where
  cos : ∀ {x : F32} {q : ℚ}, Is x q → ∃ c, Is (lib.cos x) c ∧ |c| ≤ 1
  sin : ∀ {x : F32} {q : ℚ}, Is x q → ∃ s, Is (lib.sin x) s ∧ |s| ≤ 1 ∧ (|q| ≤ 1 / 64 → |s| ≤ 1 / 64)
  log : ∀ {x : F32} {q : ℚ}, Is x q → 1 / 2 ^ 23 ≤ q → ∃ l, Is (lib.log x) l ∧ -16 ≤ l ∧ l ≤ 89
  logf : ∀ {x : F32} {q : ℚ}, Is x q → 1 ≤ q → q ≤ 16 → ∃ l, Is (lib.logf x) l ∧ |(l : ℝ) - Real.log (q : ℝ)| ≤ 1 / 2 ^ 20

/-- A number between two bounds. -/
def Between (lo hi : ℚ) (x : F32) : Prop := ∃ q, Is x q ∧ lo ≤ q ∧ q ≤ hi

end Verif.Ieee
