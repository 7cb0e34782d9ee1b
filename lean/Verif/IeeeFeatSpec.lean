import Verif.IeeeFftSpec
import Verif.FbankFullProps

/-!
# What is said about the accuracy of the features
-/

namespace Verif.Ieee

open Verif.Ieee.Spec Verif.Fbank Finset

/-- `log` is right up to 2^-16 for numbers from 2^-23 on.  Any C library is: the logarithm of the largest `float` is
88.7, where neighbouring `float`s are 2^-17 apart. -/
structure LogLaws (lib : Lib) : Prop where
  log : ∀ {x : F32} {q : ℚ}, Is x q → 1 / 2 ^ 23 ≤ q → ∃ l, Is (lib.log x) l ∧ |(l : ℝ) - Real.log (q : ℝ)| ≤ 1 / 2 ^ 16

/-- Forty filters over the bins 0 to 256 that are as good as the triangles of C61: each weight lies between 0 and 1 and is
within 1/256 of that of the triangle, and there is no weight more than a tenth of a mel outside of the triangle. -/
def NearTriangles (w : ℕ → ℕ → ℝ) : Prop :=
  ∀ b k, b < 40 → k ≤ 256 → 0 ≤ w b k ∧ w b k ≤ 1 ∧ |w b k - triangle b k| ≤ 1 / 256 ∧
    (place k ≤ corner b - 1 / 10 ∨ corner (b + 2) + 1 / 10 ≤ place k → w b k = 0)

/-- A row of features of a frame `f` of samples up to `A`: forty numbers, and number `b` is, up to 1/10000, the logarithm of
the energy that filter `b` of `w` passes, with the floor of the program, of a spectrum each magnitude of which is within `A`
of that of the exact spectrum. -/
def RowNear (w : ℕ → ℕ → ℝ) (A : ℝ) (f : ℕ → ℝ) (r : List F32) : Prop :=
  r.length = 40 ∧ ∃ m : ℕ → ℝ, (∀ k, k ≤ 256 → 0 ≤ m k ∧ |m k - Real.sqrt (powerOf f k)| ≤ A) ∧
    ∀ b, b < 40 → NearAt r b (Real.log (max (1 / 2 ^ 23) (∑ k ∈ range 257, w b k * m k ^ 2))) (1 / 10000)

end Verif.Ieee
