import Verif.IeeeNnet
import Verif.IeeeFeatSpec
import Verif.NnetSpec
import Mathlib.Analysis.SpecialFunctions.Log.Basic

/-!
# Specification: the network without rounding, and how far rounding may lead away from it

The layers are those that `tool/convert_am.py` writes; what softmax and normalise layers do is in C50 and C100.
-/

namespace Verif.Ieee

open Verif Verif.Ieee.Spec Verif.Nnet Verif.Fbank

/-- The elements of a row of `float`s are numbers within `e` of the elements of a row of real numbers. -/
def CloseTo (e : ℝ) (x : List F32) (X : List ℝ) : Prop := List.Forall₂ (fun v V => ∃ r, Worth v r ∧ |r - V| ≤ e) x X

/-- Element `j` of the product of a row and a matrix. -/
def dot (X : List ℝ) (W : List (List ℝ)) (j : ℕ) : ℝ := (List.zipWith (fun v row => v * row.getD j 0) X W).sum

/-- The same product with all numbers made positive. -/
def dotSize (X : List ℝ) (W : List (List ℝ)) (j : ℕ) : ℝ := (List.zipWith (fun v row => |v| * |row.getD j 0|) X W).sum

/-- What every C library and every BLAS satisfies.  `exp` stored in a `float` has 22 right bits, up to numbers below 2^-118;
`log` stored in a `float` is right up to 2^-16 between 2^-94 and 2^120, where it is below 128 and neighbouring `float`s are at
most 2^-17 apart; the sum of `n` products of `float`s is right up to `(n + 1) 2^-23` times the sum of their sizes and 1, in whichever
order it is summed. -/
structure ScoreLaws (lib : NnLib) (vm : List F32 → List (List F32) → List F32) : Prop where
  rows : Nnet.Spec.RowWise (nnet lib) vm
  exp : ∀ {x : F32} {r : ℝ}, Worth x r → r ≤ 64 → ∃ s, Worth (lib.exp x) s ∧ |s - Real.exp r| ≤ Real.exp r / 2 ^ 22 + 1 / 2 ^ 118
  log : ∀ {x : F32} {r : ℝ}, Worth x r → 1 / 2 ^ 94 ≤ r → r ≤ 2 ^ 120 → ∃ s, Worth (lib.log x) s ∧ |s - Real.log r| ≤ 1 / 2 ^ 16
  product : ∀ {x : List F32} {X : List ℝ} {W : List (List F32)} {V : List (List ℝ)} {m : ℕ} {S : ℝ}, List.Forall₂ Worth x X →
    List.Forall₂ (List.Forall₂ Worth) W V → W ≠ [] → x.length = W.length → W.length ≤ 2 ^ 20 → (∀ row ∈ W, row.length = m) →
    S ≤ 2 ^ 100 → ∀ j, j < m → dotSize X V j ≤ S →
    ∃ v r, (vm x W)[j]? = some v ∧ Worth v r ∧ |r - dot X V j| ≤ (W.length + 1) * (S + 1) / 2 ^ 23

/-- A layer with its parameters as real numbers. -/
inductive Means : Layer F32 → Layer ℝ → Prop
  | linear {W : List (List F32)} {b : List F32} {V : List (List ℝ)} {c : List ℝ} : List.Forall₂ (List.Forall₂ Worth) W V →
      List.Forall₂ Worth b c → Means (.linear W b) (.linear V c)
  | relu : Means .relu .relu
  | splice {idx : List ℤ} : Means (.splice idx) (.splice idx)
  | batchNorm {s t : List F32} {u v : List ℝ} : List.Forall₂ Worth s u → List.Forall₂ Worth t v → Means (.batchNorm s t) (.batchNorm u v)
  | logSoftmax : Means .logSoftmax .logSoftmax
  | narrow {l r : ℤ} : Means (.narrow l r) (.narrow l r)

/-- What a layer is meant to do to one vector. -/
noncomputable def sharp (X : List ℝ) : Layer ℝ → List ℝ
  | .linear W b => List.zipWith (· + ·) ((List.range b.length).map (dot X W)) b
  | .relu => X.map (max 0)
  | .normalize => X.map fun v => v * Real.sqrt (X.length / (X.map fun u => u ^ 2).sum)
  | .softmax => X.map fun v => Real.exp v / (X.map Real.exp).sum
  | .batchNorm s t => List.zipWith (· + ·) (List.zipWith (· * ·) X s) t
  | .logSoftmax => X.map fun v => v - Real.log (X.map Real.exp).sum
  | .splice _ => X
  | .narrow _ _ => X

/-- What a layer is meant to do to a sequence of vectors. -/
noncomputable def sharpOn (X : ℤ → List ℝ) : Layer ℝ → ℤ → List ℝ
  | .splice idx => fun t => idx.flatMap fun c => X (t + c)
  | l => fun t => sharp (X t) l

/-- What a network is meant to do to a sequence of vectors. -/
noncomputable def sharpAll : List (Layer ℝ) → (ℤ → List ℝ) → ℤ → List ℝ
  | [], X => X
  | l :: ls, X => sharpAll ls (sharpOn X l)

/-- How far the output of a layer may be from what it is meant to be, if the input is within `e` of `X`.  A linear layer
multiplies what is there by the largest sum of the weights of an output, a batch normalisation by the largest scale, a
log-softmax by two; what they add is a matter of the size of the numbers.  The numbers that go into a log-softmax are at most 63,
and in each vector there is one from -63 on. -/
inductive Blurs : Layer ℝ → (ℤ → List ℝ) → ℝ → ℝ → Prop
  | linear {W : List (List ℝ)} {b : List ℝ} {X : ℤ → List ℝ} {A B M e : ℝ} : W.length ≤ 2 ^ 20 → 0 ≤ A → 0 ≤ B →
      (∀ j, j < b.length → (W.map fun row => |row.getD j 0|).sum ≤ A) → (∀ v ∈ b, |v| ≤ B) → (∀ t, ∀ v ∈ X t, |v| ≤ M) →
      A * (M + e) + B + 1 ≤ 2 ^ 100 → Blurs (.linear W b) X e (A * e + (W.length + 3) * (A * (M + e) + B + 1) / 2 ^ 23)
  | relu {X : ℤ → List ℝ} {e : ℝ} : Blurs .relu X e e
  | splice {idx : List ℤ} {X : ℤ → List ℝ} {e : ℝ} : Blurs (.splice idx) X e e
  | batchNorm {s t : List ℝ} {X : ℤ → List ℝ} {A B M e : ℝ} : 0 ≤ A → 0 ≤ B → (∀ v ∈ s, |v| ≤ A) → (∀ v ∈ t, |v| ≤ B) →
      (∀ t, ∀ v ∈ X t, |v| ≤ M) → A * (M + e) + B + 1 ≤ 2 ^ 100 →
      Blurs (.batchNorm s t) X e (A * e + (A * (M + e) + B + 1) / 2 ^ 22)
  | logSoftmax {X : ℤ → List ℝ} {n : ℕ} {M e : ℝ} : n ≤ 2 ^ 19 → (∀ t, (X t).length ≤ n) → e ≤ 1 → M ≤ 2 ^ 100 →
      (∀ t, ∀ v ∈ X t, |v| ≤ M ∧ v ≤ 63) → (∀ t, ∃ v ∈ X t, -63 ≤ v) →
      Blurs .logSoftmax X e (2 * e + (n + 1) / 2 ^ 21 + 1 / 2 ^ 16 + (M + 100) / 2 ^ 24)
  | narrow {l r : ℤ} {X : ℤ → List ℝ} {e : ℝ} : Blurs (.narrow l r) X e e

/-- How far the output of a network may be from what it is meant to be. -/
inductive BlursTo : List (Layer ℝ) → (ℤ → List ℝ) → ℝ → ℝ → Prop
  | nil {X : ℤ → List ℝ} {e : ℝ} : BlursTo [] X e e
  | cons {l : Layer ℝ} {ls : List (Layer ℝ)} {X : ℤ → List ℝ} {e e' e'' : ℝ} : Blurs l X e e' → BlursTo ls (sharpOn X l) e' e'' →
      BlursTo (l :: ls) X e e''

/-- The features of `n` frames of a signal `u` with samples up to `A`: number `b` of frame `i` is the logarithm of the energy that
filter `b` of `w` passes, with the floor of the program, of a spectrum each magnitude of which is within `A` of that of the exact
spectrum. -/
def FeaturesOf (w : ℕ → ℕ → ℝ) (A : ℝ) (u : ℕ → ℝ) (n : ℕ) (Fs : List (List ℝ)) : Prop :=
  Fs.length = n ∧ ∀ (i : ℕ) (F : List ℝ), Fs[i]? = some F → F.length = 40 ∧
    ∃ m : ℕ → ℝ, (∀ k, k ≤ 256 → 0 ≤ m k ∧ |m k - Real.sqrt (powerOf (fun j => u (160 * i + j)) k)| ≤ A) ∧
      ∀ b, b < 40 → F[b]? = some (Real.log (max (1 / 2 ^ 23) (∑ k ∈ Finset.range 257, w b k * m k ^ 2)))

end Verif.Ieee
