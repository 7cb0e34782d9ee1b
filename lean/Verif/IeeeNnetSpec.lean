import Verif.IeeeNnet
import Verif.IeeeSpec
import Verif.NnetSpec
import Mathlib.Algebra.Order.Ring.Rat

/-!
# Specification: networks whose values stay inside the range of `float`
-/

namespace Verif.Ieee

open Verif Verif.Ieee.Spec Verif.Nnet

/-- A number of at most `2^a`, in size. -/
def AtMost (a : ℕ) (x : F32) : Prop := ∃ q : ℚ, Is x q ∧ |q| ≤ 2 ^ a

/-- A number whose product with numbers up to `2^a` is at most `2^k`, in size. -/
def Times (a k : ℕ) (x : F32) : Prop := ∃ q : ℚ, Is x q ∧ |q| * 2 ^ a ≤ 2 ^ k

/-- What every C library and every BLAS satisfies.  `expf` and `exp` of a number up to 64 lie between 0 and 2^93 (e^64 is about
2^92.3), and are at least 2^-93 from -64 on; `log` from 2^-93 on is at most 128 in size; the root is right up to a factor of
1.4, and that of infinity is infinite; every element of a product of a row with a matrix of up to 2^m rows is a number
up to 2^(k+m), if no product of two numbers is above 2^k, in whichever order it is summed. -/
structure NnLaws (lib : NnLib) (vm : List F32 → List (List F32) → List F32) : Prop where
  rows : Nnet.Spec.RowWise (nnet lib) vm
  expf : ∀ {x : F32} {q : ℚ}, Is x q → q ≤ 64 → ∃ e, Is (lib.expf x) e ∧ 0 ≤ e ∧ e ≤ 2 ^ 93 ∧ (-64 ≤ q → 1 / 2 ^ 93 ≤ e)
  exp : ∀ {x : F32} {q : ℚ}, Is x q → q ≤ 64 → ∃ e, Is (lib.exp x) e ∧ 0 ≤ e ∧ e ≤ 2 ^ 93 ∧ (-64 ≤ q → 1 / 2 ^ 93 ≤ e)
  log : ∀ {x : F32} {q : ℚ}, Is x q → 1 / 2 ^ 93 ≤ q → ∃ l, Is (lib.log x) l ∧ |l| ≤ 2 ^ 7
  sqrt : ∀ {x : F64} {q : ℚ}, Is x q → 0 ≤ q → ∃ s, Is (lib.sqrt x) s ∧ 0 ≤ s ∧ s * s ≤ 2 * q
  sqrtInf : lib.sqrt (.inf false) = .inf false
  product : ∀ {x : List F32} {W : List (List F32)} {a k m : ℕ}, x.length = W.length → W.length ≤ 2 ^ m → m ≤ 23 →
    k + m ≤ 126 → (∀ v ∈ x, AtMost a v) → (∀ y ∈ W, ∀ v ∈ y, Times a k v) → ∀ v ∈ vm x W, AtMost (k + m) v

/-- What a layer makes of numbers up to `2^a`: numbers up to `2^b`, told from its weights. -/
inductive Grows : Layer F32 → ℕ → ℕ → Prop
  | linear {W : List (List F32)} {b : List F32} {a k d m : ℕ} : W.length ≤ 2 ^ m → m ≤ 23 → (∀ y ∈ W, ∀ v ∈ y, Times a k v) →
      (∀ v ∈ b, AtMost d v) → Grows (.linear W b) a (max (k + m) d + 1)
  | relu {a : ℕ} : Grows .relu a a
  | normalize {a : ℕ} : a ≤ 50 → Grows .normalize a 17
  | softmax {a : ℕ} : Grows .softmax a 0
  | splice {idx : List ℤ} {a : ℕ} : Grows (.splice idx) a a
  | batchNorm {s t : List F32} {a k d : ℕ} : (∀ v ∈ s, Times a k v) → (∀ v ∈ t, AtMost d v) →
      Grows (.batchNorm s t) a (max k d + 1)
  | logSoftmax {a : ℕ} : Grows .logSoftmax a (max a 7 + 1)
  | narrow {l r : ℤ} {a : ℕ} : Grows (.narrow l r) a a

/-- What a network makes of numbers up to `2^a`; no bound on the way is above `2^126`. -/
inductive GrowsTo : List (Layer F32) → ℕ → ℕ → Prop
  | nil {a : ℕ} : GrowsTo [] a a
  | cons {l : Layer F32} {ls : List (Layer F32)} {a b c : ℕ} : Grows l a b → b ≤ 126 → GrowsTo ls b c → GrowsTo (l :: ls) a c

/-- The vectors a layer can cope with: for the normalise layer, some number is not tiny; for the softmax layers, no number
is above 64 and some number is not below -64. -/
def Copes : Layer F32 → List F32 → Prop
  | .normalize, x => ∃ v ∈ x, ∃ q, Is v q ∧ 1 / 2 ^ 74 ≤ |q|
  | .softmax, x => (∀ v ∈ x, ∀ q, Is v q → q ≤ 64) ∧ ∃ v ∈ x, ∃ q, Is v q ∧ -64 ≤ q
  | .logSoftmax, x => (∀ v ∈ x, ∀ q, Is v q → q ≤ 64) ∧ ∃ v ∈ x, ∃ q, Is v q ∧ -64 ≤ q
  | _, _ => True

/-- Every layer gets vectors it can cope with. -/
def CopesAll (o : Nnet.Ops F32) (vm : List F32 → List (List F32) → List F32) : List (Layer F32) → (ℤ → List F32) → Prop
  | [], _ => True
  | l :: ls, x => (∀ t, Copes l (x t)) ∧ CopesAll o vm ls (Nnet.Spec.layerOn o vm x l)

/-- A network that copes with everything: no normalise layer, and softmax layers only where the weights keep the numbers
below 64. -/
inductive Robust : List (Layer F32) → ℕ → ℕ → Prop
  | nil {a : ℕ} : Robust [] a a
  | cons {l : Layer F32} {ls : List (Layer F32)} {a b c : ℕ} : Grows l a b → b ≤ 126 → l ≠ .normalize →
      (l = .softmax ∨ l = .logSoftmax → a ≤ 6) → Robust ls b c → Robust (l :: ls) a c

end Verif.Ieee
