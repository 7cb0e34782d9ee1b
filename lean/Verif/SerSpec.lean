import Verif.SerModel

/-!
# What the files of the converter can hold
-/

namespace Verif.Ser.Spec

open Nnet (Layer)

/-- What a vector must satisfy to be written and read: not empty, and of a size that fits. -/
def VecOk (v : List Nat) : Prop := v ≠ [] ∧ v.length * 4 + 4 ≤ 2147483647 ∧ ∀ x ∈ v, x < 4294967296

/-- What a matrix must satisfy to be written and read: not empty, rectangular, of a size that fits. -/
def MatOk (m : List (List Nat)) (cols : Nat) : Prop :=
  m ≠ [] ∧ (∀ r ∈ m, r.length = cols ∧ VecOk r) ∧ (m.length : Int) * cols ≤ 2147483647

/-- What a layer must satisfy to be written and read. -/
def LayerOk : Layer Nat → Prop
  | .linear W b => (∃ cols, MatOk W cols) ∧ VecOk b
  | .splice idx => idx.length ≤ 2147483647 ∧ ∀ i ∈ idx, InI32 i
  | .batchNorm s t => VecOk s ∧ VecOk t
  | .narrow l r => InI32 l ∧ InI32 r
  | _ => True

/-- A layer of bits as a layer of determinate words. -/
def full : Layer Nat → Layer Word
  | .linear W b => .linear (W.map (·.map some)) (b.map some)
  | .relu => .relu
  | .normalize => .normalize
  | .softmax => .softmax
  | .splice idx => .splice idx
  | .batchNorm s t => .batchNorm (s.map some) (t.map some)
  | .logSoftmax => .logSoftmax
  | .narrow l r => .narrow l r

end Verif.Ser.Spec
