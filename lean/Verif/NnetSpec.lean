import Verif.NnetModel

/-!
# What a network computes

The input is a sequence of feature vectors without beginning or end; time is absolute, so that there is nothing
to clamp and nothing to narrow.
-/

namespace Verif.Nnet.Spec

/-- The product of a row with a matrix, on which `gemm` is built row by row. -/
structure RowWise {F : Type} (o : Ops F) (vecMat : List F → List (List F) → List F) : Prop where
  gemm : ∀ A B : List (List F), (∀ x ∈ A, x.length = B.length) → o.gemm A B = A.map fun x => vecMat x B
  size : ∀ (x : List F) (B : List (List F)) (n : Nat), x.length = B.length → B ≠ [] → (∀ y ∈ B, y.length = n) →
    (vecMat x B).length = n

/-- What a layer does to one vector (splicing and narrowing are not of this kind). -/
def pointwise {F : Type} (o : Ops F) (vecMat : List F → List (List F) → List F) (x : List F) : Layer F → List F
  | .linear W b => List.zipWith o.add (vecMat x W) b
  | .relu => x.map fun v => if o.lt v o.zero then o.zero else v
  | .normalize => x.map fun v => o.mul v (o.rootOf (o.ofInt x.length)
      ((x.map fun w => o.mul w w).foldl o.add o.zero))
  | .softmax => x.map fun v => o.div (o.expf v) ((x.map o.expf).foldl o.add o.zero)
  | .batchNorm scale offset => List.zipWith o.add (List.zipWith o.mul x scale) offset
  | .logSoftmax => x.map fun v => o.sub v (o.log ((x.map o.exp).foldl o.add o.zero))
  | .splice _ => x
  | .narrow _ _ => x

/-- What a layer does to a sequence of vectors. -/
def layerOn {F : Type} (o : Ops F) (vecMat : List F → List (List F) → List F) (x : Int → List F) :
    Layer F → Int → List F
  | .splice idx => fun t => idx.flatMap fun c => x (t + c)
  | l => fun t => pointwise o vecMat (x t) l

/-- What a network does to a sequence of vectors. -/
def series {F : Type} (o : Ops F) (vecMat : List F → List (List F) → List F) :
    List (Layer F) → (Int → List F) → Int → List F
  | [], x => x
  | l :: ls, x => series o vecMat ls (layerOn o vecMat x l)

/-- Frames continued by the first one before the beginning and by the last one behind the end. -/
def edge {F : Type} (fs : List (List F)) (t : Int) : List F :=
  if t < 0 then fs.headD [] else (fs[t.toNat]?).getD (fs.getLastD [])

/-- A layer that maps vectors of size `d` to vectors of size `e`, one by one. -/
inductive Pointwise {F : Type} : Layer F → Nat → Nat → Prop
  | linear {W : List (List F)} {b : List F} {d e : Nat} (h0 : W ≠ []) (h1 : W.length = d)
      (h2 : ∀ y ∈ W, y.length = e) (h3 : b.length = e) : Pointwise (.linear W b) d e
  | relu {d : Nat} : Pointwise .relu d d
  | normalize {d : Nat} : Pointwise .normalize d d
  | softmax {d : Nat} : Pointwise .softmax d d
  | logSoftmax {d : Nat} : Pointwise .logSoftmax d d
  | batchNorm {s t : List F} {d : Nat} (h1 : s.length = d) (h2 : t.length = d) : Pointwise (.batchNorm s t) d d

/-- The networks written by `tool/convert_am.py` 220-285: every splice layer is followed by a narrow layer that
removes `-min(min(indices), 0)` rows on the left and `max(max(indices), 0)` on the right; dimensions fit (`verify`,
144-154).  `Built ls d e L R w`: `ls` maps vectors of size `d` to vectors of size `e` with `L` vectors of left
and `R` of right context, all sizes on the way being between 1 and `w`. -/
inductive Built {F : Type} : List (Layer F) → Nat → Nat → Nat → Nat → Nat → Prop
  | nil {d w : Nat} (h1 : 1 ≤ d) (h2 : d ≤ w) : Built [] d d 0 0 w
  | row {l : Layer F} {ls : List (Layer F)} {d e f L R w : Nat} (h1 : 1 ≤ d) (h2 : d ≤ w) (h : Pointwise l d e)
      (hs : Built ls e f L R w) : Built (l :: ls) d f L R w
  | context {idx : List Int} {l r : Nat} {ls : List (Layer F)} {d f L R w : Nat} (h1 : 1 ≤ d) (h2 : d ≤ w)
      (h0 : idx ≠ []) (hl : ∀ c ∈ idx, -(l : Int) ≤ c) (hr : ∀ c ∈ idx, c ≤ (r : Int))
      (hl' : l = 0 ∨ -(l : Int) ∈ idx) (hr' : r = 0 ∨ (r : Int) ∈ idx)
      (hs : Built ls (idx.length * d) f L R w) :
      Built (.splice idx :: .narrow l r :: ls) d f (l + L) (r + R) w

end Verif.Nnet.Spec
