import Verif.Section

/-!
# Model of the layers of `src/nnet.h` and `src/nnet.cc`

Arithmetic on `float` is a parameter, as in the feature extraction.  A `Vector<float>` is the list of its
elements.  A `Matrix<float>` is the list of its rows: `Matrix::Init` (`src/matrix.cc` 61-95) admits only matrices
with at least one row and one column and the matrix of 0 rows and 0 columns, so that the list determines both
dimensions.
-/

namespace Verif.Nnet

/-- The operations on `float` used by the layers.

* `zero`, `negOne`: the constants `0.0f` and `-1.0f`;
* `add`, `sub`, `mul`, `div`, `lt`: the operators; `ofInt`: conversion of an `int`;
* `expf`, `exp`, `log`: the functions of `math.h` (with the rounding to `float` that follows);
* `rootOf d s`: `static_cast<float>(sqrt(D / squared_sum))`, computed in `double`, `src/nnet.cc` 172;
* `gemm`: `cblas_sgemm` as called by `MatMat`, `src/matrix.cc` 300-323. -/
structure Ops (F : Type) where
  zero : F
  negOne : F
  add : F → F → F
  sub : F → F → F
  mul : F → F → F
  div : F → F → F
  lt : F → F → Bool
  ofInt : Int → F
  expf : F → F
  exp : F → F
  log : F → F
  rootOf : F → F → F
  gemm : List (List F) → List (List F) → List (List F)

/-- `MatrixBase::NumCols`, `src/matrix.h` 37: the matrix without rows has no columns either. -/
def numCols {F : Type} : List (List F) → Nat
  | [] => 0
  | r :: _ => r.length

/-- `Matrix::Resize` with `kSetZero` or `kUndefined`, `src/matrix.cc` 129-141: a matrix that already has the
wanted size is kept, otherwise `Init` allocates a new one.  The contents are overwritten by all callers. -/
def resize {F : Type} (old : List (List F)) (rows cols : Int) : Exec Unit :=
  if old ≠ [] ∧ rows = old.length ∧ cols = numCols old then .ok () else matInit rows cols

/-- `VectorBase::AddVec` with `alpha == 1.0`, `src/vector.cc` 241-258. -/
def addVec {F : Type} (o : Ops F) (x v : List F) : Exec (List F) := do
  cassert (decide (x.length = v.length))
  .ok (List.zipWith o.add x v)

/-- `VectorBase::AddVec` with `alpha == -1.0f`, `src/vector.cc` 241-258. -/
def subVec {F : Type} (o : Ops F) (x v : List F) : Exec (List F) := do
  cassert (decide (x.length = v.length))
  .ok (List.zipWith (fun a b => o.add a (o.mul o.negOne b)) x v)

/-- `VectorBase::MulElements`, `src/vector.cc` 217-223. -/
def mulElements {F : Type} (o : Ops F) (x v : List F) : Exec (List F) := do
  cassert (decide (v.length = x.length))
  .ok (List.zipWith o.mul x v)

/-- `VectorBase::ApplySoftMax`, `src/vector.cc` 95-107. -/
def applySoftMax {F : Type} (o : Ops F) (x : List F) : List F :=
  let e := x.map o.expf
  let sum := e.foldl o.add o.zero
  e.map fun v => o.div v sum

/-- `VectorBase::ApplyLogSoftMax`, `src/vector.cc` 109-122. -/
def applyLogSoftMax {F : Type} (o : Ops F) (x : List F) : List F :=
  let sum := x.foldl (fun s v => o.add s (o.exp v)) o.zero
  let logsum := o.log sum
  x.map fun v => o.sub v logsum

/-- The inner loop of `ReLULayer::Propagate`, `src/nnet.cc` 156-158. -/
def applyRelu {F : Type} (o : Ops F) (x : List F) : List F :=
  x.map fun v => if o.lt v o.zero then o.zero else v

/-- The body of the loop of `NormalizeLayer::Propagate`, `src/nnet.cc` 169-173; `d` is `D`, the number of columns
converted to `float`.  `squared_sum` is a `double` with the value of a `float`. -/
def applyNormalize {F : Type} (o : Ops F) (d : F) (x : List F) : List F :=
  let squaredSum := (List.zipWith o.mul x x).foldl o.add o.zero
  let scale := o.rootOf d squaredSum
  x.map fun v => o.mul v scale

/-- The subclasses of `Layer`, `src/nnet.h` 23-199 (without `ScaleLayer`, which is declared but not defined).
`linear W b`: `W_` and `b_`; `narrow l r`: `narrow_left_` and `narrow_right_`. -/
inductive Layer (F : Type) where
  | linear (W : List (List F)) (b : List F)
  | relu
  | normalize
  | softmax
  | splice (indices : List Int)
  | batchNorm (scale offset : List F)
  | logSoftmax
  | narrow (left right : Int)
deriving DecidableEq

/-- The inner loop of `SpliceLayer::Propagate`, `src/nnet.cc` 64-72: `offset` and the part of the row written so
far, for the remaining indices.  `Range` asserts that the part lies within the row. -/
def spliceRow {F : Type} (inp : List (List F)) (outCols : Int) (rowIdx : Int) :
    List Int → Int → List F → Exec (List F)
  | [], offset, acc => do
    cassert (decide (offset = outCols))
    .ok acc
  | c :: cs, offset, acc => do
    let cnt ← i32 (rowIdx + c)
    let cnt := if cnt < 0 then 0 else cnt
    let cnt := if cnt > (inp.length : Int) - 1 then (inp.length : Int) - 1 else cnt
    let stop ← i32 (offset + numCols inp)
    cassert (decide (stop ≤ outCols))
    let row ← aget inp cnt
    spliceRow inp outCols rowIdx cs stop (acc ++ row)

/-- `SpliceLayer::Propagate`, `src/nnet.cc` 50-75; `out` is the old content of the output matrix, which the early
return leaves as it is.  `indices_.size() * in.NumCols()` is a `size_t`, stored in an `int`. -/
def spliceMat {F : Type} (indices : List Int) (inp out : List (List F)) : Exec (List (List F)) := do
  cassert (decide (indices.length ≠ 0))
  if inp.length = 0 ∨ numCols inp = 0 then .ok out
  else do
    let outCols := wrap32 ((indices.length : Int) * numCols inp)
    resize out inp.length outCols
    (List.range inp.length).mapM fun i : Nat => spliceRow inp outCols i indices 0 []

/-- `SubMatrix::SubMatrix`, `src/matrix.cc` 196-220, for a block of whole rows. -/
def rowsOf {F : Type} (m : List (List F)) (from_ num : Int) : Exec (List (List F)) := do
  if num = 0 ∨ numCols m = 0 then do
    cassert (decide (numCols m = 0 ∧ num = 0))
    .ok []
  else do
    cassert (decide (from_ < m.length ∧ 0 < numCols m ∧ num ≤ m.length - from_))
    if 0 ≤ from_ ∧ 0 ≤ num then .ok ((m.drop from_.toNat).take num.toNat) else .error .ub

/-- `NarrowLayer::Propagate`, `src/nnet.cc` 182-202. -/
def narrowMat {F : Type} (l r : Int) (inp out : List (List F)) : Exec (List (List F)) := do
  cassert (decide (0 ≤ l))
  let s ← i32 (l + r)
  if (inp.length : Int) ≤ s then do
    resize out inp.length (numCols inp)
    .ok inp
  else do
    let a ← i32 ((inp.length : Int) - l)
    let num ← i32 (a - r)
    resize out num (numCols inp)
    rowsOf inp l num

/-- `Layer::Propagate` of the subclasses, `src/nnet.cc` 22-202: `LinearLayer` 22-36, `SpliceLayer` 50-75,
`BatchNormLayer` 106-117, `SoftmaxLayer` 126-135, `LogSoftmaxLayer` 137-146, `ReLULayer` 149-160,
`NormalizeLayer` 162-175, `NarrowLayer` 182-202.  `inp` and `out` are the input and the old content of the output;
the new output is returned. -/
def Layer.propagate {F : Type} (o : Ops F) (inp out : List (List F)) : Layer F → Exec (List (List F))
  | .linear W b => do
    cassert (decide (b.length ≠ 0))
    resize out inp.length (numCols W)
    cassert (decide (numCols inp = W.length))
    (o.gemm inp W).mapM fun x => addVec o x b
  | .relu => do
    resize out inp.length (numCols inp)
    .ok (inp.map (applyRelu o))
  | .normalize => do
    resize out inp.length (numCols inp)
    .ok (inp.map (applyNormalize o (o.ofInt (numCols inp))))
  | .softmax => do
    resize out inp.length (numCols inp)
    .ok (inp.map (applySoftMax o))
  | .splice indices => spliceMat indices inp out
  | .batchNorm scale offset => do
    cassert (decide (0 < scale.length))
    resize out inp.length (numCols inp)
    inp.mapM fun x => do
      let x ← mulElements o x scale
      addVec o x offset
  | .logSoftmax => do
    resize out inp.length (numCols inp)
    .ok (inp.map (applyLogSoftMax o))
  | .narrow l r => narrowMat l r inp out

/-- The loop of `Nnet::Propagate`, `src/nnet.cc` 300-303: `layer_input` and `layer_output` are exchanged after
every layer. -/
def propagateLoop {F : Type} (o : Ops F) : List (Layer F) → List (List F) → List (List F) →
    Exec (List (List F))
  | [], input, _ => .ok input
  | l :: ls, input, output => do
    let output ← l.propagate o input output
    propagateLoop o ls output input

/-- `Nnet::Propagate`, `src/nnet.cc` 295-307; `out` is the old content of the caller's matrix. -/
def propagate {F : Type} (o : Ops F) (layers : List (Layer F)) (inp out : List (List F)) :
    Exec (List (List F)) := do
  resize ([] : List (List F)) inp.length (numCols inp)
  let result ← propagateLoop o layers inp []
  resize out result.length (numCols result)
  .ok result

end Verif.Nnet
