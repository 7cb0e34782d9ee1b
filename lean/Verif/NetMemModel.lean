import Verif.SubVecModel
import Verif.NnetModel

/-!
# Model of the network at the level of memory (`src/nnet.cc`, `MatMat` of `src/matrix.cc`)

In `NnetModel` a matrix is the list of its rows.  Here the layers work on what they have in the program: pointers to
blocks of memory, some shared, some freed on the way.  The parameters of the layers are objects in memory too.
-/

namespace Verif.NetMem

open Mat (Heap Addr View load poke loop destroy resizePlain copyFromMat)
open VecMem (Vec elem setElem mapVec mulVec addVec subVec copyVec get put)
open Nnet (Ops)

variable {F : Type}

/-- The subclasses of `Layer` with their members, `src/nnet.h` 23-199: `W_`, `b_`, `indices_`, `scale_`, `offset_`,
`narrow_left_`, `narrow_right_`.  Matrices and vectors are pointers and dimensions. -/
inductive LayerM
  | linear (W : View) (b : Vec)
  | relu
  | normalize
  | softmax
  | splice (indices : List Int)
  | batchNorm (scale offset : Vec)
  | logSoftmax
  | narrow (left right : Int)
deriving DecidableEq

/-- A loop that also changes a variable, as in `src/vector.cc` 98-102. -/
def loopS {S : Type} (n : Int) (f : Int → S → Heap F → Exec (S × Heap F)) (s : S) (h : Heap F) : Exec (S × Heap F) :=
  (List.range n.toNat).foldlM (fun p (i : Nat) => f i p.1 p.2) (s, h)

/-- A loop that changes a variable but not the memory, as in `src/vector.cc` 88-90 and 113-116. -/
def sumLoop {S : Type} (n : Int) (f : Int → S → Exec S) (s : S) : Exec S :=
  (List.range n.toNat).foldlM (fun s (i : Nat) => f i s) s

/-- `MatrixBase::Row`, `src/matrix.h` 73-82, with its length. -/
def rowOf (v : View) (i : Int) : Exec Vec := do
  let a ← v.row i
  .ok ⟨some a, v.cols⟩

/-- Reading `n` elements from `a` on.  The library reads them in some order; nothing is written meanwhile.
Called in `src/matrix.cc` 308-322. -/
def readLine (a : Addr) (n : Int) (h : Heap F) : Exec (List F) :=
  (List.range n.toNat).mapM fun j : Nat => load h ⟨a.block, a.off + j⟩

/-- Reading `m` rows of `n` elements that are `ld` elements apart.  Called in `src/matrix.cc` 308-322. -/
def readRows (a : Addr) (m n ld : Int) (h : Heap F) : Exec (List (List F)) :=
  (List.range m.toNat).mapM fun i : Nat => readLine ⟨a.block, a.off + i * ld⟩ n h

/-- Writing the result of the product, row by row.  Called in `src/matrix.cc` 308-322. -/
def writeRows (c : Addr) (m n ld : Int) (r : List (List F)) (h : Heap F) : Exec (Heap F) :=
  loop m (fun i h => do
    let row ← aget r i
    loop n (fun j h => do
      let x ← aget row j
      poke h ⟨c.block, c.off + i * ld + j⟩ (some x)) h) h

/-- The spans of two matrices have memory in common: from the first element of the first row to the last element of the
last row.  `src/matrix.cc` 308-322. -/
def spansMeet (a : Addr) (m n ld : Int) (c : Addr) (m' n' ld' : Int) : Bool :=
  decide (a.block = c.block ∧ a.off < c.off + (m' - 1) * ld' + n' ∧ c.off < a.off + (m - 1) * ld + n)

/-- `cblas_sgemm(CblasRowMajor, CblasNoTrans, CblasNoTrans, m, n, k, 1.0f, a, lda, b, ldb, 0.0f, c, ldc)` of the BLAS
library, called in `src/matrix.cc` 308-322, by its description: leading dimensions that are too small are an error that
ends the program; `c` is not read, for the factor before it is zero; the product itself is `o.gemm`.  A `c` that overlaps
with `a` or `b` is not allowed (here: if the spans do). -/
def sgemm (o : Ops F) (m n k : Int) (a : Addr) (lda : Int) (b : Addr) (ldb : Int) (c : Addr) (ldc : Int) (h : Heap F) :
    Exec (Heap F) := do
  cassert (decide (0 ≤ m ∧ 0 ≤ n ∧ 0 ≤ k ∧ max 1 k ≤ lda ∧ max 1 n ≤ ldb ∧ max 1 n ≤ ldc))
  if spansMeet a m k lda c m n ldc || spansMeet b k n ldb c m n ldc then .error .ub
  else do
    let x ← readRows a m k lda h
    let y ← readRows b k n ldb h
    writeRows c m n ldc (o.gemm x y) h

/-- `MatMat`, `src/matrix.cc` 300-323.  Empty matrices, whose pointer is null, do not get here. -/
def matMat (o : Ops F) (A B C : View) (h : Heap F) : Exec (Heap F) := do
  cassert (decide (A.cols = B.rows ∧ A.rows = C.rows ∧ B.cols = C.cols))
  match A.data, B.data, C.data with
  | some a, some b, some c => sgemm o A.rows B.cols A.cols a A.stride b B.stride c C.stride h
  | _, _, _ => .error .ub

/-- `for (int row_idx = 0; row_idx < out->NumRows(); ++row_idx)` with `out->Row(row_idx)`, as in `src/nnet.cc` 32-35. -/
def forRows (v : View) (f : Int → Vec → Heap F → Exec (Heap F)) (h : Heap F) : Exec (Heap F) :=
  loop v.rows (fun i h => do
    let r ← rowOf v i
    f i r h) h

/-- The loop of `ReLULayer::Propagate`, `src/nnet.cc` 156-158. -/
def reluRow (o : Ops F) (r : Vec) (h : Heap F) : Exec (Heap F) :=
  loop r.dim (fun i h => do
    let x ← get r i h
    if o.lt x o.zero then put r i o.zero h else .ok h) h

/-- `VectorBase::VecVec` with itself, `src/vector.cc` 81-92. -/
def squares (o : Ops F) (r : Vec) (h : Heap F) : Exec F :=
  sumLoop r.dim (fun i s => do
    let x ← elem r i h
    let y ← elem r i h
    .ok (o.add s (o.mul x y))) o.zero

/-- The body of the loop of `NormalizeLayer::Propagate`, `src/nnet.cc` 169-173, with `Scale`, `src/vector.cc` 193-198. -/
def normalizeRow (o : Ops F) (d : F) (r : Vec) (h : Heap F) : Exec (Heap F) := do
  let s ← squares o r h
  mapVec (fun v => o.mul v (o.rootOf d s)) r h

/-- `VectorBase::ApplySoftMax`, `src/vector.cc` 95-107. -/
def softMaxRow (o : Ops F) (r : Vec) (h : Heap F) : Exec (Heap F) := do
  let p ← loopS r.dim (fun i s h => do
    let x ← get r i h
    let h ← put r i (o.expf x) h
    .ok (o.add s (o.expf x), h)) o.zero h
  loop r.dim (fun i h => do
    let x ← get r i h
    put r i (o.div x p.1) h) p.2

/-- `VectorBase::ApplyLogSoftMax`, `src/vector.cc` 109-122. -/
def logSoftMaxRow (o : Ops F) (r : Vec) (h : Heap F) : Exec (Heap F) := do
  let s ← sumLoop r.dim (fun i s => do
    let x ← get r i h
    .ok (o.add s (o.exp x))) o.zero
  loop r.dim (fun i h => do
    let x ← get r i h
    put r i (o.sub x (o.log s)) h) h

/-- The loop over `indices_` of `SpliceLayer::Propagate`, `src/nnet.cc` 62-74, for one row `r` of the output. -/
def spliceRow (inp : View) (outCols rowIdx : Int) (r : Vec) : List Int → Int → Heap F → Exec (Heap F)
  | [], offset, h => do
    cassert (decide (offset = outCols))
    .ok h
  | c :: cs, offset, h => do
    let cnt ← i32 (rowIdx + c)
    let cnt := if cnt < 0 then 0 else cnt
    let cnt := if cnt > inp.rows - 1 then inp.rows - 1 else cnt
    let v ← subVec r offset inp.cols h
    let s ← rowOf inp cnt
    let h ← copyVec v s h
    let offset ← i32 (offset + inp.cols)
    spliceRow inp outCols rowIdx r cs offset h

/-- `out->Resize(rows, cols)`, with the defaults `kSetZero` and `kStrideEqualNumCols` of `src/matrix.h` 184-187. -/
def resizeTo (o : Ops F) (out : View) (rows cols : Int) (h : Heap F) : Exec (View × Heap F) :=
  resizePlain o.zero 4 out rows cols true false h

/-- `out->Resize(in.NumRows(), in.NumCols()); out->CopyFromMat(in);` and a loop over the rows of `*out`, the common form
of `src/nnet.cc` 110-116, 129-134, 140-145, 152-159, 166-174. -/
def copyAnd (o : Ops F) (f : Int → Vec → Heap F → Exec (Heap F)) (inp out : View) (h : Heap F) :
    Exec (View × Heap F) := do
  let r ← resizeTo o out inp.rows inp.cols h
  let h ← copyFromMat r.1 inp r.2
  let h ← forRows r.1 f h
  .ok (r.1, h)

/-- `NarrowLayer::Propagate`, `src/nnet.cc` 182-202. -/
def narrowM (o : Ops F) (l r : Int) (inp out : View) (h : Heap F) : Exec (View × Heap F) := do
  cassert (decide (0 ≤ l))
  let s ← i32 (l + r)
  if inp.rows ≤ s then do
    let t ← resizeTo o out inp.rows inp.cols h
    let h ← copyFromMat t.1 inp t.2
    .ok (t.1, h)
  else do
    let x ← i32 (inp.rows - l)
    let num ← i32 (x - r)
    let t ← resizeTo o out num inp.cols h
    let v ← inp.range l num 0 inp.cols
    let h ← copyFromMat t.1 v t.2
    .ok (t.1, h)

/-- `SpliceLayer::Propagate`, `src/nnet.cc` 50-75.  `indices_.size() * in.NumCols()` is a `size_t`, stored in an
`int`. -/
def spliceM (o : Ops F) (idx : List Int) (inp out : View) (h : Heap F) : Exec (View × Heap F) := do
  cassert (decide (idx.length ≠ 0))
  if inp.rows = 0 ∨ inp.cols = 0 then .ok (out, h)
  else do
    let outCols := wrap32 ((idx.length : Int) * inp.cols)
    let t ← resizeTo o out inp.rows outCols h
    let h ← forRows t.1 (fun i r h => spliceRow inp outCols i r idx 0 h) t.2
    .ok (t.1, h)

/-- `LinearLayer::Propagate`, `src/nnet.cc` 22-36. -/
def linearM (o : Ops F) (W : View) (b : Vec) (inp out : View) (h : Heap F) : Exec (View × Heap F) := do
  cassert (decide (b.dim ≠ 0))
  let t ← resizeTo o out inp.rows W.cols h
  let h ← matMat o inp W t.1 t.2
  let h ← forRows t.1 (fun _ r h => addVec o.add r b h) h
  .ok (t.1, h)

/-- `BatchNormLayer::Propagate`, `src/nnet.cc` 106-117. -/
def batchNormM (o : Ops F) (scale offset : Vec) (inp out : View) (h : Heap F) : Exec (View × Heap F) := do
  cassert (decide (0 < scale.dim))
  copyAnd o (fun _ r h => do
    let h ← mulVec o.mul r scale h
    addVec o.add r offset h) inp out h

/-- `Layer::Propagate` of the subclasses, `src/nnet.cc` 22-202: `LinearLayer` 22-36, `SpliceLayer` 50-75,
`BatchNormLayer` 106-117, `SoftmaxLayer` 126-135, `LogSoftmaxLayer` 137-146, `ReLULayer` 149-160,
`NormalizeLayer` 162-175, `NarrowLayer` 182-202.  The new `*out` is returned. -/
def LayerM.propagate (o : Ops F) (inp out : View) (h : Heap F) : LayerM → Exec (View × Heap F)
  | .linear W b => linearM o W b inp out h
  | .relu => copyAnd o (fun _ r h => reluRow o r h) inp out h
  | .normalize => copyAnd o (fun _ r h => normalizeRow o (o.ofInt inp.cols) r h) inp out h
  | .softmax => copyAnd o (fun _ r h => softMaxRow o r h) inp out h
  | .splice idx => spliceM o idx inp out h
  | .batchNorm scale offset => batchNormM o scale offset inp out h
  | .logSoftmax => copyAnd o (fun _ r h => logSoftMaxRow o r h) inp out h
  | .narrow l r => narrowM o l r inp out h

/-- The loop of `Nnet::Propagate`, `src/nnet.cc` 300-303; `Swap`, `src/matrix.cc` 40-46, exchanges the pointers and
dimensions of `layer_input` and `layer_output`. -/
def netLoop (o : Ops F) : List LayerM → View → View → Heap F → Exec (View × View × Heap F)
  | [], inp, out, h => .ok (inp, out, h)
  | l :: ls, inp, out, h => do
    let r ← l.propagate o inp out h
    netLoop o ls r.1 inp r.2

/-- `Nnet::Propagate`, `src/nnet.cc` 295-307; at the end the destructors of `layer_output` and `layer_input`,
`src/matrix.h` 170.  The new `*out` is returned. -/
def propagate (o : Ops F) (layers : List LayerM) (inp out : View) (h : Heap F) : Exec (View × Heap F) := do
  let t ← resizeTo o .empty inp.rows inp.cols h
  let h ← copyFromMat t.1 inp t.2
  let r ← netLoop o layers t.1 .empty h
  let u ← resizeTo o out r.1.rows r.1.cols r.2.2
  let h ← copyFromMat u.1 r.1 u.2
  let h ← destroy r.2.1 h
  let h ← destroy r.1 h
  .ok (u.1, h)

end Verif.NetMem
