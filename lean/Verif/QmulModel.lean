import Verif.QuantModel

/-!
# Model of `MatMat_U8U8F32` in `src/matrix.cc`

The vendored library gemmlowp is taken to read the matrices where it is told to and to compute as
`src/gemmlowp/internal/unpack.h` says; how it cuts the matrices into blocks is not modelled.
-/

namespace Verif.Quant

variable {F : Type}

/-- `MatrixBase<uint8_t>`, `src/matrix.h` 126-134: dimensions, stride and the memory from `data_` on. -/
structure ByteMat where
  rows : Int
  cols : Int
  stride : Int
  mem : List Nat

/-- `MatrixBase<float>`, `src/matrix.h` 126-134: dimensions, stride and the memory from `data_` on, in which elements
may be unset. -/
structure FloatMat (F : Type) where
  rows : Int
  cols : Int
  stride : Int
  mem : List (Option F)

/-- A sum of `k` terms in `int32_t`, as the kernels compute it, `src/gemmlowp/internal/kernel_reference.h` 57-92. -/
def sum32 (f : Nat → Exec Int) : Nat → Exec Int
  | 0 => .ok 0
  | k + 1 => do
    let s ← sum32 f k
    let x ← f k
    i32 (s + x)

/-- An element of a byte matrix in the way gemmlowp finds it, `MatrixMap` in
`src/gemmlowp/eight_bit_int_gemm/eight_bit_int_gemm.cc` 123-124: rows behind each other at distance `ld`. -/
def byteAt (mem : List Nat) (ld : Int) (i j : Nat) : Exec Int := do
  let x ← aget mem (i * ld + j)
  .ok (x : Int)

/-- One element of the product, `src/gemmlowp/internal/unpack.h` 109-125: the sum of products, then the offsets are
taken into account.  Overflow is undefined (the versions for vector units wrap around). -/
def gemmEntry (a b : List Nat) (offA offB lda ldb : Int) (k i j : Nat) : Exec Int := do
  let acc ← sum32 (fun l => do
    let x ← byteAt a lda i l
    let y ← byteAt b ldb l j
    .ok (x * y)) k
  let lhs ← sum32 (fun l => byteAt a lda i l) k
  let rhs ← sum32 (fun l => byteAt b ldb l j) k
  let t ← i32 (lhs * offB)
  let acc ← i32 (acc + t)
  let d ← i32 (offB * k)
  let u ← i32 (rhs + d)
  let t ← i32 (u * offA)
  i32 (acc + t)

/-- `dest_row[j] = …`, `src/gemmlowp/eight_bit_int_gemm/eight_bit_int_gemm.cc` 389. -/
def storeAt (mem : List (Option F)) (p : Int) (x : F) : Exec (List (Option F)) :=
  if 0 ≤ p ∧ p < mem.length then .ok (mem.set p.toNat (some x)) else .error .ub

/-- The loops of `EightBitIntGemm` with `transpose_c`,
`src/gemmlowp/eight_bit_int_gemm/eight_bit_int_gemm.cc` 385-391.  The element of the product is computed when it is
needed, not beforehand. -/
def storeAll (m n : Nat) (ldc : Int) (f : Nat → Nat → Exec F) (mem : List (Option F)) : Exec (List (Option F)) :=
  (List.range m).foldlM (fun mem i => (List.range n).foldlM (fun mem j => do
    let x ← f i j
    storeAt mem (i * ldc + j) x) mem) mem

/-- `MatMat_U8U8F32`, `src/matrix.cc` 389-420: the memory of `C` afterwards.  The distance of rows passed on is the number
of columns, not the stride. -/
def matMatU8 (ofInt : Int → F) (mul : F → F → F) (A : ByteMat) (pa : Params F) (B : ByteMat) (pb : Params F)
    (C : FloatMat F) : Exec (List (Option F)) := do
  cassert (decide (A.cols = B.rows ∧ A.rows = C.rows ∧ B.cols = C.cols))
  let x ← i32 (A.cols * A.rows)
  cassert (decide (x > 1))
  let y ← i32 (B.cols * B.rows)
  cassert (decide (y > 1))
  let offA ← i32 (-pa.zeroPoint)
  let offB ← i32 (-pb.zeroPoint)
  storeAll A.rows.toNat B.cols.toNat C.cols (fun i j => do
    let s ← gemmEntry A.mem B.mem offA offB A.cols B.cols A.cols.toNat i j
    .ok (mul (ofInt s) (mul pa.scale pb.scale))) C.mem

end Verif.Quant
