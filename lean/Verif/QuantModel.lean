import Verif.Section

/-!
# Model of the eight-bit quantisation in `src/matrix.cc`

`float` and `double` are two types `F` and `D` with uninterpreted operations; the theorems are about exact arithmetic.
The matrix is its data block: `Quantize` asserts that the stride is the number of columns.
-/

namespace Verif.Quant

/-- The arithmetic used.  Used by `src/matrix.cc` 329-387. -/
structure Ops (F D : Type) where
  /-- `std::numeric_limits<float>::max()` -/
  fltMax : F
  /-- `std::numeric_limits<float>::min()`, the smallest positive normal number -/
  fltMin : F
  /-- `a < b` on `float` -/
  lt : F → F → Bool
  /-- `float - float` -/
  fsub : F → F → F
  /-- `float + float` -/
  fadd : F → F → F
  /-- `float / float` -/
  fdiv : F → F → F
  /-- unary minus on `float` -/
  fneg : F → F
  /-- an integer as `float` -/
  ofInt : Int → F
  /-- `roundf`, for a finite argument -/
  roundF : F → Int
  /-- conversion `float` to `double` -/
  toD : F → D
  /-- conversion `double` to `float` -/
  toF : D → F
  /-- `double / double` with a divisor other than zero -/
  ddiv : D → D → D
  /-- `255.0` -/
  d255 : D
  /-- the value is zero -/
  isZero : D → Bool
  /-- `round`, for a finite argument -/
  roundD : D → Int

variable {F D : Type}

/-- `FindMinMax`, `src/matrix.cc` 329-345: `(min, max)`.  The maximum starts from the smallest positive number. -/
def findMinMax (o : Ops F D) (data : List F) : F × F :=
  data.foldl (fun (mm : F × F) v => (if o.lt v mm.1 then v else mm.1, if o.lt mm.2 v then v else mm.2))
    (o.fltMax, o.fltMin)

/-- `QuantizationParams`, `src/matrix.h` 231-234. -/
structure Params (F : Type) where
  scale : F
  zeroPoint : Int
deriving DecidableEq

/-- `ComputeQuantizationParams`, `src/matrix.cc` 348-362.  Division by a zero `scale` gives an infinity or NaN, whose
conversion to `int32_t` is undefined, as is the conversion of a number that does not fit. -/
def computeParams (o : Ops F D) (data : List F) : Exec (Params F) := do
  let mm := findMinMax o data
  let scale := o.ddiv (o.toD (o.fsub mm.2 mm.1)) o.d255
  if o.isZero scale then .error .ub
  else do
    let zp ← i32 (o.roundD (o.ddiv (o.toD (o.fneg mm.1)) scale))
    .ok ⟨o.toF scale, zp⟩

/-- One element, `src/matrix.cc` 382-385: `std::min(val, 255.0f)`, `std::max(0.0f, ...)`, and a conversion to `uint8_t`
that is undefined outside its range. -/
def quantOne (o : Ops F D) (p : Params F) (v : F) : Exec Nat :=
  let v := o.fadd (o.fdiv v p.scale) (o.ofInt p.zeroPoint)
  let v := if o.lt (o.ofInt 255) v then o.ofInt 255 else v
  let v := if o.lt (o.ofInt 0) v then v else o.ofInt 0
  let n := o.roundF v
  if 0 ≤ n ∧ n ≤ 255 then .ok n.toNat else .error .ub

/-- `Quantize`, `src/matrix.cc` 366-387, on the data block of a `rows × cols` matrix; the result is the data block of
`dest` and the parameters.  Simplification: a `dest` that already has the right size is taken to have no padding. -/
def quantize (o : Ops F D) (rows cols stride : Int) (data : List F) : Exec (List Nat × Params F) := do
  cassert (decide (stride = cols))
  cassert (decide (cols ≠ 0 ∧ rows ≠ 0))
  let n ← i32 (cols * rows)
  if (data.length : Int) < n then .error .ub
  else do
    let p ← computeParams o (data.take n.toNat)
    matInit rows cols
    let q ← (data.take n.toNat).mapM (quantOne o p)
    .ok (q, p)

end Verif.Quant
