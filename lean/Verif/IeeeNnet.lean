import Verif.IeeeFbank
import Verif.NnetModel

/-!
# The acoustic model on the machine

The operations of `src/nnet.cc` with the arithmetic of IEEE 754 (`IeeeModel.lean`).  The matrix product is that of whatever
BLAS is linked.
-/

namespace Verif.Ieee

open Verif

/-- The functions of the C library and of BLAS: `expf` and `exp` stored as `float` (`src/vector.cc` 99, 114), `log` stored as
`float` (`src/vector.cc` 117), `sqrt` of a `double` (`src/nnet.cc` 172), `cblas_sgemm` (`src/matrix.cc` 308-322). -/
structure NnLib where
  expf : F32 → F32
  exp : F32 → F32
  log : F32 → F32
  sqrt : F64 → F64
  gemm : List (List F32) → List (List F32) → List (List F32)

/-- The operations of `src/nnet.cc` 22-202 and `src/vector.cc` 82-122, 179-258.  In `D / squared_sum` (`src/nnet.cc` 172) both
sides are `double`s with the value of a `float`. -/
def nnet (lib : NnLib) : Nnet.Ops F32 where
  zero := fit _ 0
  negOne := fit _ (-1)
  add := add
  sub := sub
  mul := mul
  div := div
  lt := lt
  ofInt n := fit _ n
  expf := lib.expf
  exp := lib.exp
  log := lib.log
  rootOf d s := single (lib.sqrt (div (double d) (double s)))
  gemm := lib.gemm

end Verif.Ieee
