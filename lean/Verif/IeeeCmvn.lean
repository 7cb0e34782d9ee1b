import Verif.IeeeFbank
import Verif.CmvnModel

/-!
# The arithmetic of the normalisation on the machine

`src/cmvn.cc` and `VectorBase::AddVec` with `float` and `double` as in `Verif.IeeeModel`.
-/

namespace Verif.Ieee

open Verif

/-- Whether `a != 1.0` (`src/vector.cc` 249) is false. -/
def isOne : F64 → Bool
  | .num q _ => decide (q = 1)
  | _ => false

/-- The operations of `src/cmvn.cc` 35-98 and `src/vector.cc` 239-258.  Simplifications: a product and a sum are rounded one
after the other (no contraction to a fused operation); a `double` too large for a `float` becomes infinite (C++ leaves it
undefined), which does not happen where the theorems speak. -/
def cmvn : Cmvn.Ops F32 F64 where
  zero := zeroD
  ofNat n := ofNat n
  negOne := fit _ (-1)
  add := add
  sub := sub
  mul := mul
  div := div
  lt := lt
  le := le
  isOne := isOne
  toD := double
  toF := single
  fadd := add
  fmul := mul
  fneg := neg

end Verif.Ieee
