import Verif.MatrixMoreModel
import Verif.IeeeModel

/-!
# The numbers `MatrixBase::SetRand` puts into a matrix
-/

namespace Verif.Ieee

/-- `static_cast<Real>(rand()) / RAND_MAX`, `src/matrix.cc` 259, for the `int` `r`; `RAND_MAX` is converted to `Real` too.
Simplification: `RAND_MAX` is 2147483647, as in the GNU library. -/
def ofRand (f : Format) [Good f] (r : Nat) : Fl f := div (ofNat r) (ofNat 2147483647)

end Verif.Ieee
