import Verif.SubVecModel
import Verif.IeeeModel

/-!
# `CopyFromVec` and `AddVec` between vectors of `float` and of `double`, on memory

Simplification: elements of different types are in different heaps.  No program can have a `float` and a `double` at the same place
and read both, so neither heap is changed by a write into the other; the promises of `__restrict__` hold.
-/

namespace Verif.VecMem

open Mat (Heap loop)

variable {F G : Type}

/-- `CopyFromVec` of a vector of another type, `src/vector.cc` 225-234; `c` is the conversion of line 232. -/
def copyConv (c : G → F) (d s : Vec) (g : Heap G) (h : Heap F) : Exec (Heap F) := do
  cassert (decide (d.dim = s.dim))
  loop d.dim (fun i h => do
    let y ← elem s i g
    setElem d i (c y) h) h

/-- `AddVec` of a vector of another type, `src/vector.cc` 239-258; `op x y` is what line 251 (or 255) makes of `data[i]` and
`other_data[i]`. -/
def addConv (op : F → G → F) (d s : Vec) (g : Heap G) (h : Heap F) : Exec (Heap F) := do
  cassert (decide (d.dim = s.dim))
  loop d.dim (fun i h => do
    let x ← elem d i h
    let y ← elem s i g
    setElem d i (op x y) h) h

end Verif.VecMem

namespace Verif.Ieee

/-- What `AddVec` of a `double` vector to a `float` vector makes of an element, `src/vector.cc` 249-257: the `float`s `alpha` and `x` are
widened, product and sum are of `double`, and the sum is converted to `float`. -/
def addTo32 (alpha x : Fl binary32) (y : Fl binary64) : Fl binary32 :=
  if alpha = fit binary32 1 then conv (add (conv x) y) else conv (add (conv x) (mul (conv alpha) y))

/-- What `AddVec` of a `float` vector to a `double` vector makes of an element, `src/vector.cc` 249-257. -/
def addTo64 (alpha x : Fl binary64) (y : Fl binary32) : Fl binary64 :=
  if alpha = fit binary64 1 then add x (conv y) else add x (mul alpha (conv y))

end Verif.Ieee
