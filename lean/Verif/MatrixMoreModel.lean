import Verif.MatrixModel
import Verif.SubVecModel

/-!
# The rest of `src/matrix.cc` at the level of memory: matrices on plain arrays, `Scale`, `SetRand`
-/

namespace Verif.Mat

variable {F : Type}

/-- `SubMatrix(data, num_rows, num_cols, stride)`, `src/matrix.cc` 223-237, with the constructor of `MatrixBase`,
`src/matrix.h` 105-107.  In the second branch `stride_` and `num_cols_` are those of the arguments. -/
def plain (data : Option Addr) (rows cols stride : Int) : Exec View :=
  match data with
  | none => do
    let n ← i32 (rows * cols)
    cassert (decide (n = 0))
    .ok .empty
  | some a => do
    cassert (decide (stride ≥ cols))
    .ok ⟨some a, rows, cols, stride⟩

/-- `MatrixBase::Scale`, `src/matrix.cc` 239-244: `Row(r).Scale(scale)` for each row (`src/vector.cc` 193-198); `f x` is
`x * scale`. -/
def scale (f : F → F) (v : View) (h : Heap F) : Exec (Heap F) :=
  loop v.rows (fun r h => do
    let a ← v.row r
    VecMem.mapVec f ⟨some a, v.cols⟩ h) h

/-- A loop that also draws numbers: the memory and the count of the numbers drawn so far.
`for` of `src/matrix.cc` 257-258. -/
def drawLoop (n : Int) (f : Int → Heap F × Nat → Exec (Heap F × Nat)) (s : Heap F × Nat) : Exec (Heap F × Nat) :=
  (List.range n.toNat).foldlM (fun s (i : Nat) => f i s) s

/-- `MatrixBase::SetRand`, `src/matrix.cc` 255-262.  `unit k` is `static_cast<Real>(rand()) / RAND_MAX` for the `k`-th call of
`rand` of the program. -/
def setRand (unit : Nat → F) (v : View) (s : Heap F × Nat) : Exec (Heap F × Nat) :=
  drawLoop v.rows (fun row s => drawLoop v.cols (fun col s => do
    let a ← v.at row col
    let h ← poke s.1 a (some (unit s.2))
    .ok (h, s.2 + 1)) s) s

end Verif.Mat
