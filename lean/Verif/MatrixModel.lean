import Verif.Section

/-!
# Model of `src/matrix.h` and `src/matrix.cc` at the level of memory

Elsewhere a matrix is the list of its rows.  Here it is what it is in the program: a pointer, two dimensions and a
stride.  Several matrices may share a block of memory, wholly or in part.
-/

namespace Verif.Mat

/-- A pointer: a block and the offset from its start, in elements.
`data_`, `src/matrix.h` 127 and `src/vector.h` 168. -/
structure Addr where
  block : Nat
  off : Int
deriving DecidableEq

/-- Memory: the blocks ever allocated; `none` is a block that was freed, and an element `none` was not written yet.
Allocated in `src/matrix.cc` 86 and `src/vector.cc` 44. -/
abbrev Heap (F : Type) := List (Option (List (Option F)))

variable {F : Type}

/-- What is at an address; `none` if nothing may be accessed there.
Accesses through `data_`, such as `src/matrix.h` 61-71. -/
def peek (h : Heap F) (a : Addr) : Option (Option F) :=
  match h[a.block]? with
  | some (some blk) => if 0 ≤ a.off then blk[a.off.toNat]? else none
  | _ => none

/-- Reading an element; reading one that was never written is undefined.
Accesses through `data_`, such as `src/matrix.h` 68-71. -/
def load (h : Heap F) (a : Addr) : Exec F :=
  match peek h a with
  | some (some v) => .ok v
  | _ => .error .ub

/-- Writing an element (or copying one that was never written, as `memcpy` may).
Accesses through `data_`, such as `src/matrix.h` 61-64. -/
def poke (h : Heap F) (a : Addr) (c : Option F) : Exec (Heap F) :=
  match h[a.block]? with
  | some (some blk) =>
    if 0 ≤ a.off ∧ a.off < blk.length then .ok (h.set a.block (some (blk.set a.off.toNat c))) else .error .ub
  | _ => .error .ub

/-- `posix_memalign`, for `n` elements.  Blocks are never used again, and there is always enough memory.
`src/matrix.cc` 86, `src/vector.cc` 44. -/
def alloc (h : Heap F) (n : Nat) : Heap F × Addr := (h ++ [some (List.replicate n none)], ⟨h.length, 0⟩)

/-- `free`.  `src/matrix.cc` 147, `src/vector.cc` 56. -/
def free (h : Heap F) (a : Addr) : Exec (Heap F) :=
  match h[a.block]? with
  | some (some _) => if a.off = 0 then .ok (h.set a.block none) else .error .ub
  | _ => .error .ub

/-- `for (int i = 0; i < n; ++i)`.  Such as `src/vector.cc` 64, 88. -/
def loop (n : Int) (f : Int → Heap F → Exec (Heap F)) (h : Heap F) : Exec (Heap F) :=
  (List.range n.toNat).foldlM (fun h (i : Nat) => f i h) h

/-- `memset(p, 0, n * sizeof(Real))`; nothing is done for no elements, even if the pointer is null.
`src/vector.cc` 69, 143, `src/matrix.cc` 249, 252. -/
def memset0 (zero : F) (p : Option Addr) (n : Int) (h : Heap F) : Exec (Heap F) :=
  match p with
  | none => if n = 0 then .ok h else .error .ub
  | some a => loop n (fun i h => poke h ⟨a.block, a.off + i⟩ (some zero)) h

/-- `memcpy(d, s, n * sizeof(Real))`: undefined if the two areas overlap.  `src/vector.cc` 77, 142, 145. -/
def memcpy (d s : Addr) (n : Int) (h : Heap F) : Exec (Heap F) :=
  if d.block = s.block ∧ d.off < s.off + n ∧ s.off < d.off + n then .error .ub
  else loop n (fun i h =>
    match peek h ⟨s.block, s.off + i⟩ with
    | some c => poke h ⟨d.block, d.off + i⟩ c
    | none => .error .ub) h

/-- `MatrixBase`, `src/matrix.h` 126-134. -/
structure View where
  data : Option Addr
  rows : Int
  cols : Int
  stride : Int
deriving DecidableEq

/-- The matrix without rows and columns, `src/matrix.h` 150-156. -/
def View.empty : View := ⟨none, 0, 0, 0⟩

/-- `MatrixBase::operator()`, `src/matrix.h` 59-71: the address of an element.  Only the upper bounds are asserted. -/
def View.at (v : View) (r c : Int) : Exec Addr := do
  cassert (decide (r < v.rows ∧ c < v.cols))
  let x ← i32 (r * v.stride)
  match v.data with
  | none => .error .ub
  | some a => .ok ⟨a.block, a.off + x + c⟩

/-- `MatrixBase::Row`, `src/matrix.h` 73-82: the address of the first element; the length is `NumCols()`. -/
def View.row (v : View) (r : Int) : Exec Addr := do
  cassert (decide (r < v.rows))
  let x ← i32 (r * v.stride)
  match v.data with
  | none => .error .ub
  | some a => .ok ⟨a.block, a.off + x⟩

/-- `VectorBase::CopyFromVec`, `src/vector.cc` 74-79, for rows of two matrices. -/
def copyRow (d s : Addr) (dn sn : Int) (h : Heap F) : Exec (Heap F) := do
  cassert (decide (dn = sn))
  if d = s then .ok h else memcpy d s dn h

/-- `MatrixBase::CopyFromMat` with `kNoTrans`, `src/matrix.cc` 22-26. -/
def copyFromMat (d s : View) (h : Heap F) : Exec (Heap F) := do
  cassert (decide (d.rows = s.rows ∧ d.cols = s.cols))
  loop d.rows (fun i h => do
    let a ← d.row i
    let b ← s.row i
    copyRow a b d.cols s.cols h) h

/-- One assignment of `MatrixBase::CopyFromMat` with `kTrans`, `src/matrix.cc` 34: the indices are `int`s. -/
def copyOneT (d s : View) (i j : Int) (h : Heap F) : Exec (Heap F) := do
  let x ← i32 (i * d.stride)
  let x ← i32 (x + j)
  let y ← i32 (j * s.stride)
  let y ← i32 (y + i)
  match d.data, s.data with
  | some a, some b => do
    let v ← load h ⟨b.block, b.off + y⟩
    poke h ⟨a.block, a.off + x⟩ (some v)
  | _, _ => .error .ub

/-- `MatrixBase::CopyFromMat` with `kTrans`, `src/matrix.cc` 27-37. -/
def copyFromMatT (d s : View) (h : Heap F) : Exec (Heap F) := do
  cassert (decide (d.cols = s.rows ∧ d.rows = s.cols))
  loop d.rows (fun i h => loop d.cols (fun j h => copyOneT d s i j h) h) h

/-- One exchange of `MatrixBase::Transpose`, `src/matrix.cc` 54-55. -/
def swapOne (v : View) (i j : Int) (h : Heap F) : Exec (Heap F) := do
  let a ← v.at i j
  let b ← v.at j i
  let x ← load h a
  let y ← load h b
  let h ← poke h a (some y)
  poke h b (some x)

/-- `MatrixBase::Transpose`, `src/matrix.cc` 49-58. -/
def transpose (v : View) (h : Heap F) : Exec (Heap F) := do
  cassert (decide (v.rows = v.cols))
  loop v.rows (fun i h => loop i (fun j h => swapOne v i j h) h) h

/-- `MatrixBase::SetZero`, `src/matrix.cc` 247-253. -/
def setZero (zero : F) (v : View) (h : Heap F) : Exec (Heap F) :=
  if v.cols = v.stride then memset0 zero v.data (v.rows * v.cols) h
  else loop v.rows (fun row h => do
    let x ← i32 (row * v.stride)
    memset0 zero (v.data.map fun a => ⟨a.block, a.off + x⟩) v.cols h) h

/-- `Matrix::Init`, `src/matrix.cc` 61-95, for elements of `w` bytes (1, 4 or 8); `pad` is `stride_type ==
kDefaultStride`. -/
def init (w : Nat) (pad : Bool) (rows cols : Int) (h : Heap F) : Exec (View × Heap F) := do
  matInit rows cols
  if rows * cols = 0 then .ok (.empty, h)
  else do
    let n : Int := 16 / w
    let stride ← i32 (cols + (n - cols % n) % n)
    let r := alloc h (rows * stride).toNat
    .ok (⟨some r.2, rows, cols, if pad then stride else cols⟩, r.1)

/-- `Matrix::Destroy`, `src/matrix.cc` 144-152. -/
def destroy (v : View) (h : Heap F) : Exec (Heap F) :=
  match v.data with
  | none => .ok h
  | some a => free h a

/-- `if (resize_type == kSetZero) SetZero();`, `src/matrix.cc` 132-133 and 140. -/
def zeroIf (z : Bool) (zero : F) (v : View) (h : Heap F) : Exec (Heap F) := if z then setZero zero v h else .ok h

/-- The second part of `Matrix::Resize`, `src/matrix.cc` 127-141, for `kSetZero` (`z`) and `kUndefined`. -/
def resizePlain (zero : F) (w : Nat) (v : View) (rows cols : Int) (z pad : Bool) (h : Heap F) :
    Exec (View × Heap F) :=
  if v.data ≠ none ∧ rows = v.rows ∧ cols = v.cols then do
    let h ← zeroIf z zero v h
    .ok (v, h)
  else do
    let h ← destroy v h
    let r ← init w pad rows cols h
    let h ← zeroIf z zero r.1 r.2
    .ok (r.1, h)

/-- `SubMatrix::SubMatrix`, `src/matrix.cc` 196-220, as called by `Range`, `src/matrix.h` 92-99. -/
def View.range (m : View) (ro r co c : Int) : Exec View :=
  if r = 0 ∨ c = 0 then do
    cassert (decide (c = 0 ∧ r = 0))
    .ok .empty
  else do
    let x ← i32 (m.rows - ro)
    let y ← i32 (m.cols - co)
    cassert (decide (ro < m.rows ∧ co < m.cols ∧ r ≤ x ∧ c ≤ y))
    match m.data with
    | none => .error .ub
    | some a => .ok ⟨some ⟨a.block, a.off + co + ro * m.stride⟩, r, c, m.stride⟩

/-- `Matrix::Resize` with `kCopyData`, `src/matrix.cc` 98-141.  The temporary matrix gets no padding whatever
`stride_type` says, and is destroyed with the old contents. -/
def resizeCopy (zero : F) (w : Nat) (v : View) (rows cols : Int) (pad : Bool) (h : Heap F) : Exec (View × Heap F) :=
  if v.data = none ∨ rows = 0 then resizePlain zero w v rows cols true pad h
  else if rows = v.rows ∧ cols = v.cols then .ok (v, h)
  else do
    let r ← resizePlain zero w .empty rows cols (decide (rows > v.rows ∨ cols > v.cols)) false h
    let d ← r.1.range 0 (min rows v.rows) 0 (min cols v.cols)
    let s ← v.range 0 (min rows v.rows) 0 (min cols v.cols)
    let h ← copyFromMat d s r.2
    let h ← destroy v h
    .ok (r.1, h)

/-- The body of the innermost loop of `SimpleMatMat`, `src/matrix.cc` 288. -/
def mulAcc (add mul : F → F → F) (A B C : View) (row col k : Int) (h : Heap F) : Exec (Heap F) := do
  let c ← C.at row col
  let a ← A.at row k
  let b ← B.at k col
  let x ← load h c
  let y ← load h a
  let z ← load h b
  poke h c (some (add x (mul y z)))

/-- `SimpleMatMat`, `src/matrix.cc` 275-292. -/
def simpleMatMat (zero : F) (add mul : F → F → F) (A B C : View) (h : Heap F) : Exec (Heap F) := do
  cassert (decide (B.cols = C.cols))
  cassert (decide (A.rows = C.rows))
  cassert (decide (A.cols = B.rows))
  let h ← setZero zero C h
  loop A.rows (fun row h => loop B.cols (fun col h => loop A.cols (fun k h => mulAcc add mul A B C row col k h) h) h) h

end Verif.Mat
