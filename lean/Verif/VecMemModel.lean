import Verif.MatrixModel

/-!
# Model of `src/vector.h` and `src/vector.cc` at the level of memory

Elsewhere a vector is the list of its elements.  Here it is what it is in the program: a pointer and a dimension, and
the block of memory it points to is allocated and freed by the constructors, `Resize`, the assignment and the
destructor.  A program is a sequence of such steps on named objects.
-/

namespace Verif.VecMem

open Mat (Heap Addr load poke alloc free loop memset0 memcpy)

variable {F : Type}

/-- `VectorBase`, `src/vector.h` 167-170. -/
structure Vec where
  data : Option Addr
  dim : Int
deriving DecidableEq

/-- `VectorBase()`, `src/vector.h` 152-154, as used by `Vector()`, 186-187. -/
def Vec.empty : Vec := ⟨none, 0⟩

/-- `Vector::Init`, `src/vector.cc` 31-50, for elements of `w` bytes. -/
def init (w : Nat) (dim : Int) (h : Heap F) : Exec (Vec × Heap F) := do
  vecInit w dim
  if dim = 0 then .ok (.empty, h)
  else
    let r := alloc h dim.toNat
    .ok (⟨some r.2, dim⟩, r.1)

/-- `Vector::Destroy`, `src/vector.cc` 52-59; the object is left empty.  Also the destructor, `src/vector.h` 213-214. -/
def destroy (v : Vec) (h : Heap F) : Exec (Heap F) :=
  match v.data with
  | none => .ok h
  | some a => free h a

/-- `if (resize_type == kSetZero) SetZero();`, `src/vector.cc` 156 and 163, with `SetZero`, 67-70. -/
def zeroIf (z : Bool) (zero : F) (v : Vec) (h : Heap F) : Exec (Heap F) :=
  if z then memset0 zero v.data v.dim h else .ok h

/-- The second part of `Vector::Resize`, `src/vector.cc` 152-164, for `kSetZero` (`z`) and `kUndefined`. -/
def resizePlain (zero : F) (w : Nat) (v : Vec) (dim : Int) (z : Bool) (h : Heap F) : Exec (Vec × Heap F) :=
  if v.data ≠ none ∧ v.dim = dim then do
    let h ← zeroIf z zero v h
    .ok (v, h)
  else do
    let h ← destroy v h
    let r ← init w dim h
    let h ← zeroIf z zero r.1 r.2
    .ok (r.1, h)

/-- The copying in `Vector::Resize`, `src/vector.cc` 141-146: from `a` with `old` elements to `b` with `dim`. -/
def copyPart (zero : F) (b a : Addr) (dim old : Int) (h : Heap F) : Exec (Heap F) :=
  if dim > old then do
    let h ← memcpy b a old h
    memset0 zero (some ⟨b.block, b.off + old⟩) (dim - old) h
  else memcpy b a dim h

/-- `Vector::Resize` with `kCopyData`, `src/vector.cc` 130-164.  The temporary vector takes the old block away. -/
def resizeCopy (zero : F) (w : Nat) (v : Vec) (dim : Int) (h : Heap F) : Exec (Vec × Heap F) :=
  if v.data = none ∨ dim = 0 then resizePlain zero w v dim true h
  else if v.dim = dim then .ok (v, h)
  else do
    let r ← resizePlain zero w .empty dim false h
    match r.1.data, v.data with
    | some b, some a => do
      let h ← copyPart zero b a dim v.dim r.2
      let h ← destroy v h
      .ok (r.1, h)
    | _, _ => .error .ub

/-- `kSetZero`, `kUndefined`, `kCopyData`, `src/vector.h` 180-184. -/
inductive Mode
  | zero
  | undefined
  | copy
deriving DecidableEq

/-- `Vector::Resize`, `src/vector.cc` 130-164. -/
def resize (zero : F) (w : Nat) (v : Vec) (dim : Int) : Mode → Heap F → Exec (Vec × Heap F)
  | .zero => resizePlain zero w v dim true
  | .undefined => resizePlain zero w v dim false
  | .copy => resizeCopy zero w v dim

/-- `VectorBase::operator()` as the target of an assignment, `src/vector.h` 73-77.  Only the upper bound is asserted. -/
def put (v : Vec) (i : Int) (x : F) (h : Heap F) : Exec (Heap F) := do
  cassert (decide (i < v.dim))
  match v.data with
  | none => .error .ub
  | some a => poke h ⟨a.block, a.off + i⟩ (some x)

/-- `VectorBase::operator()`, `src/vector.h` 67-71. -/
def get (v : Vec) (i : Int) (h : Heap F) : Exec F := do
  cassert (decide (i < v.dim))
  match v.data with
  | none => .error .ub
  | some a => load h ⟨a.block, a.off + i⟩

/-- `VectorBase::Set`, `src/vector.cc` 61-65. -/
def fill (v : Vec) (x : F) (h : Heap F) : Exec (Heap F) :=
  loop v.dim (fun i h =>
    match v.data with
    | none => .error .ub
    | some a => poke h ⟨a.block, a.off + i⟩ (some x)) h

/-- `VectorBase::CopyFromVec` for the same type of elements, `src/vector.cc` 72-79. -/
def copyFrom (d s : Vec) (h : Heap F) : Exec (Heap F) := do
  cassert (decide (d.dim = s.dim))
  if d.data = s.data then .ok h
  else
    match d.data, s.data with
    | some a, some b => memcpy a b d.dim h
    | _, _ => if d.dim = 0 then .ok h else .error .ub

/-- A step of a program that uses vectors. -/
inductive Op (F : Type)
  /-- `Vector<Real> x(n, mode);` (`src/vector.h` 193-196) -/
  | make (x : Nat) (n : Int) (m : Mode)
  /-- `Vector<Real> x(std::move(y));` (`src/vector.cc` 11-18) -/
  | move (x y : Nat)
  /-- `x = std::move(y);` (`src/vector.cc` 20-29) -/
  | assign (x y : Nat)
  /-- `x.Swap(&y);` (`src/vector.cc` 124-128) -/
  | swap (x y : Nat)
  /-- `x.Resize(n, mode);` (`src/vector.cc` 130-164) -/
  | resize (x : Nat) (n : Int) (m : Mode)
  /-- `x(i) = v;` (`src/vector.h` 73-77) -/
  | put (x : Nat) (i : Int) (v : F)
  /-- `x.Set(v);` (`src/vector.cc` 61-65) -/
  | fill (x : Nat) (v : F)
  /-- `x.CopyFromVec(y);` (`src/vector.cc` 72-79) -/
  | copy (x y : Nat)
  /-- The end of the scope of `x` (`src/vector.h` 213-214). -/
  | drop (x : Nat)

/-- The objects of a program and its memory; the objects are those of the type `Vector`, `src/vector.h` 177-227. -/
structure St (F : Type) where
  heap : Heap F
  objs : Nat → Option Vec

/-- An object is made, changed or gone; it holds the members of `src/vector.h` 167-170. -/
def St.set (s : St F) (x : Nat) (v : Option Vec) : St F := { s with objs := fun y => if y = x then v else s.objs y }

/-- An object that is used; there is no meaning to using one outside of its scope.  The members are those of
`src/vector.h` 167-170. -/
def St.obj (s : St F) (x : Nat) : Exec Vec :=
  match s.objs x with
  | some v => .ok v
  | none => .error .ub

/-- One step of a program: `src/vector.h` 186-214, `src/vector.cc` 11-164; see `Op`. -/
def step (zero : F) (w : Nat) (s : St F) : Op F → Exec (St F)
  | .make x n m => do
    let r ← resize zero w .empty n m s.heap
    .ok ({ s with heap := r.2 }.set x (some r.1))
  | .move x y => do
    let v ← s.obj y
    .ok ((s.set x (some v)).set y (some .empty))
  | .assign x y => do
    let _ ← s.obj x
    let v ← s.obj y
    .ok ((s.set x (some v)).set y (some .empty))
  | .swap x y => do
    let v ← s.obj x
    let u ← s.obj y
    .ok ((s.set x (some u)).set y (some v))
  | .resize x n m => do
    let v ← s.obj x
    let r ← resize zero w v n m s.heap
    .ok ({ s with heap := r.2 }.set x (some r.1))
  | .put x i c => do
    let v ← s.obj x
    let h ← put v i c s.heap
    .ok { s with heap := h }
  | .fill x c => do
    let v ← s.obj x
    let h ← fill v c s.heap
    .ok { s with heap := h }
  | .copy x y => do
    let v ← s.obj x
    let u ← s.obj y
    let h ← copyFrom v u s.heap
    .ok { s with heap := h }
  | .drop x => do
    let v ← s.obj x
    let h ← destroy v s.heap
    .ok ({ s with heap := h }.set x none)

/-- A program; the steps are those of `src/vector.h` 186-214 and `src/vector.cc` 11-164. -/
def run (zero : F) (w : Nat) (ops : List (Op F)) (s : St F) : Exec (St F) := ops.foldlM (step zero w) s

/-- Before the first step: no objects, no memory.  Objects of `src/vector.h` 177-227. -/
def St.start : St F := ⟨[], fun _ => none⟩

end Verif.VecMem
