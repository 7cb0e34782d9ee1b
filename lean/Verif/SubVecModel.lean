import Verif.VecMemModel

/-!
# Model of `SubVector` and of the other methods of `VectorBase` (`src/vector.h`, `src/vector.cc`)

A view is a pointer and a dimension like a vector, but it owns nothing: the memory it points to belongs to a vector.
The methods of `VectorBase` are the same functions for vectors and for views.
-/

namespace Verif.VecMem

open Mat (Heap Addr load poke loop memset0 memcpy)

variable {F : Type}

/-- `t.Data()+origin`, `src/vector.h` 242: undefined if the result is neither in the block nor right after it, and for
a null pointer that is moved. -/
def advance (p : Option Addr) (n : Int) (h : Heap F) : Exec (Option Addr) :=
  match p with
  | none => if n = 0 then .ok none else .error .ub
  | some a =>
    match h[a.block]? with
    | some (some blk) =>
      if 0 ≤ a.off + n ∧ a.off + n ≤ blk.length then .ok (some ⟨a.block, a.off + n⟩) else .error .ub
    | _ => .error .ub

/-- `SubVector(t, origin, length)`, `src/vector.h` 235-244, and `Range`, 79-95. -/
def subVec (t : Vec) (origin length : Int) (h : Heap F) : Exec Vec := do
  let e ← i32 (origin + length)
  cassert (decide (e ≤ t.dim))
  let p ← advance t.data origin h
  .ok ⟨p, length⟩

/-- `VectorBase::SetZero`, `src/vector.cc` 67-70: a negative dimension is a huge size. -/
def setZero (zero : F) (v : Vec) (h : Heap F) : Exec (Heap F) :=
  if v.dim < 0 then .error .ub else memset0 zero v.data v.dim h

/-- `VectorBase::CopyFromVec`, `src/vector.cc` 72-79, also for negative dimensions. -/
def copyVec (d s : Vec) (h : Heap F) : Exec (Heap F) :=
  if d.dim = s.dim ∧ d.data ≠ s.data ∧ d.dim < 0 then .error .ub else copyFrom d s h

/-- `data_[i]`, `src/vector.cc` 170, 189, 196, 204, 221, 251, 255. -/
def elem (v : Vec) (i : Int) (h : Heap F) : Exec F :=
  match v.data with
  | none => .error .ub
  | some a => load h ⟨a.block, a.off + i⟩

/-- `data_[i] = x;`, `src/vector.cc` 171, 189, 196, 204, 221, 251, 255. -/
def setElem (v : Vec) (i : Int) (x : F) (h : Heap F) : Exec (Heap F) :=
  match v.data with
  | none => .error .ub
  | some a => poke h ⟨a.block, a.off + i⟩ (some x)

/-- A loop that replaces each element by a function `f` of it: `Scale`, `Add` and `ApplyPow`, `src/vector.cc` 186-206.
Also what `ApplyFloor`, 166-176, leaves (there an element is written only if it is changed). -/
def mapVec (f : F → F) (v : Vec) (h : Heap F) : Exec (Heap F) :=
  loop v.dim (fun i h => do
    let x ← elem v i h
    setElem v i (f x) h) h

/-- `MulElements`, `src/vector.cc` 217-223, for the product `g`. -/
def mulVec (g : F → F → F) (d s : Vec) (h : Heap F) : Exec (Heap F) := do
  cassert (decide (s.dim = d.dim))
  loop d.dim (fun i h => do
    let x ← elem d i h
    let y ← get s i h
    setElem d i (g x y) h) h

/-- Two areas of `n` elements have an element in common; the promise of `__restrict__`, `src/vector.cc` 245-247, is that
they have not. -/
def overlap (d s : Option Addr) (n : Int) : Bool :=
  match d, s with
  | some a, some b => decide (a.block = b.block ∧ a.off < b.off + n ∧ b.off < a.off + n)
  | _, _ => false

/-- `AddVec`, `src/vector.cc` 239-258, for vectors of the same type; `g x y` is `x + alpha * y`. -/
def addVec (g : F → F → F) (d s : Vec) (h : Heap F) : Exec (Heap F) := do
  cassert (decide (d.dim = s.dim))
  if overlap d.data s.data d.dim then .error .ub
  else loop d.dim (fun i h => do
    let x ← elem d i h
    let y ← elem s i h
    setElem d i (g x y) h) h

/-- A vector or a view, by name: a `VectorBase`, `src/vector.h` 43-171. -/
inductive Ref
  | vec (x : Nat)
  | view (v : Nat)
deriving DecidableEq

/-- A step of a program that uses vectors and views. -/
inductive VOp (F : Type)
  /-- What programs do with vectors alone. -/
  | own (op : Op F)
  /-- `SubVector<Real> v(t, origin, length);` or `SubVector<Real> v = t.Range(origin, length);` (`src/vector.h` 79-95,
  235-244).  The name may have been that of another view before. -/
  | sub (v : Nat) (t : Ref) (origin length : Int)
  /-- `t(i) = c;` (`src/vector.h` 73-77) -/
  | put (t : Ref) (i : Int) (c : F)
  /-- `t.Set(c);` (`src/vector.cc` 61-65) -/
  | fill (t : Ref) (c : F)
  /-- `t.SetZero();` (`src/vector.cc` 67-70) -/
  | clear (t : Ref)
  /-- `t.Scale(..)`, `t.Add(..)`, `t.ApplyPow(..)` (`src/vector.cc` 186-206) -/
  | map (t : Ref) (f : F → F)
  /-- `d.CopyFromVec(s);` (`src/vector.cc` 72-79) -/
  | copy (d s : Ref)
  /-- `d.MulElements(s);` (`src/vector.cc` 217-223) -/
  | mul (d s : Ref) (g : F → F → F)
  /-- `d.AddVec(alpha, s);` (`src/vector.cc` 239-258) -/
  | add (d s : Ref) (g : F → F → F)

/-- The vectors and their memory, and the views: objects of the types `Vector` and `SubVector`, `src/vector.h` 173-258. -/
structure VSt (F : Type) where
  base : St F
  views : Nat → Option Vec

/-- The object that is used, `src/vector.h` 167-170; using a name that names nothing has no meaning. -/
def VSt.ref (s : VSt F) : Ref → Exec Vec
  | .vec x => s.base.obj x
  | .view v =>
    match s.views v with
    | some t => .ok t
    | none => .error .ub

/-- A method that changes elements has been called: only the memory differs.  `src/vector.h` 43-171. -/
def VSt.write (s : VSt F) (r : Exec (Heap F)) : Exec (VSt F) := do
  let h ← r
  .ok { s with base := { s.base with heap := h } }

/-- One step: `src/vector.h` 79-95, 186-258, `src/vector.cc` 11-258; see `VOp`. -/
def vstep (zero : F) (w : Nat) (s : VSt F) : VOp F → Exec (VSt F)
  | .own op => do
    let b ← step zero w s.base op
    .ok { s with base := b }
  | .sub v t o l => do
    let u ← s.ref t
    let p ← subVec u o l s.base.heap
    .ok { s with views := fun y => if y = v then some p else s.views y }
  | .put t i c => do
    let u ← s.ref t
    s.write (put u i c s.base.heap)
  | .fill t c => do
    let u ← s.ref t
    s.write (fill u c s.base.heap)
  | .clear t => do
    let u ← s.ref t
    s.write (setZero zero u s.base.heap)
  | .map t f => do
    let u ← s.ref t
    s.write (mapVec f u s.base.heap)
  | .copy d t => do
    let u ← s.ref d
    let p ← s.ref t
    s.write (copyVec u p s.base.heap)
  | .mul d t g => do
    let u ← s.ref d
    let p ← s.ref t
    s.write (mulVec g u p s.base.heap)
  | .add d t g => do
    let u ← s.ref d
    let p ← s.ref t
    s.write (addVec g u p s.base.heap)

/-- A program of the steps of `VOp`: `src/vector.h` 79-95, 186-258, `src/vector.cc` 11-258. -/
def vrun (zero : F) (w : Nat) (ops : List (VOp F)) (s : VSt F) : Exec (VSt F) := ops.foldlM (vstep zero w) s

/-- Before the first step: no vectors, no views.  Objects of `src/vector.h` 173-258. -/
def VSt.start : VSt F := ⟨.start, fun _ => none⟩

/-- `t(i)`, `src/vector.h` 67-71. -/
def VSt.get (s : VSt F) (t : Ref) (i : Int) : Exec F := do
  let u ← s.ref t
  VecMem.get u i s.base.heap

/-- `t.Dim()`, `src/vector.h` 58-59. -/
def VSt.dim (s : VSt F) (t : Ref) : Exec Int := do
  let u ← s.ref t
  .ok u.dim

end Verif.VecMem
