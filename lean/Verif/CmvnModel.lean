import Verif.Section

/-!
# Model of `src/cmvn.h` and `src/cmvn.cc`

`float` and `double` are two types `F` and `D` with uninterpreted operations.  The theorems are about exact arithmetic,
where both are the same ordered field and the conversions do nothing.
-/

namespace Verif.Cmvn

/-- The arithmetic used.  Used by `src/cmvn.cc` 35-98 and `src/vector.cc` 239-258. -/
structure Ops (F D : Type) where
  /-- `0.0` -/
  zero : D
  /-- an integer constant as `double` -/
  ofNat : Nat → D
  /-- `-1.0` -/
  negOne : D
  /-- `double + double` -/
  add : D → D → D
  /-- `double - double` -/
  sub : D → D → D
  /-- `double * double` -/
  mul : D → D → D
  /-- `double / double` -/
  div : D → D → D
  /-- `a < b` on `double` -/
  lt : D → D → Bool
  /-- `a <= b` on `double` -/
  le : D → D → Bool
  /-- `a != 1.0` is false, on `double` -/
  isOne : D → Bool
  /-- conversion `float` to `double` -/
  toD : F → D
  /-- conversion `double` to `float` -/
  toF : D → F
  /-- `float + float` -/
  fadd : F → F → F
  /-- `float * float` -/
  fmul : F → F → F
  /-- unary minus on `float` -/
  fneg : F → F

variable {F D : Type}

/-- `VectorBase<double>::AddVec(alpha, VectorBase<float>)`, `src/vector.cc` 239-258. -/
def addVecD (o : Ops F D) (alpha : D) (data : List D) (v : List F) : Exec (List D) := do
  cassert (decide (data.length = v.length))
  .ok (List.zipWith (fun a b => if o.isOne alpha then o.add a (o.toD b) else o.add a (o.mul alpha (o.toD b))) data v)

/-- `VectorBase<float>::AddVec(alpha, VectorBase<float>)`, `src/vector.cc` 239-258; `alpha != 1.0` is evaluated in
`double`. -/
def addVecF (o : Ops F D) (alpha : F) (data v : List F) : Exec (List F) := do
  cassert (decide (data.length = v.length))
  .ok (List.zipWith (fun a b => if o.isOne (o.toD alpha) then o.fadd a b else o.fadd a (o.fmul alpha b)) data v)

/-- `CMVN`, `src/cmvn.h` 28-31. -/
structure State (F : Type) where
  raw : List (List F)
  global : List F
  stats : List F
  frame : Int
deriving DecidableEq

/-- `CMVN::CMVN`, `src/cmvn.cc` 113-119, for a matrix of rows of equal size; a matrix with no columns has no rows. -/
def new (global : List F) (raw : List (List F)) : Exec (State F) := do
  matInit raw.length (raw.headD []).length
  vecInit 4 global.length
  .ok ⟨raw, global, [], -1⟩

/-- `MatrixBase::Row`, `src/matrix.h` 79-82: only the upper bound is asserted; a negative index is out of the
matrix. -/
def rowOf (raw : List (List F)) (i : Int) : Exec (List F) := do
  cassert (decide (i < raw.length))
  aget raw i

/-- The part of a vector before element 40 changed by a function: `Range(0, PK_FBANK_DIM)` asserts that there are so
many elements, `src/vector.h` (constructor of `SubVector`). -/
def onHead (f : List D → Exec (List D)) (v : List D) : Exec (List D) := do
  cassert (decide (40 ≤ v.length))
  let h ← f (v.take 40)
  .ok (h ++ v.drop 40)

/-- `stats_dbl(PK_FBANK_DIM) += x` and `-=`, `src/cmvn.cc` 52 and 59. -/
def atCount (f : D → D) (v : List D) : Exec (List D) := do
  let c ← aget v 40
  aset v 40 (f c)

/-- What the cache starts from, `src/cmvn.cc` 42-47. -/
def cached (o : Ops F D) (s : State F) : Exec (List D) :=
  if s.frame ≥ 0 then do
    cassert (decide (s.stats.length = 41))
    .ok (s.stats.map o.toD)
  else .ok (List.replicate 41 o.zero)

/-- Subtraction of the frame that leaves the window, `src/cmvn.cc` 55-60. -/
def leave (o : Ops F D) (s : State F) (frame : Int) (v : List D) : Exec (List D) := do
  let prev ← i32 (frame - 600)
  if prev ≥ 0 then do
    let feats ← rowOf s.raw prev
    let v ← onHead (fun h => addVecD o o.negOne h feats) v
    atCount (fun c => o.sub c (o.ofNat 1)) v
  else .ok v

/-- `CMVN::ComputeStats`, `src/cmvn.cc` 35-68: the statistics and the new state. -/
def computeStats (o : Ops F D) (s : State F) (frame : Int) : Exec (List F × State F) := do
  let before ← i32 (frame - 1)
  cassert (decide (s.frame = before))
  let feats ← rowOf s.raw frame
  let v ← cached o s
  cassert (decide (feats.length = 40))
  let v ← onHead (fun h => addVecD o (o.ofNat 1) h feats) v
  let v ← atCount (fun c => o.add c (o.ofNat 1)) v
  let v ← leave o s frame v
  let stats := v.map o.toF
  .ok (stats, { s with stats := stats, frame := frame })

/-- How many frames are taken from the global statistics, `src/cmvn.cc` 80-85. -/
def fromGlobal (o : Ops F D) (count : D) : D :=
  let c := o.sub (o.ofNat 600) count
  if o.lt (o.ofNat 200) c then o.ofNat 200 else c

/-- `CMVN::SmoothStats`, `src/cmvn.cc` 70-89.  The factor is converted to `float` for `AddVec`. -/
def smoothStats (o : Ops F D) (global stats : List F) : Exec (List F) := do
  cassert (decide (stats.length = 41))
  cassert (decide (global.length = 41))
  let c ← aget stats 40
  cassert (o.le (o.toD c) (o.ofNat 600))
  if o.le (o.ofNat 600) (o.toD c) then .ok stats
  else do
    let g ← aget global 40
    cassert (o.lt o.zero (o.toD g))
    addVecF o (o.toF (o.div (fromGlobal o (o.toD c)) (o.toD g))) stats global

/-- `CMVN::Apply`, `src/cmvn.cc` 91-98. -/
def apply (o : Ops F D) (stats feats : List F) : Exec (List F) := do
  cassert (decide (feats.length + 1 = stats.length ∧ feats.length = 40))
  let c ← aget stats 40
  cassert (o.lt o.zero (o.toD c))
  addVecF o (o.fneg (o.toF (o.div (o.ofNat 1) (o.toD c)))) feats (stats.take 40)

/-- `CMVN::GetFrame`, `src/cmvn.cc` 100-110: the normalised frame (the vector passed in must have 40 elements, all of
which are overwritten) and the new state. -/
def getFrame (o : Ops F D) (s : State F) (frame : Int) : Exec (List F × State F) := do
  let (stats, s) ← computeStats o s frame
  let stats ← smoothStats o s.global stats
  let feats ← rowOf s.raw frame
  let y ← apply o stats feats
  .ok (y, s)

/-- `n` frames requested in order from frame `first` on, the way `test/cmvn_test.cc` 72-77 uses the class. -/
def getFrames (o : Ops F D) : Nat → Nat → State F → Exec (List (List F) × State F)
  | 0, _, s => .ok ([], s)
  | n + 1, first, s => do
    let (y, s) ← getFrame o s first
    let (ys, s) ← getFrames o n (first + 1) s
    .ok (y :: ys, s)

end Verif.Cmvn
