import Verif.MatrixModel
import Verif.SrfftModel

/-!
# Model of `src/srfft.cc` with its tables in memory

In `Verif.SrfftModel` the tables are lists.  Here they are what they are in the program: blocks of memory that the
constructor allocates and fills through moving pointers, that the transform reads through moving pointers, and that the
destructor frees.  The array and the buffer of the caller are still lists: they are other blocks, which the tables are
never written to and which never hold the tables.
-/

namespace Verif.SrfftMem

open Mat (Heap Addr load poke alloc free)
open Srfft (Ops Six Cx State forN entry turn turn8 butterfly cross swapAt splitStep copyInto mergeStep middle doubleAll logOf)

variable {F : Type}

/-- What is in memory: an `int` (of `brseed_`), a `float` (of a table) or a `float *` (of `tab_`).  `src/srfft.h` 36-42. -/
inductive Val (F : Type)
  | int (n : Nat)
  | num (x : F)
  | ptr (a : Addr)
deriving DecidableEq

/-- Reading an `int`, such as `brseed_[i]`.  What is something else is not read as one.  `src/srfft.cc` 88-89, 280-286. -/
def loadInt (h : Heap (Val F)) (a : Addr) : Exec Nat := do
  let v ← load h a
  match v with
  | .int n => .ok n
  | _ => .error .ub

/-- Reading a `float` of a table, such as `*cn++`.  `src/srfft.cc` 243-249. -/
def loadNum (h : Heap (Val F)) (a : Addr) : Exec F := do
  let v ← load h a
  match v with
  | .num x => .ok x
  | _ => .error .ub

/-- Reading a pointer of `tab_`.  `src/srfft.cc` 107, 229, 361. -/
def loadPtr (h : Heap (Val F)) (a : Addr) : Exec Addr := do
  let v ← load h a
  match v with
  | .ptr p => .ok p
  | _ => .error .ub

/-- `p + k`, such as `cn + nel`, `src/srfft.cc` 107-108, or the place of `p[k]`, 83-89. -/
def plus (a : Addr) (k : Nat) : Addr := ⟨a.block, a.off + k⟩

/-- `malloc` of so many bytes, for elements of `w` bytes: only whole elements can be used.  `src/srfft.cc` 82, 96, 104.
There is always enough memory (the program does not check). -/
def malloc (h : Heap (Val F)) (bytes w : Nat) : Heap (Val F) × Addr := alloc h (bytes / w)

/-! ## Tables -/

/-- `brseed_[i] <<= 1; brseed_[i + imax] = brseed_[i] + 1;`, `src/srfft.cc` 88-89. -/
def seedStepM (a : Addr) (imax i : Nat) (h : Heap (Val F)) : Exec (Heap (Val F)) := do
  let v ← loadInt h (plus a i)
  let h ← poke h (plus a i) (some (.int (v * 2)))
  let v ← loadInt h (plus a i)
  poke h (plus a (i + imax)) (some (.int (v + 1)))

/-- `brseed_`, `src/srfft.cc` 80-91; an `int` has 4 bytes. -/
def seedTableM (logn : Nat) (h : Heap (Val F)) : Exec (Addr × Heap (Val F)) := do
  let lg2 := logn / 2 + logn % 2
  let r := malloc h (4 * 2 ^ lg2) 4
  let h ← poke r.1 (plus r.2 0) (some (.int 0))
  let h ← poke h (plus r.2 1) (some (.int 1))
  let h ← forN (lg2 - 1) (fun j h => forN (2 ^ (j + 1)) (seedStepM r.2 (2 ^ (j + 1))) h) h
  .ok (r.2, h)

/-- The six pointers, `src/srfft.cc` 107-108 and 229-230. -/
def starts (a : Addr) (nel : Nat) : Six Addr :=
  let spcn := plus a nel
  let smcn := plus spcn nel
  let c3n := plus smcn nel
  let spc3n := plus c3n nel
  ⟨a, spcn, smcn, c3n, spc3n, plus spc3n nel⟩

/-- Each `++` of `src/srfft.cc` 115, 118 and 243-249. -/
def advance (p : Six Addr) : Six Addr :=
  ⟨plus p.c 1, plus p.spc 1, plus p.smc 1, plus p.c3 1, plus p.spc3 1, plus p.smc3 1⟩

/-- One iteration, `src/srfft.cc` 112-118, with `n = i + 1`. -/
def fillStep (o : Ops F) (m i : Nat) (s : Six Addr × Heap (Val F)) : Exec (Six Addr × Heap (Val F)) :=
  if i + 1 = m / 8 then .ok s
  else do
    let e := entry o m (i + 1)
    let h ← poke s.2 s.1.c (some (.num e.c))
    let h ← poke h s.1.spc (some (.num e.spc))
    let h ← poke h s.1.smc (some (.num e.smc))
    let h ← poke h s.1.c3 (some (.num e.c3))
    let h ← poke h s.1.spc3 (some (.num e.spc3))
    let h ← poke h s.1.smc3 (some (.num e.smc3))
    .ok (advance s.1, h)

/-- The tables for `m = 2^i`, `src/srfft.cc` 99-119; a `float` has 4 bytes. -/
def levelM (o : Ops F) (tab : Addr) (i : Nat) (h : Heap (Val F)) : Exec (Heap (Val F)) := do
  let m := 2 ^ i
  let nel := m / 4 - 2
  let r := malloc h (4 * (6 * nel)) 4
  let h ← poke r.1 (plus tab (i - 4)) (some (.ptr r.2))
  let cn ← loadPtr h (plus tab (i - 4))
  let s ← forN (m / 4 - 1) (fillStep o m) (starts cn nel, h)
  .ok s.2

/-- `tab_`, `src/srfft.cc` 93-121; a pointer has 8 bytes.  The number of bytes is `sizeof(float *) * logn_ - 3`, as in the
program, where `sizeof(float *) * (logn_ - 3)` was meant. -/
def tabM (o : Ops F) (logn : Nat) (h : Heap (Val F)) : Exec (Option Addr × Heap (Val F)) :=
  if logn < 4 then .ok (none, h)
  else do
    let r := malloc h (8 * logn - 3) 8
    let h ← forN (logn - 3) (fun j h => levelM o r.2 (logn - j) h) r.1
    .ok (some r.2, h)

/-- `SRFFT`, `src/srfft.h` 33-42. -/
structure Obj where
  n : Nat
  logn : Nat
  seed : Addr
  tab : Option Addr
deriving DecidableEq

/-- `SRFFT::SRFFT`, `src/srfft.cc` 342-355. -/
def newM (o : Ops F) (points : Int) (h : Heap (Val F)) : Exec (Obj × Heap (Val F)) := do
  let n := points.tdiv 2
  cassert (decide (1 < n))
  cassert (decide (n.toNat &&& (n.toNat - 1) = 0))
  let logn := logOf n.toNat n.toNat
  let s ← seedTableM logn h
  let t ← tabM o logn s.2
  .ok (⟨n.toNat, logn, s.1, t.1⟩, t.2)

/-- `SRFFT::~SRFFT`, `src/srfft.cc` 357-365. -/
def destroyM (t : Obj) (h : Heap (Val F)) : Exec (Heap (Val F)) := do
  let h ← free h t.seed
  match t.tab with
  | none => .ok h
  | some a => do
    let h ← forN (t.logn - 3) (fun i h => do
      let p ← loadPtr h (plus a i)
      free h p) h
    free h a

/-! ## The transform -/

/-- The pointers into the tables of a level; below 16 points they are not set.  `src/srfft.cc` 227-231. -/
def startsFor (tab : Option Addr) (logn : Nat) (h : Heap (Val F)) : Exec (Option (Six Addr)) :=
  if 4 ≤ logn then
    match tab with
    | none => .error .ub
    | some a => do
      let cn ← loadPtr h (plus a (logn - 4))
      .ok (some (starts cn (2 ^ logn / 4 - 2)))
  else .ok none

/-- What the six pointers point to, `src/srfft.cc` 243-249. -/
def loadSix (h : Heap (Val F)) (p : Six Addr) : Exec (Six F) := do
  let c ← loadNum h p.c
  let spc ← loadNum h p.spc
  let smc ← loadNum h p.smc
  let c3 ← loadNum h p.c3
  let spc3 ← loadNum h p.spc3
  let smc3 ← loadNum h p.smc3
  .ok ⟨c, spc, smc, c3, spc3, smc3⟩

/-- One iteration of the loop of steps 3 and 4, `src/srfft.cc` 234-253, with `n = i + 1`.  Simplification: the six elements
are read before the data is changed, which does not overlap the tables. -/
def twiddleStepM (o : Ops F) (h : Heap (Val F)) (m b : Nat) (i : Nat) (s : Cx F × Option (Six Addr)) :
    Exec (Cx F × Option (Six Addr)) :=
  if i + 1 = m / 8 then do
    let x ← turn8 o (b + m / 2 + (i + 1)) (b + m / 2 + m / 4 + (i + 1)) s.1
    .ok (x, s.2)
  else
    match s.2 with
    | none => .error .ub
    | some p => do
      let e ← loadSix h p
      let x ← turn o e (b + m / 2 + (i + 1)) (b + m / 2 + m / 4 + (i + 1)) s.1
      .ok (x, some (advance p))

/-- `SRFFT::ComplexfftComputeRecursive`, `src/srfft.cc` 124-265. -/
def fftRecM (o : Ops F) (tab : Option Addr) (h : Heap (Val F)) : Nat → Nat → Cx F → Exec (Cx F)
  | 0, _, s => .ok s
  | 1, b, s => butterfly o b (b + 1) s
  | 2, b, s => do
    let s ← butterfly o b (b + 2) s
    let s ← butterfly o (b + 1) (b + 3) s
    let s ← butterfly o b (b + 1) s
    cross o (b + 2) (b + 3) s
  | l + 3, b, s => do
    let m := 2 ^ (l + 3)
    let s ← forN (m / 2) (fun n s => butterfly o (b + n) (b + m / 2 + n) s) s
    let s ← forN (m / 4) (fun n s => cross o (b + m / 2 + n) (b + m / 2 + m / 4 + n) s) s
    let p ← startsFor tab (l + 3) h
    let r ← forN (m / 4 - 1) (twiddleStepM o h m b) (s, p)
    let s ← fftRecM o tab h (l + 2) b r.1
    let s ← fftRecM o tab h (l + 1) (b + m / 2) s
    fftRecM o tab h (l + 1) (b + 3 * (m / 4)) s

/-- The body of the outer loop of `SRFFT::BitReversePermute`, `src/srfft.cc` 280-289, with `off = k + 1`. -/
def reverseStepM (seed : Addr) (h : Heap (Val F)) (n k : Nat) (x : List F) : Exec (List F) := do
  let s ← loadInt h (plus seed (k + 1))
  let x ← swapAt (k + 1) (n * s) x
  forN (s - 1) (fun g x => do
    let t ← loadInt h (plus seed (g + 1))
    swapAt (k + 1 + (g + 1) * n) (n * s + t) x) x

/-- `SRFFT::BitReversePermute`, `src/srfft.cc` 267-291. -/
def bitReverseM (seed : Addr) (h : Heap (Val F)) (logn : Nat) (x : List F) : Exec (List F) :=
  forN (2 ^ (logn / 2) - 1) (reverseStepM seed h (2 ^ (logn / 2))) x

/-- The two permutations, `src/srfft.cc` 303-306. -/
def unshuffleM (t : Obj) (h : Heap (Val F)) (s : Cx F) : Exec (Cx F) :=
  if t.logn > 1 then do
    let xr ← bitReverseM t.seed h t.logn s.1
    let xi ← bitReverseM t.seed h t.logn s.2
    .ok (xr, xi)
  else .ok s

/-- `SRFFT::ComplexFFTCompute2`, `src/srfft.cc` 293-307. -/
def complex2M (o : Ops F) (t : Obj) (h : Heap (Val F)) (forward : Bool) (s : Cx F) : Exec (Cx F) := do
  let s := if forward then s else (s.2, s.1)
  let s ← fftRecM o t.tab h t.logn 0 s
  let s ← unshuffleM t h s
  .ok (if forward then s else (s.2, s.1))

/-- `src/srfft.cc` 328; see `Srfft.onHalves`. -/
def onHalvesM (o : Ops F) (t : Obj) (h : Heap (Val F)) (forward : Bool) (x : List F) : Exec (List F) := do
  let s ← complex2M o t h forward (x.take t.n, (x.drop t.n).take t.n)
  .ok (s.1 ++ s.2 ++ x.drop (t.n + t.n))

/-- `SRFFT::ComplexFFTCompute`, `src/srfft.cc` 310-340. -/
def complexFFTM (o : Ops F) (t : Obj) (h : Heap (Val F)) (x : List F) (xsize : Int) (forward : Bool) (buffer : List F)
    (bufferSize : Int) : Exec (List F × List F) := do
  cassert (decide (xsize = (t.n : Int) * 2))
  cassert (decide ((t.n : Int) ≤ bufferSize))
  let s ← forN t.n splitStep (x, buffer)
  let x ← copyInto s.1 t.n s.2 0 t.n
  let x ← onHalvesM o t h forward x
  let b ← copyInto s.2 0 x t.n t.n
  let x ← forN (t.n - 1) (mergeStep t.n b) x
  let v ← aget b 0
  let x ← aset x 1 v
  .ok (x, b)

/-- The members that are not pointers, all that the middle of `SRFFT::Compute`, `src/srfft.cc` 382-449, uses. -/
def plain (t : Obj) : State F := ⟨t.n, t.logn, [], []⟩

/-- `SRFFT::Compute`, `src/srfft.cc` 370-459: the data and the buffer. -/
def computeM (o : Ops F) (t : Obj) (h : Heap (Val F)) (data : List F) (dataSize : Int) (forward : Bool) (buffer : List F)
    (bufferSize : Int) : Exec (List F × List F) :=
  if forward then do
    let r ← complexFFTM o t h data dataSize true buffer bufferSize
    let x ← middle o (plain t) true r.1
    .ok (x, r.2)
  else do
    let x ← middle o (plain t) false data
    let r ← complexFFTM o t h x dataSize false buffer bufferSize
    let x ← doubleAll o (t.n * 2) r.1
    .ok (x, r.2)

end Verif.SrfftMem
