import Verif.Bytes

/-!
# Model of `src/fst.h`, `src/fst.cc` and of `tool/convert_fstfmt.py`

Weights are elements of an arbitrary type `W` (the C++ `float`); arithmetic on them is given by a
`FloatOps W` record, about which no algebraic law is assumed, so every theorem holds for IEEE floats
with whatever rounding.  At file level `W` is `UInt32`, the bit pattern of the float.
-/

namespace Verif.Fst

open Verif

/-- `struct FstArc`, `src/fst.h` 18-26.  In Python, the tuple stored in `arcs` without its state,
`tool/convert_fstfmt.py` 38-43. -/
structure Arc (W : Type) where
  next : Int
  ilabel : Int
  olabel : Int
  weight : W
deriving DecidableEq, Repr

/-- `float` operations used by `src/fst.cc`: `+=` (227, 246), `-=` (276, 286), `std::isfinite` (237,
244) and `INFINITY` (244, 248, 288). -/
structure FloatOps (W : Type) where
  add : W → W → W
  sub : W → W → W
  finite : W → Bool
  inf : W

/-- Data members of `class Fst`, `src/fst.h` 87-95.  `fst_type_` is never used and left out. -/
structure Fst (W : Type) where
  start : Int
  arcs : List (Arc W)
  stateIdx : List Int
  finals : List W
deriving DecidableEq, Repr

/-! ## Reading -/

/-- `Fst::kSectionName`, `src/fst.cc` 16: `pk::fst_0`. -/
def sectionName : List UInt8 := [112, 107, 58, 58, 102, 115, 116, 95, 48]

/-- `vector::resize(n)` with an `int32_t` argument: a negative number becomes a huge `size_t` and
`std::length_error` is thrown.  (Used at `src/fst.cc` 93, 98, 105.)  Simplification: memory
exhaustion for large non-negative `n` is not modelled. -/
def resizeCheck (n : Int) : Rd Unit := if n < 0 then Rd.fault .throw else pure ()

/-- `fd->Read(v.data(), sizeof(T) * v.size())`, `src/fst.cc` 94, 99-101, 106, with `sz = sizeof(T)`
and `n = v.size()`.  The byte count is passed as `int`; a count beyond `INT_MAX` is outside the
model and reported as a fault. -/
def readArray (sz n : Nat) : Rd (List UInt8) :=
  if sz * n ≤ 2147483647 then readBytes (sz * n) else Rd.fault .ub

/-- The value of `expected_section_size`, `src/fst.cc` 79-84.  `sizeof` is `size_t`, so the sum is
computed modulo 2^64 and then converted to `int`; that is the exact sum modulo 2^32. -/
def expectedSize (stateNumber arcNumber : Int) : Int :=
  wrap32 (12 + 8 * stateNumber + 16 * arcNumber)

/-- The 16 bytes of one `FstArc` (`src/fst.h` 17-21: four 4-byte members, no padding). -/
def decArc (bs : List UInt8) : Arc UInt32 :=
  { next := decI32 (bs.take 4)
    ilabel := decI32 ((bs.drop 4).take 4)
    olabel := decI32 ((bs.drop 8).take 4)
    weight := UInt32.ofNat (decU32 ((bs.drop 12).take 4)) }

/-- `n` consecutive `FstArc` values in memory.  `src/fst.cc` 105-106. -/
def decArcs : Nat → List UInt8 → List (Arc UInt32)
  | 0, _ => []
  | n + 1, bs => decArc (bs.take 16) :: decArcs n (bs.drop 16)

/-- The data part of `Fst::Read`, `src/fst.cc` 92-110. -/
def readData (stateNumber arcNumber startState : Int) : Rd (Fst UInt32) := do
  resizeCheck stateNumber
  let fin ← readArray 4 stateNumber.toNat
  let idx ← readArray 4 stateNumber.toNat
  resizeCheck arcNumber
  let arcs ← readArray 16 arcNumber.toNat
  pure { start := startState
         arcs := decArcs arcNumber.toNat arcs
         stateIdx := (words stateNumber.toNat idx).map toI32
         finals := (words stateNumber.toNat fin).map UInt32.ofNat }

/-- The part of `Fst::Read` after the section name, `src/fst.cc` 63-110. -/
def readBody : Rd (Fst UInt32) := do
  let sectionSize ← readI32
  let stateNumber ← readI32
  let arcNumber ← readI32
  let startState ← readI32
  if expectedSize stateNumber arcNumber ≠ sectionSize then Rd.fail .corruption
  else readData stateNumber arcNumber startState

/-- `Fst::Read`, `src/fst.cc` 51-111.  Simplification: the members assigned before a failing read are
not part of the result, as callers discard the object when the status is not OK. -/
def read : Rd (Fst UInt32) := do
  let name ← readBytes 32
  if cstr (name.take 31) ≠ sectionName then Rd.fail .corruption else readBody

/-! ## Searching -/

variable {W : Type}

/-- `Fst::Final`, `src/fst.cc` 46-49.  `state_id < final_.size()` compares as `size_t`, so a negative
state fails the assertion. -/
def final (f : Fst W) (s : Int) : Exec W := do
  cassert (decide (0 ≤ s ∧ s < f.finals.length))
  aget f.finals s

/-- The loop of `Fst::CountArcs`, `src/fst.cc` 121-126, over the entries of `state_idx_` after
`state`: the first positive entry. -/
def firstPos : List Int → Option Int
  | [] => none
  | x :: xs => if x > 0 then some x else firstPos xs

/-- `Fst::CountArcs`, `src/fst.cc` 113-129. -/
def countArcs (f : Fst W) (s : Int) : Exec Int := do
  let i ← aget f.stateIdx s
  if i < 0 then .ok 0 else
  i32 ((firstPos (f.stateIdx.drop (s.toNat + 1))).getD f.arcs.length - i)

/-- `std::lower_bound` as in libstdc++ (`__lower_bound`), called at `src/fst.cc` 140-146: `first` is the
index of the current lower end, `len` the remaining length; returns the index reached.  Simplifications:
`fuel` bounds the iterations; on a range of negative length or not partitioned by the label, where the standard
promises nothing, it does what the loop of libstdc++ does. -/
def lowerBound (arcs : List (Arc W)) (label : Int) : Nat → Int → Int → Exec Int
  | 0, _, _ => .error .fuel
  | fuel + 1, first, len =>
    if len > 0 then do
      let half := len / 2
      let mid ← aget arcs (first + half)
      if mid.ilabel < label then lowerBound arcs label fuel (first + half + 1) (len - half - 1)
      else lowerBound arcs label fuel first half
    else .ok first

/-- Forming the address `&arcs_[i]` (`src/fst.cc` 136, 137, 204): defined up to one past the end.
Simplification: strictly, `operator[]` at `size()` is already undefined for `std::vector`; as usual it
is taken to yield the past-the-end pointer. -/
def address (f : Fst W) (i : Int) : Exec Unit :=
  if 0 ≤ i ∧ i ≤ f.arcs.length then .ok () else .error .ub

/-- `Fst::GetArc`, `src/fst.cc` 131-154; `none` is the `false` result. -/
def getArc (f : Fst W) (s label : Int) : Exec (Option (Arc W)) := do
  let num ← countArcs f s
  if num = 0 then .ok none else
  let start ← aget f.stateIdx s
  address f start
  address f (start + num)
  let pos ← lowerBound f.arcs label (num.toNat + 1) start num
  if pos = start + num then .ok none else
  let a ← aget f.arcs pos
  if a.ilabel ≠ label then .ok none else .ok (some a)

/-- `n` successful calls of `ArcIterator::Next`, `src/fst.cc` 165-173, from position `base`. -/
def nextAll (arcs : List (Arc W)) : Nat → Int → Exec (List (Arc W))
  | 0, _ => .ok []
  | n + 1, base => do
    let a ← aget arcs base
    let as ← nextAll arcs n (base + 1)
    .ok (a :: as)

/-- All arcs delivered by the iterator of `Fst::IterateArcs(s)`, `src/fst.cc` 156-173, until `Next`
returns `nullptr`. -/
def iterArcs (f : Fst W) (s : Int) : Exec (List (Arc W)) := do
  cassert (decide (s < f.stateIdx.length ∧ 0 ≤ s))
  let total ← countArcs f s
  let base ← aget f.stateIdx s
  nextAll f.arcs total.toNat base

/-! ## Language model FST -/

/-- Loop `src/fst.cc` 180-184: the largest input label, at least 0. -/
def maxLabel : List (Arc W) → Int → Int
  | [], m => m
  | a :: as, m => maxLabel as (if a.ilabel > m then a.ilabel else m)

/-- Loop `src/fst.cc` 194-196.  A table entry is `none` when only its `input_label` (−1) has been
set, `src/fst.cc` 188-190. -/
def fillBucket : List (Arc W) → List (Option (Arc W)) → Exec (List (Option (Arc W)))
  | [], b => .ok b
  | a :: as, b => do
    let b ← aset b a.ilabel (some a)
    fillBucket as b

/-- `LmFst::InitBucket0`, `src/fst.cc` 175-197: the new contents of `bucket_0_`. -/
def initBucket0 (f : Fst W) : Exec (List (Option (Arc W))) := do
  let as ← iterArcs f 0
  let n ← i32 (maxLabel as 0 + 1)
  fillBucket as (List.replicate n.toNat none)

/-- `LmFst::GetBackoffArc`, `src/fst.cc` 199-208. -/
def backoffArc (f : Fst W) (s : Int) : Exec (Option (Arc W)) := do
  let num ← countArcs f s
  if num = 0 then .ok none else
  let start ← aget f.stateIdx s
  let a ← aget f.arcs start
  if a.ilabel ≠ 0 then .ok none else .ok (some a)

/-- The table lookup of `LmFst::GetArc`, `src/fst.cc` 214-219.  `ilabel < bucket_0_.size()` compares as
`size_t`, so a negative label never passes.  An entry `none` has `input_label` −1. -/
def bucketHit (bucket : List (Option (Arc W))) (s label : Int) : Exec (Option (Arc W)) :=
  if s = 0 ∧ 0 ≤ label ∧ label < bucket.length then do
    let e ← aget bucket label
    match e with
    | some a => if a.ilabel = label then .ok (some a) else .ok none
    | none => .ok none
  else .ok none

/-- `LmFst::GetArc`, `src/fst.cc` 210-233.  `bucket` is `bucket_0_` (empty before `InitBucket0`).
Simplification: `fuel` bounds the depth of the recursion. -/
def lmGetArc (o : FloatOps W) (f : Fst W) (bucket : List (Option (Arc W))) :
    Nat → Int → Int → Exec (Option (Arc W))
  | 0, _, _ => .error .fuel
  | fuel + 1, s, label => do
    cassert (decide (label ≠ 0))
    let hit ← bucketHit bucket s label
    match hit with
    | some a => .ok (some a)
    | none =>
      let r ← getArc f s label
      match r with
      | some a => .ok (some a)
      | none =>
        let b ← backoffArc f s
        match b with
        | none => .ok none
        | some b =>
          let r ← lmGetArc o f bucket fuel b.next label
          match r with
          | none => .ok none
          | some a => .ok (some { a with weight := o.add a.weight b.weight })

/-- `LmFst::Final`, `src/fst.cc` 235-251, with `fuel` as above. -/
def lmFinal (o : FloatOps W) (f : Fst W) : Nat → Int → Exec W
  | 0, _ => .error .fuel
  | fuel + 1, s => do
    let w ← final f s
    if o.finite w then .ok w else
    let b ← backoffArc f s
    match b with
    | none => .ok o.inf
    | some b =>
      let w ← lmFinal o f fuel b.next
      if o.finite w then .ok (o.add w b.weight) else .ok o.inf

/-! ## Delta language model and cache -/

/-- The part of `IFst` the decoder uses (`src/fst.h` 28-39), as functions. -/
structure IFst (W : Type) where
  start : Exec Int
  getArc : Int → Int → Exec (Option (Arc W))
  final : Int → Exec W

/-- `Vector<float>::operator()(int)`, `src/vector.h` 67-71: only the upper bound is asserted. -/
def small (v : List W) (i : Int) : Exec W := do
  cassert (decide (i < v.length))
  aget v i

/-- `DeltaLmFst`, `src/fst.cc` 253-290, over a language model given as an `IFst`.  `bos`, `eos` are
`bos_symbol_`, `eos_symbol_`. -/
def delta (o : FloatOps W) (smallLm : List W) (lm : IFst W) (bos eos : Int) : IFst W where
  start := do
    let s ← lm.start
    let r ← lm.getArc s bos
    match r with
    | some a => .ok a.next
    | none => .ok s
  getArc s label := do
    let r ← lm.getArc s label
    match r with
    | some a => do
      let u ← small smallLm label
      .ok (some { a with weight := o.sub a.weight u })
    | none => .ok none
  final s := do
    let r ← lm.getArc s eos
    match r with
    | some a => do
      let w ← lm.final a.next
      let u ← small smallLm eos
      .ok (o.sub (o.add w a.weight) u)
    | none => .ok o.inf

/-- `LmFst` as an `IFst`; `fuel` bounds the recursion along backoff arcs.  `src/fst.h` 99-121. -/
def lmFst (o : FloatOps W) (f : Fst W) (bucket : List (Option (Arc W))) (fuel : Nat) : IFst W where
  start := .ok f.start
  getArc := lmGetArc o f bucket fuel
  final := lmFinal o f fuel

/-- `CachedFst::Hash`, `src/fst.h` 178-184: `int32_t` arithmetic. -/
def hash (s label : Int) : Exec Int := do
  let h ← i32 (19 * 31 + s)
  let h ← i32 (h * 31)
  i32 (h + label)

/-- One entry of `buckets_`: the state (−1 initially) and the arc, `none` while uninitialised
(`src/fst.h` 174, `src/fst.cc` 18, 292-297). -/
abbrev Cache (W : Type) := List (Int × Option (Arc W))

/-- `CachedFst::CachedFst`, `src/fst.cc` 292-297. -/
def newCache (n : Nat) : Cache W := List.replicate n (-1, none)

/-- `Hash(state, ilabel) % buckets_.size()`, `src/fst.cc` 313: the `int32_t` hash is converted to
`size_t`, i.e. reduced modulo 2^64, before `%`; `% 0` is undefined. -/
def cacheIdx (n : Nat) (s label : Int) : Exec Int := do
  let h ← hash s label
  if n = 0 then .error .ub else .ok ((h % 18446744073709551616) % n)

/-- The cache test of `CachedFst::GetArc`, `src/fst.cc` 315: reading the label of an uninitialised arc is
undefined. -/
def cacheHit (item : Int × Option (Arc W)) (s label : Int) : Exec (Option (Arc W)) :=
  if item.1 = s then
    match item.2 with
    | none => .error .ub
    | some a => if a.ilabel = label then .ok (some a) else .ok none
  else .ok none

/-- `CachedFst::GetArc`, `src/fst.cc` 307-327. -/
def cachedGetArc (fst : IFst W) (c : Cache W) (s label : Int) :
    Exec (Option (Arc W) × Cache W) :=
  if s = 0 then do
    let r ← fst.getArc s label
    .ok (r, c)
  else do
    let idx ← cacheIdx c.length s label
    let item ← aget c idx
    let hit ← cacheHit item s label
    match hit with
    | some a => .ok (some a, c)
    | none =>
      let r ← fst.getArc s label
      match r with
      | some a => do
        let c ← aset c idx (s, some a)
        .ok (some a, c)
      | none => .ok (none, c)

/-! ## The converter -/

/-- What `tool/convert_fstfmt.py` reads from the OpenFst file (lines 24-43): the start state and, for
states 0, 1, …, the final weight (infinity for a state that is not final) and the arcs in file order. -/
structure Transducer (W : Type) where
  start : Int
  states : List (W × List (Arc W))

/-- The `arcs` list before sorting, `tool/convert_fstfmt.py` 30-43: every arc with its state. -/
def rawArcs (states : List (W × List (Arc W))) (s : Nat) : List (Nat × Arc W) :=
  match states with
  | [] => []
  | (_, as) :: rest => as.map (fun a => (s, a)) ++ rawArcs rest (s + 1)

/-- Comparison of the sort keys `(state, ilabel)`, `tool/convert_fstfmt.py` 46. -/
def keyLe (x y : Nat × Arc W) : Bool :=
  x.1 < y.1 || (x.1 == y.1 && decide (x.2.ilabel ≤ y.2.ilabel))

/-- Insert before the first element whose key is not smaller.
Part of Python's `sorted`, `tool/convert_fstfmt.py` 46. -/
def insertArc (x : Nat × Arc W) : List (Nat × Arc W) → List (Nat × Arc W)
  | [] => [x]
  | y :: l => if keyLe x y then x :: y :: l else y :: insertArc x l

/-- `arcs.sort(key=…)`, `tool/convert_fstfmt.py` 46.  Python's sort is stable, so its result is that of
any stable sort; insertion sort is used here. -/
def sortArcs : List (Nat × Arc W) → List (Nat × Arc W)
  | [] => []
  | x :: l => insertArc x (sortArcs l)

/-- The sorted `arcs` list, `tool/convert_fstfmt.py` 30-46. -/
def sortedArcs (t : Transducer W) : List (Nat × Arc W) := sortArcs (rawArcs t.states 0)

/-- The loop filling `state_arcidx`, `tool/convert_fstfmt.py` 50-53. -/
def fillIdx : List (Nat × Arc W) → Int → List Int → Exec (List Int)
  | [], _, idx => .ok idx
  | (s, _) :: rest, i, idx => do
    let cur ← aget idx s
    let idx ← if cur = -1 then aset idx s i else .ok idx
    fillIdx rest (i + 1) idx

/-- The data the converter writes, `tool/convert_fstfmt.py` 26-54. -/
def convert (t : Transducer W) : Exec (Fst W) := do
  let arcs := sortedArcs t
  let idx ← fillIdx arcs 0 (List.replicate t.states.length (-1))
  .ok { start := t.start
        arcs := arcs.map (·.2)
        stateIdx := idx
        finals := t.states.map (·.1) }

/-- `struct.pack("<iiif", …)`, `tool/convert_fstfmt.py` 74. -/
def encArc (a : Arc UInt32) : List UInt8 :=
  encI32 a.next ++ encI32 a.ilabel ++ encI32 a.olabel ++ encU32 a.weight.toNat

/-- The values that `struct.pack("<i")` must represent, `tool/convert_fstfmt.py` 63-74; otherwise it
raises `struct.error`. -/
def packable (f : Fst UInt32) : Bool :=
  decide (InI32 (12 + 8 * f.finals.length + 16 * f.arcs.length)) && decide (InI32 f.start) &&
    f.arcs.all (fun a => decide (InI32 a.next) && decide (InI32 a.ilabel) && decide (InI32 a.olabel))

/-- `SECTION_NAME`, `tool/convert_fstfmt.py` 5. -/
def pyName : List UInt8 := [112, 107, 58, 58, 102, 115, 116, 95, 48]

/-- The file contents, `tool/convert_fstfmt.py` 57-74 (`len(finals)` is `state_number`, line 54). -/
def fileBytes (f : Fst UInt32) : List UInt8 :=
  pyName ++ List.replicate 23 0 ++
  encI32 (12 + 8 * f.finals.length + 16 * f.arcs.length) ++
  encI32 f.finals.length ++ encI32 f.arcs.length ++ encI32 f.start ++
  f.finals.flatMap (fun w => encU32 w.toNat) ++
  f.stateIdx.flatMap encI32 ++
  f.arcs.flatMap encArc

/-- The binary output of the converter, `tool/convert_fstfmt.py` 24-74: the file contents, or an
exception when a number does not fit its field.  Simplification: a partially written file left behind
by the exception is not modelled. -/
def converterOutput (t : Transducer UInt32) : Exec (List UInt8) := do
  let f ← convert t
  if packable f then .ok (fileBytes f) else .error .throw

end Verif.Fst
