import Verif.Basic

/-!
# Model of `src/hashtable.h` / `src/hashtable.cc`
-/

namespace Verif.HashTable

/-- `gPrimeNumbers`, `src/hashtable.cc` 8-41. -/
def primes : List Int :=
  [2, 2, 5, 11, 17, 37, 67, 131, 257, 521, 1031, 2053, 4099, 8209, 16411, 32771, 65537, 131101,
   262147, 524309, 1048583, 2097169, 4194319, 8388617, 16777259, 33554467, 67108879, 134217757,
   268435459, 536870923, 1073741827, 2147483647]

/-- The data members of `HashTable<K, V>`, `src/hashtable.h` 97-109.
Simplification: `buckets_[i]` and `empty_[i]` are one list of optional pairs, `none` standing for
`empty_[i] == true`; the stale key and value of an empty bucket are never read by the code (`Lookup`,
`Insert`, `Find` and `ExtendBuckets` test `empty_` first). -/
structure Table (K V : Type) where
  slots : List (Option (K × V))
  bucketSize : Int
  primeIdx : Int
  size : Int
deriving DecidableEq, Repr

variable {K V : Type} [DecidableEq K]

/-- The loop of `NearestPrimeIdx`, `src/hashtable.h` 117-120, from index `idx` on; falling off the
end is the `assert(false)` of line 122. -/
def nearestPrimeLoop (num : Int) : List Int → Int → Exec Int
  | [], _ => .error .assert
  | p :: ps, idx => if p ≥ num then .ok idx else nearestPrimeLoop num ps (idx + 1)

/-- `NearestPrimeIdx`, `src/hashtable.h` 113-124. -/
def nearestPrimeIdx (num : Int) : Exec Int := do
  cassert (num ≤ 2147483647)
  nearestPrimeLoop num primes 0

/-- `CreateBuckets`, `src/hashtable.h` 127-133: all buckets empty.  Simplification: allocation does
not fail. -/
def createBuckets (n : Int) : List (Option (K × V)) := List.replicate n.toNat none

/-- Constructor `HashTable(int initial_cap)`, `src/hashtable.h` 34-40. -/
def new (cap : Int) : Exec (Table K V) := do
  let idx ← nearestPrimeIdx cap
  let n ← aget primes idx
  .ok { slots := createBuckets n, bucketSize := n, primeIdx := idx, size := 0 }

/-- The bucket index computed by one round of the inner loop of `Lookup`, `src/hashtable.h` 143-148.
`neg` is `sign == -1`.  `i * i` and the sum are signed 32-bit computations; `%` truncates. -/
def probeIdx (hv p i : Int) (neg : Bool) : Exec Int := do
  let sq ← i32 (i * i)
  let raw ← i32 (if neg then hv + -sq else hv + sq)
  let idx := raw.tmod p
  .ok (if idx < 0 then idx + p else idx)

/-- The two `return idx` tests of `Lookup`, `src/hashtable.h` 150-151: is the bucket empty or does
it hold `key`? -/
def stopAt (slots : List (Option (K × V))) (idx : Int) (key : K) : Exec Bool := do
  match ← aget slots idx with
  | none => .ok true
  | some kv => .ok (decide (kv.1 = key))

/-- The `for (int i = 1; ; ++i)` loop of `Lookup`, `src/hashtable.h` 140-153, from `i` on.  The fuel
argument makes the definition structural; `lookup` passes more than the `assert(i < 65536)` of line
141 lets the loop use. -/
def lookupLoop (slots : List (Option (K × V))) (p hv : Int) (key : K) : Nat → Int → Exec Int
  | 0, _ => .error .fuel
  | fuel + 1, i => do
    cassert (i < 65536)
    let a ← probeIdx hv p i true
    if ← stopAt slots a key then .ok a
    else
      let b ← probeIdx hv p i false
      if ← stopAt slots b key then .ok b
      else lookupLoop slots p hv key fuel (i + 1)

/-- `Lookup`, `src/hashtable.h` 138-154.  `hash` is the overloaded function `hash(K)`, which may
itself overflow. -/
def lookup (hash : K → Exec Int) (slots : List (Option (K × V))) (p : Int) (key : K) : Exec Int := do
  let h ← hash key
  lookupLoop slots p (h.tmod p) key 65536 1

/-- One round of the copying loop of `ExtendBuckets`, `src/hashtable.h` 167-176. -/
def moveItem (hash : K → Exec Int) (newSize : Int) (acc : List (Option (K × V)))
    (item : Option (K × V)) : Exec (List (Option (K × V))) :=
  match item with
  | none => .ok acc
  | some kv => do
    let idx ← lookup hash acc newSize kv.1
    let old ← aget acc idx
    cassert old.isNone
    aset acc idx (some kv)

/-- The copying loop of `ExtendBuckets`, `src/hashtable.h` 165-177. -/
def moveAll (hash : K → Exec Int) (newSize : Int) :
    List (Option (K × V)) → List (Option (K × V)) → Exec (List (Option (K × V)))
  | acc, [] => .ok acc
  | acc, it :: rest => do
    let acc' ← moveItem hash newSize acc it
    moveAll hash newSize acc' rest

/-- `ExtendBuckets`, `src/hashtable.h` 157-188.  Reading `gPrimeNumbers[prime_idx_ + 1]` past the
table of 32 entries is undefined.  Simplification: the loop runs over all buckets of the list, whose
length is `bucket_size_`. -/
def extend (hash : K → Exec Int) (t : Table K V) : Exec (Table K V) := do
  let newSize ← aget primes (t.primeIdx + 1)
  let slots ← moveAll hash newSize (createBuckets newSize) t.slots
  .ok { slots := slots, bucketSize := newSize, primeIdx := t.primeIdx + 1, size := t.size }

/-- The growth test at the start of `Insert`, `src/hashtable.h` 57-60.  Simplification: the
comparison `size / bucket_size_ > 0.5` in `double` is written as `2 * size > bucket_size`, which is
the same for 32-bit integers (the exact quotient differs from 1/2 by more than 2^-32 or not at all). -/
def growIfLoaded (hash : K → Exec Int) (t : Table K V) : Exec (Table K V) :=
  if 2 * t.size > t.bucketSize then extend hash t else .ok t

/-- `Insert`, `src/hashtable.h` 56-74. -/
def insert (hash : K → Exec Int) (t : Table K V) (key : K) (value : V) : Exec (Table K V) := do
  let t ← growIfLoaded hash t
  let idx ← lookup hash t.slots t.bucketSize key
  match ← aget t.slots idx with
  | none => do
    let slots ← aset t.slots idx (some (key, value))
    .ok { t with slots := slots, size := t.size + 1 }
  | some kv => do
    cassert (decide (kv.1 = key))
    let slots ← aset t.slots idx (some (kv.1, value))
    .ok { t with slots := slots }

/-- `Find`, `src/hashtable.h` 78-86. -/
def find (hash : K → Exec Int) (t : Table K V) (key : K) (dflt : V) : Exec V := do
  let idx ← lookup hash t.slots t.bucketSize key
  match ← aget t.slots idx with
  | none => .ok dflt
  | some kv => do
    cassert (decide (kv.1 = key))
    .ok kv.2

/-- `Clear`, `src/hashtable.h` 89-94. -/
def clear (t : Table K V) : Table K V :=
  { t with slots := t.slots.map (fun _ => none), size := 0 }

/-- A call made by a client of the table.  Public functions of `src/hashtable.h` 27-95. -/
inductive Op (K V : Type) where
  | insert (k : K) (v : V)
  | find (k : K) (dflt : V)
  | clear
deriving Repr

/-- One client call; the result of a `find` is appended to the outputs.
Public functions of `src/hashtable.h` 27-95. -/
def step (hash : K → Exec Int) (t : Table K V) : Op K V → Exec (Table K V × List V)
  | .insert k v => do .ok (← insert hash t k v, [])
  | .find k d => do .ok (t, [← find hash t k d])
  | .clear => .ok (clear t, [])

/-- A client's history of calls; yields the results of the `find` calls in order.
Public functions of `src/hashtable.h` 27-95. -/
def run (hash : K → Exec Int) : Table K V → List (Op K V) → Exec (Table K V × List V)
  | t, [] => .ok (t, [])
  | t, op :: ops => do
    let (t', o) ← step hash t op
    let (t'', os) ← run hash t' ops
    .ok (t'', o ++ os)

/-- `hash(int32_t)`, `src/hashtable.h` 18-20. -/
def hashInt (x : Int) : Exec Int := .ok x

/-- `hash(Decoder::State)`, `src/decoder.h` 190-196, on the pair (hclg state, lm state). -/
def hashState (s : Int × Int) : Exec Int := do
  let h := (19 : Int)
  let h ← i32 (h * 31)
  let h ← i32 (h + s.1)
  let h ← i32 (h * 31)
  i32 (h + s.2)

end Verif.HashTable
