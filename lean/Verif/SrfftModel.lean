import Verif.Basic

/-!
# Model of `src/srfft.h` and `src/srfft.cc`

The arithmetic on `float` is a parameter.  Indices are natural numbers: all of them are less than `2 * N_`, which is at
most 2^30, so that no `int` overflows.  An access outside an array is undefined.
-/

namespace Verif.Srfft

/-- The arithmetic used.  Used by `src/srfft.cc` 47-456. -/
structure Ops (F : Type) where
  /-- an integer as `float` -/
  ofInt : Int → F
  add : F → F → F
  sub : F → F → F
  mul : F → F → F
  neg : F → F
  /-- `0.5 * x` -/
  half : F → F
  /-- `x * 2.0` -/
  twice : F → F
  /-- `x / 2` -/
  div2 : F → F
  /-- `M_SQRT1_2` -/
  sqhalf : F
  /-- `n * M_2PI / m` as `float` -/
  ang : Nat → Nat → F
  /-- `M_2PI / N * sign` as `float` -/
  rootAng : Nat → Int → F
  /-- `cos`, to `float` -/
  cos : F → F
  /-- `sin`, to `float` -/
  sin : F → F

variable {F : Type}

/-- `for (i = 0; i < n; i++)`.  Such as `src/srfft.cc` 87, 111, 199, 319. -/
def forN {σ : Type} (n : Nat) (f : Nat → σ → Exec σ) (s : σ) : Exec σ :=
  (List.range n).foldlM (fun s i => f i s) s

/-! ## Tables -/

/-- The elements of `brseed_` for one `j` of the loop, `src/srfft.cc` 87-90: `brseed_[i] <<= 1; brseed_[i + imax] =
brseed_[i] + 1;`.  An element is `none` until it is written. -/
def seedStep (imax : Nat) (i : Nat) (seed : List (Option Nat)) : Exec (List (Option Nat)) := do
  let v ← aget seed i
  match v with
  | none => .error .ub
  | some v => do
    let seed ← aset seed i (some (v * 2))
    aset seed (i + imax : Nat) (some (v * 2 + 1))

/-- `brseed_`, `src/srfft.cc` 80-91. -/
def seedTable (logn : Nat) : Exec (List (Option Nat)) := do
  let lg2 := logn / 2 + logn % 2
  let seed ← aset (List.replicate (2 ^ lg2) none) 0 (some 0)
  let seed ← aset seed 1 (some 1)
  forN (lg2 - 1) (fun j seed => forN (2 ^ (j + 1)) (seedStep (2 ^ (j + 1))) seed) seed

/-- One element of each of the six tables for a level.  `src/srfft.cc` 107-108. -/
structure Six (F : Type) where
  c : F
  spc : F
  smc : F
  c3 : F
  spc3 : F
  smc3 : F

/-- The body of the loop, `src/srfft.cc` 113-118. -/
def entry (o : Ops F) (m n : Nat) : Six F :=
  let c := o.cos (o.ang n m)
  let s := o.sin (o.ang n m)
  let c3 := o.cos (o.ang (3 * n) m)
  let s3 := o.sin (o.ang (3 * n) m)
  ⟨c, o.neg (o.add s c), o.sub s c, c3, o.neg (o.add s3 c3), o.sub s3 c3⟩

/-- The tables for `m = 2^i`, `src/srfft.cc` 99-119.  Simplification: the six tables are six parts of one block, `nel =
m / 4 - 2` elements each; here they are one list of six-tuples (whose length is shown to be `nel`). -/
def tableRow (o : Ops F) (m : Nat) : List (Six F) :=
  ((List.range (m / 4 - 1)).filter (fun i => i + 1 ≠ m / 8)).map (fun i => entry o m (i + 1))

/-- `tab_`, `src/srfft.cc` 93-121: for 16, 32, ..., 2^logn. -/
def table (o : Ops F) (logn : Nat) : List (List (Six F)) :=
  (List.range (logn - 3)).map fun i => tableRow o (2 ^ (i + 4))

/-- `SRFFT`, `src/srfft.h` 33-42. -/
structure State (F : Type) where
  n : Nat
  logn : Nat
  seed : List (Option Nat)
  tab : List (List (Six F))

/-- `while (N > 1) { N >>= 1; ++logn_; }`, `src/srfft.cc` 350-353. -/
def logOf : Nat → Nat → Nat
  | 0, _ => 0
  | fuel + 1, n => if n > 1 then logOf fuel (n / 2) + 1 else 0

/-- `SRFFT::SRFFT`, `src/srfft.cc` 342-355: `N /= 2` and `N & (N - 1)` on an `int`. -/
def new (o : Ops F) (points : Int) : Exec (State F) := do
  let n := points.tdiv 2
  cassert (decide (1 < n))
  cassert (decide (n.toNat &&& (n.toNat - 1) = 0))
  let logn := logOf n.toNat n.toNat
  let seed ← seedTable logn
  .ok ⟨n.toNat, logn, seed, table o logn⟩

/-! ## Complex transform -/

/-- The real and the imaginary parts; `xr` and `xi` point into these.  `src/srfft.cc` 293-306. -/
abbrev Cx (F : Type) := List F × List F

/-- Sum and difference of elements `p` and `q`, `src/srfft.cc` 142-147, 152-157, 160-165, 181-186 and 200-207. -/
def butterfly (o : Ops F) (p q : Nat) (s : Cx F) : Exec (Cx F) := do
  let xp ← aget s.1 p
  let xq ← aget s.1 q
  let xr ← aset s.1 q (o.sub xp xq)
  let xr ← aset xr p (o.add xp xq)
  let yp ← aget s.2 p
  let yq ← aget s.2 q
  let xi ← aset s.2 q (o.sub yp yq)
  let xi ← aset xi p (o.add yp yq)
  .ok (xr, xi)

/-- Elements `p` and `q` combined with a quarter turn, `src/srfft.cc` 170-175 and 214-220. -/
def cross (o : Ops F) (p q : Nat) (s : Cx F) : Exec (Cx F) := do
  let xp ← aget s.1 p
  let xq ← aget s.1 q
  let yp ← aget s.2 p
  let yq ← aget s.2 q
  let tmp1 := o.add xp yq
  let tmp2 := o.add yp xq
  let xi ← aset s.2 p (o.sub yp xq)
  let xr ← aset s.1 q (o.sub xp yq)
  let xr ← aset xr p tmp1
  let xi ← aset xi q tmp2
  .ok (xr, xi)

/-- The case `n == m8` of steps 3 and 4, `src/srfft.cc` 236-241. -/
def turn8 (o : Ops F) (p q : Nat) (s : Cx F) : Exec (Cx F) := do
  let xp ← aget s.1 p
  let yp ← aget s.2 p
  let xi ← aset s.2 p (o.mul o.sqhalf (o.sub yp xp))
  let xr ← aset s.1 p (o.mul o.sqhalf (o.add xp yp))
  let xq ← aget xr q
  let yq ← aget xi q
  let xi ← aset xi q (o.mul (o.neg o.sqhalf) (o.add xq yq))
  let xr ← aset xr q (o.mul o.sqhalf (o.sub yq xq))
  .ok (xr, xi)

/-- The other case, `src/srfft.cc` 243-250. -/
def turn (o : Ops F) (e : Six F) (p q : Nat) (s : Cx F) : Exec (Cx F) := do
  let xp ← aget s.1 p
  let yp ← aget s.2 p
  let tmp2 := o.mul e.c (o.add xp yp)
  let tmp1 := o.add (o.mul e.spc xp) tmp2
  let xr ← aset s.1 p (o.add (o.mul e.smc yp) tmp2)
  let xi ← aset s.2 p tmp1
  let xq ← aget xr q
  let yq ← aget xi q
  let tmp2 := o.mul e.c3 (o.add xq yq)
  let tmp1 := o.add (o.mul e.spc3 xq) tmp2
  let xr ← aset xr q (o.add (o.mul e.smc3 yq) tmp2)
  let xi ← aset xi q tmp1
  .ok (xr, xi)

/-- One iteration of the loop of steps 3 and 4, `src/srfft.cc` 234-253, with `n = i + 1`; the number is how far the
pointers into the tables have advanced. -/
def twiddleStep (o : Ops F) (row : List (Six F)) (m b : Nat) (i : Nat) (s : Cx F × Nat) : Exec (Cx F × Nat) :=
  if i + 1 = m / 8 then do
    let x ← turn8 o (b + m / 2 + (i + 1)) (b + m / 2 + m / 4 + (i + 1)) s.1
    .ok (x, s.2)
  else do
    let e ← aget row s.2
    let x ← turn o e (b + m / 2 + (i + 1)) (b + m / 2 + m / 4 + (i + 1)) s.1
    .ok (x, s.2 + 1)

/-- The tables of a level; below 16 points the pointers are not set, `src/srfft.cc` 227-231. -/
def rowFor (tab : List (List (Six F))) (logn : Nat) : Exec (List (Six F)) :=
  if 4 ≤ logn then aget tab (logn - 4 : Nat) else .ok []

/-- `SRFFT::ComplexfftComputeRecursive`, `src/srfft.cc` 124-265, on the `2^logn` elements from `b` on (the pointers `xr`
and `xi` are `b` elements past the start).  `logn` cannot become negative. -/
def fftRec (o : Ops F) (tab : List (List (Six F))) : Nat → Nat → Cx F → Exec (Cx F)
  | 0, _, s => .ok s
  | 1, b, s => butterfly o b (b + 1) s
  | 2, b, s => do
    let s ← butterfly o b (b + 2) s
    let s ← butterfly o (b + 1) (b + 3) s
    let s ← butterfly o b (b + 1) s
    cross o (b + 2) (b + 3) s
  | l + 3, b, s => do
    let m := 2 ^ (l + 3)
    let s ← forN (m / 2) (fun n s => butterfly o (b + n) (b + m / 2 + n) s) s
    let s ← forN (m / 4) (fun n s => cross o (b + m / 2 + n) (b + m / 2 + m / 4 + n) s) s
    let row ← rowFor tab (l + 3)
    let r ← forN (m / 4 - 1) (twiddleStep o row m b) (s, 0)
    let s ← fftRec o tab (l + 2) b r.1
    let s ← fftRec o tab (l + 1) (b + m / 2) s
    fftRec o tab (l + 1) (b + 3 * (m / 4)) s

/-- `tmp = x[i]; x[i] = x[j]; x[j] = tmp;`, `src/srfft.cc` 281 and 288. -/
def swapAt (i j : Nat) (x : List F) : Exec (List F) := do
  let a ← aget x i
  let b ← aget x j
  let x ← aset x i b
  aset x j a

/-- An element of `brseed_`.  `src/srfft.cc` 280, 283-284. -/
def seedAt (seed : List (Option Nat)) (i : Nat) : Exec Nat := do
  let v ← aget seed i
  match v with
  | none => .error .ub
  | some v => .ok v

/-- The body of the outer loop of `SRFFT::BitReversePermute`, `src/srfft.cc` 280-289, with `off = k + 1`. -/
def reverseStep (seed : List (Option Nat)) (n k : Nat) (x : List F) : Exec (List F) := do
  let s ← seedAt seed (k + 1)
  let x ← swapAt (k + 1) (n * s) x
  forN (s - 1) (fun g x => do
    let t ← seedAt seed (g + 1)
    swapAt (k + 1 + (g + 1) * n) (n * s + t) x) x

/-- `SRFFT::BitReversePermute`, `src/srfft.cc` 267-291. -/
def bitReverse (seed : List (Option Nat)) (logn : Nat) (x : List F) : Exec (List F) :=
  forN (2 ^ (logn / 2) - 1) (reverseStep seed (2 ^ (logn / 2))) x

/-- The two permutations, `src/srfft.cc` 303-306. -/
def unshuffle (t : State F) (s : Cx F) : Exec (Cx F) :=
  if t.logn > 1 then do
    let xr ← bitReverse t.seed t.logn s.1
    let xi ← bitReverse t.seed t.logn s.2
    .ok (xr, xi)
  else .ok s

/-- `SRFFT::ComplexFFTCompute2`, `src/srfft.cc` 293-307. -/
def complex2 (o : Ops F) (t : State F) (forward : Bool) (s : Cx F) : Exec (Cx F) := do
  let s := if forward then s else (s.2, s.1)
  let s ← fftRec o t.tab t.logn 0 s
  let s ← unshuffle t s
  .ok (if forward then s else (s.2, s.1))

/-- `x[i] = x[i * 2]; buffer[i] = x[i * 2 + 1];`, `src/srfft.cc` 320-321. -/
def splitStep (i : Nat) (s : List F × List F) : Exec (List F × List F) := do
  let re ← aget s.1 (i * 2 : Nat)
  let x ← aset s.1 i re
  let im ← aget x (i * 2 + 1 : Nat)
  let b ← aset s.2 i im
  .ok (x, b)

/-- `memcpy` of `n` elements, from `src` to the `n` elements of `dst` from `at` on, or the other way, `src/srfft.cc`
324-326 and 330-332. -/
def copyInto (dst : List F) (at_ : Nat) (src : List F) (from_ n : Nat) : Exec (List F) :=
  forN n (fun i d => do
    let v ← aget src (from_ + i : Nat)
    aset d (at_ + i : Nat) v) dst

/-- `x[i * 2] = x[i]; x[i * 2 + 1] = buffer[i];`, `src/srfft.cc` 336-337, for `i = N_ - 1 - k`. -/
def mergeStep (n : Nat) (b : List F) (k : Nat) (x : List F) : Exec (List F) := do
  let i := n - 1 - k
  let re ← aget x i
  let x ← aset x (i * 2 : Nat) re
  let im ← aget b i
  aset x (i * 2 + 1 : Nat) im

/-- The transform of the array whose halves are the real and the imaginary parts, `src/srfft.cc` 328.  Simplification:
the two halves of `x` are separate arrays in the meantime. -/
def onHalves (o : Ops F) (t : State F) (forward : Bool) (x : List F) : Exec (List F) := do
  let s ← complex2 o t forward (x.take t.n, (x.drop t.n).take t.n)
  .ok (s.1 ++ s.2 ++ x.drop (t.n + t.n))

/-- `SRFFT::ComplexFFTCompute`, `src/srfft.cc` 310-340: `x` and `buffer`. -/
def complexFFT (o : Ops F) (t : State F) (x : List F) (xsize : Int) (forward : Bool) (buffer : List F) (bufferSize : Int) :
    Exec (List F × List F) := do
  cassert (decide (xsize = (t.n : Int) * 2))
  cassert (decide ((t.n : Int) ≤ bufferSize))
  let s ← forN t.n splitStep (x, buffer)
  let x ← copyInto s.1 t.n s.2 0 t.n
  let x ← onHalves o t forward x
  let b ← copyInto s.2 0 x t.n t.n
  let x ← forN (t.n - 1) (mergeStep t.n b) x
  let v ← aget b 0
  let x ← aset x 1 v
  .ok (x, b)

/-! ## Real transform -/

/-- `complex_mul`, `src/srfft.cc` 53-57: `b *= a`. -/
def complexMul (o : Ops F) (ar ai br bi : F) : F × F :=
  (o.sub (o.mul br ar) (o.mul bi ai), o.add (o.mul br ai) (o.mul bi ar))

/-- `complex_add_product`, `src/srfft.cc` 59-68: `c += a * b` for the elements `p` and `p + 1` of the data. -/
def addProduct (o : Ops F) (ar ai br bi : F) (p : Nat) (x : List F) : Exec (List F) := do
  let cr ← aget x p
  let x ← aset x p (o.add cr (o.sub (o.mul br ar) (o.mul bi ai)))
  let ci ← aget x (p + 1 : Nat)
  aset x (p + 1 : Nat) (o.add ci (o.add (o.mul br ai) (o.mul bi ar)))

/-- The part for `kdash`, `src/srfft.cc` 414-433. -/
def dashStep (o : Ops F) (n k : Nat) (cr ci dr di kr ki : F) (x : List F) : Exec (List F) :=
  if n - k ≠ k then do
    let x ← aset x (2 * (n - k) : Nat) cr
    let x ← aset x (2 * (n - k) + 1 : Nat) (o.neg ci)
    addProduct o dr (o.neg di) (o.neg kr) ki (2 * (n - k)) x
  else .ok x

/-- The body of the loop, `src/srfft.cc` 391-434, for `k = i + 1`; `n` is `N2`; the pair is `kN`. -/
def realStep (o : Ops F) (n : Nat) (rr ri : F) (i : Nat) (s : List F × F × F) : Exec (List F × F × F) := do
  let k := i + 1
  let w := complexMul o rr ri s.2.1 s.2.2
  let a ← aget s.1 (2 * k : Nat)
  let b ← aget s.1 (2 * n - 2 * k : Nat)
  let c ← aget s.1 (2 * k + 1 : Nat)
  let d ← aget s.1 (2 * n - 2 * k + 1 : Nat)
  let cr := o.half (o.add a b)
  let ci := o.half (o.sub c d)
  let dr := o.half (o.add c d)
  let di := o.neg (o.half (o.sub a b))
  let x ← aset s.1 (2 * k : Nat) cr
  let x ← aset x (2 * k + 1 : Nat) ci
  let x ← addProduct o dr di w.1 w.2 (2 * k) x
  let x ← dashStep o n k cr ci dr di w.1 w.2 x
  .ok (x, w)

/-- `k = 0`, `src/srfft.cc` 442-449. -/
def zeroStep (o : Ops F) (forward : Bool) (x : List F) : Exec (List F) := do
  let a ← aget x 0
  let b ← aget x 1
  let x ← aset x 0 (if forward then o.add a b else o.div2 (o.add a b))
  aset x 1 (if forward then o.sub a b else o.div2 (o.sub a b))

/-- The middle of `SRFFT::Compute`, `src/srfft.cc` 382-449. -/
def middle (o : Ops F) (t : State F) (forward : Bool) (x : List F) : Exec (List F) := do
  let sign : Int := if forward then -1 else 1
  let rr := o.cos (o.rootAng (t.n * 2) sign)
  let ri := o.sin (o.rootAng (t.n * 2) sign)
  let r ← forN (t.n / 2) (realStep o t.n rr ri) (x, o.ofInt (-sign), o.ofInt 0)
  zeroStep o forward r.1

/-- `data[i] *= 2.0`, `src/srfft.cc` 453-454. -/
def doubleAll (o : Ops F) (n : Nat) (x : List F) : Exec (List F) :=
  forN n (fun i x => do
    let v ← aget x i
    aset x i (o.twice v)) x

/-- `SRFFT::Compute`, `src/srfft.cc` 370-459: the data and the buffer. -/
def compute (o : Ops F) (t : State F) (data : List F) (dataSize : Int) (forward : Bool) (buffer : List F)
    (bufferSize : Int) : Exec (List F × List F) :=
  if forward then do
    let r ← complexFFT o t data dataSize true buffer bufferSize
    let x ← middle o t true r.1
    .ok (x, r.2)
  else do
    let x ← middle o t false data
    let r ← complexFFT o t x dataSize false buffer bufferSize
    let x ← doubleAll o (t.n * 2) r.1
    .ok (x, r.2)

end Verif.Srfft
