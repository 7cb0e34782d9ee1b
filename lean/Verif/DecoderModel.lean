import Verif.FstModel

/-!
# Model of the Viterbi beam search, `src/decoder.h` and `src/decoder.cc`

The C++ `float` and `double` are two arbitrary types `F` and `D` with uninterpreted operations
(`Arith`).  Simplifications that hold for the whole file:

* tokens are values instead of pointers into `toks_pool_`; the pool itself (no two live objects share a
  slot) is the subject of `Verif.Pool`, here only the number of allocated tokens is kept (`live`);
* the word history of a token is the list of its labels, latest first, instead of a pointer to a chain of
  `OLabel` nodes; the nodes, their sharing and their collection are the subject of `Verif.Gc`;
* `state_idx_` is an association list, which the hash table implements by C01;
* the LM is an arbitrary `IFst` (that the `CachedFst` around it is transparent is C15);
* the decoding graph (OpenFst, vendored) is an arbitrary function from states to arcs.
-/

namespace Verif.Decoder

open Verif Verif.Fst

/-- `float` (`F`) and `double` (`D`) operations used by `src/decoder.cc` 97-420. -/
structure Arith (F D : Type) where
  /-- `float + float` -/
  fadd : F → F → F
  /-- `float * float` -/
  fmul : F → F → F
  /-- unary minus on `float` -/
  fneg : F → F
  /-- `0.0f` -/
  zero : F
  /-- `a < b` on `float` -/
  flt : F → F → Bool
  /-- quotient of two non-negative integers as `float` -/
  fdiv : Nat → Nat → F
  /-- conversion `float` to `double` -/
  toD : F → D
  /-- conversion `double` to `float` -/
  toF : D → F
  /-- `double + double` -/
  dadd : D → D → D
  /-- `double - double` -/
  dsub : D → D → D
  /-- `a < b` on `double` -/
  dlt : D → D → Bool
  /-- `std::isfinite` on `double` -/
  finite : D → Bool
  /-- `INFINITY` as `double` -/
  inf : D
  /-- `cost == INFINITY` on `double` -/
  isInf : D → Bool
  /-- `beam_`, `src/decoder.cc` 55 -/
  beam : F
  /-- `kBeamDelta`, `src/decoder.h` 54 -/
  beamDelta : F

/-- `fst::StdArc` of the decoding graph (the type of OpenFst named by `src/decoder.h` 134). -/
structure GArc (F : Type) where
  ilabel : Int
  olabel : Int
  weight : F
  next : Int
deriving DecidableEq, Repr

/-- The decoding graph `fst_` (`fst::Fst<fst::StdArc>`, vendored OpenFst): start state, arcs of a state
in iteration order, final weight.  `src/decoder.h` 134. -/
structure Graph (F : Type) where
  start : Int
  arcs : Int → List (GArc F)
  final : Int → F

/-- `Decoder::State`, `src/decoder.h` 172-187: state of the graph and of the LM. -/
abbrev State := Int × Int

/-- `Decoder::Token`, `src/decoder.h` 218-235. -/
structure Token (F : Type) where
  state : State
  cost : F
  hist : List Int
deriving DecidableEq, Repr

/-- The members of `Decoder` that do not change after construction, `src/decoder.cc` 49-64. -/
structure Env (F D : Type) where
  ar : Arith F D
  g : Graph F
  lm : Option (IFst F)
  pdf : List Int
  amScale : F

/-- The changing members of `Decoder`, `src/decoder.h` 136-166.  `live` is the number of tokens allocated
in `toks_pool_` and not deallocated. -/
structure Dec (F : Type) where
  toks : List (Token F)
  prev : List (Token F)
  idx : List (State × Nat)
  frames : Nat
  eos : Bool
  live : Int
deriving DecidableEq, Repr

variable {F D : Type}

/-- A new `Decoder`, `src/decoder.cc` 49-64.  `num_frames_decoded_` is not initialised by the constructor;
0 stands for it until `Initialize`. -/
def fresh : Dec F := ⟨[], [], [], 0, false, 0⟩

/-- `Vector<T>::operator()(i)`, `src/vector.h` 67-77: only the upper bound is asserted. -/
def vget {α : Type} (v : List α) (i : Int) : Exec α := do
  cassert (decide (i < v.length))
  aget v i

/-- `Decoder::LogLikelihood`, `src/decoder.cc` 97-102. -/
def logLikelihood (e : Env F D) (frame : List F) (transId : Int) : Exec F := do
  let pdfId ← vget e.pdf transId
  let logp ← vget frame pdfId
  .ok (e.ar.fmul e.amScale logp)

/-- `Decoder::PropogateLm`, `src/decoder.cc` 123-141: the new LM state and the weight. -/
def propagateLm (ar : Arith F D) (lm : IFst F) (s label : Int) : Exec (Int × F) :=
  if label ≠ 0 then do
    let r ← lm.getArc s label
    match r with
    | some a => .ok (a.next, a.weight)
    | none => .ok (s, ar.zero)
  else .ok (s, ar.zero)

/-- The online composition, `src/decoder.cc` 271-277 and 360-365: new LM state and total cost. -/
def addLm (e : Env F D) (s label : Int) (total : D) : Exec (Int × D) :=
  match e.lm with
  | none => .ok (s, total)
  | some lm => do
    let (s', w) ← propagateLm e.ar lm s label
    .ok (s', e.ar.dadd total (e.ar.toD w))

/-- The history after an arc with output label `label`, `src/decoder.cc` 153-162. -/
def extendHist (hist : List Int) (label : Int) : List Int := if label ≠ 0 then label :: hist else hist

/-- `Decoder::InsertTok`, `src/decoder.cc` 143-179. -/
def insertTok (e : Env F D) (d : Dec F) (st : State) (label : Int) (hist : List Int) (cost : F) :
    Exec (Bool × Dec F) :=
  let tok : Token F := ⟨st, cost, extendHist hist label⟩
  match d.idx.lookup st with
  | none => .ok (true, { d with toks := d.toks ++ [tok], idx := (st, d.toks.length) :: d.idx,
                                live := d.live + 1 })
  | some i =>
    match d.toks[i]? with
    | none => .error .ub
    | some old =>
      if e.ar.flt cost old.cost then
        .ok (true, { d with toks := d.toks.set i tok, live := d.live + 1 })
      else .ok (false, d)

/-! ## Cutoff -/

/-- One step of the generator, `src/decoder.cc` 194 (`uint64_t` arithmetic). -/
def lcg (x : Nat) : Nat := (x * 25214903917 + 11) % 18446744073709551616

/-- The sampling test, `src/decoder.cc` 189 and 195-196, for generator value `x` and `n` tokens. -/
def sampled (ar : Arith F D) (n x : Nat) : Bool := ar.flt (ar.fdiv (x % 65536) 65535) (ar.fdiv 200 n)

/-- The loop of `Decoder::GetCutoff`, `src/decoder.cc` 191-204: generator state, samples, best cost and
best token. -/
def cutoffLoop (ar : Arith F D) (n : Nat) : List (Token F) → Nat → List F → D → Token F →
    List F × D × Token F
  | [], _, costs, best, bestTok => (costs, best, bestTok)
  | tok :: rest, x, costs, best, bestTok =>
    let x := lcg x
    let costs := if sampled ar n x then costs ++ [tok.cost] else costs
    if ar.dlt (ar.toD tok.cost) best then cutoffLoop ar n rest x costs (ar.toD tok.cost) tok
    else cutoffLoop ar n rest x costs best bestTok

/-- Insertion used by `sortCosts`.  Stands for part of `std::nth_element`, `src/decoder.cc` 215. -/
def insertCost (ar : Arith F D) (c : F) : List F → List F
  | [] => [c]
  | x :: xs => if ar.flt x c then x :: insertCost ar c xs else c :: x :: xs

/-- What `std::nth_element`, `src/decoder.cc` 215, requires of the costs it is given and nothing checks: that `<` is a
strict weak ordering on them (irreflexive, transitive, and with a transitive relation "neither is smaller").  With a NaN
beside two different numbers it is not. -/
def weakOrder (ar : Arith F D) (costs : List F) : Bool :=
  costs.all fun a => !ar.flt a a && costs.all fun b => costs.all fun c =>
    (!(ar.flt a b && ar.flt b c) || ar.flt a c) &&
    (ar.flt a b || ar.flt b a || ar.flt b c || ar.flt c b || !ar.flt a c)

/-- The ordering established by `std::nth_element`, `src/decoder.cc` 215, on costs it may be given.  Simplification: the
whole sample is sorted; only the element at the chosen position is read. -/
def sortCosts (ar : Arith F D) : List F → List F
  | [] => []
  | c :: cs => insertCost ar c (sortCosts ar cs)

/-- `max_active_cutoff`, `src/decoder.cc` 210-225; `none` is `NAN`.  Costs `std::nth_element` must not be given are
undefined behaviour. -/
def maxActive (ar : Arith F D) (n : Nat) (costs : List F) : Exec (Option F) :=
  if n > 30000 then
    if weakOrder ar costs = false then .error .ub else do
    let c ← aget (sortCosts ar costs) ((costs.length * 30000 / n : Nat) : Int)
    .ok (some c)
  else .ok none

/-- `src/decoder.cc` 227-235: cutoff and adaptive beam. -/
def chooseCutoff (ar : Arith F D) (best : D) : Option F → D × F
  | some m =>
    if ar.dlt (ar.toD m) (ar.dadd best (ar.toD ar.beam)) then
      (ar.toD m, ar.toF (ar.dadd (ar.dsub (ar.toD m) best) (ar.toD ar.beamDelta)))
    else (ar.dadd best (ar.toD ar.beam), ar.beam)
  | none => (ar.dadd best (ar.toD ar.beam), ar.beam)

/-- `Decoder::GetCutoff`, `src/decoder.cc` 181-236: cutoff, adaptive beam and best token.  The
adaptive beam of the early return is the `INFINITY` its caller initialises it with (305). -/
def getCutoff (ar : Arith F D) (prev : List (Token F)) : Exec (D × F × Token F) :=
  match prev with
  | [] => .error .ub
  | tok0 :: _ => do
    let (costs, best, bestTok) := cutoffLoop ar prev.length prev 802 [] ar.inf tok0
    if ar.finite best = false then .ok (ar.inf, ar.toF ar.inf, bestTok) else
    let m ← maxActive ar prev.length costs
    let (cut, ab) := chooseCutoff ar best m
    .ok (cut, ab, bestTok)

/-! ## Propagation -/

/-- One arc in `Decoder::ProcessNonemitting`, `src/decoder.cc` 262-289.  The stack holds the queue with
its back at the head of the list. -/
def nonemitArc (e : Env F D) (i : Nat) (cutoff : D) (acc : Dec F × List State) (arc : GArc F) :
    Exec (Dec F × List State) :=
  let (d, stack) := acc
  if arc.ilabel ≠ 0 then .ok (d, stack) else
  match d.toks[i]? with
  | none => .error .ub
  | some tok => do
    let total := e.ar.toD (e.ar.fadd (e.ar.fadd tok.cost arc.weight) e.ar.zero)
    let (lm', total) ← addLm e tok.state.2 arc.olabel total
    if e.ar.dlt cutoff total then .ok (d, stack) else
    let (ins, d) ← insertTok e d (arc.next, lm') arc.olabel tok.hist (e.ar.toF total)
    .ok (d, if ins then (arc.next, lm') :: stack else stack)

/-- The `while` loop of `Decoder::ProcessNonemitting`, `src/decoder.cc` 250-291, bounded by `fuel`
iterations. -/
def nonemitLoop (e : Env F D) (cutoff : D) : Nat → Dec F → List State → Exec (Dec F)
  | _, d, [] => .ok d
  | 0, _, _ :: _ => .error .fuel
  | fuel + 1, d, st :: stack =>
    match d.idx.lookup st with
    | none => .error .assert
    | some i => do
      let (d, stack) ← (e.g.arcs st.1).foldlM (nonemitArc e i cutoff) (d, stack)
      nonemitLoop e cutoff fuel d stack

/-- `Decoder::ProcessNonemitting`, `src/decoder.cc` 240-292. -/
def processNonemitting (e : Env F D) (cutoff : D) (fuel : Nat) (d : Dec F) : Exec (Dec F) := do
  cassert (d.toks.all (fun t => decide (0 ≤ t.state.1)))
  nonemitLoop e cutoff fuel d (d.toks.map (·.state)).reverse

/-- `total_cost` before the LM weight, `src/decoder.cc` 350-351 (and 327-328). -/
def emitTotal (e : Env F D) (frame : List F) (cost : F) (arc : GArc F) : Exec D := do
  let ll ← logLikelihood e frame arc.ilabel
  .ok (e.ar.toD (e.ar.fadd (e.ar.fadd cost arc.weight) (e.ar.fneg ll)))

/-- The update of `next_weight_cutoff`, `src/decoder.cc` 330-332 and 355-357. -/
def tighten (ar : Arith F D) (ab : F) (nwc total : D) : D :=
  if ar.dlt (ar.dadd total (ar.toD ab)) nwc then ar.dadd total (ar.toD ab) else nwc

/-- One arc of the best token, `src/decoder.cc` 324-332. -/
def bestArc (e : Env F D) (frame : List F) (ab cost : F) (nwc : D) (arc : GArc F) : Exec D :=
  if arc.ilabel = 0 then .ok nwc else do
    let total ← emitTotal e frame cost arc
    .ok (tighten e.ar ab nwc total)

/-- One arc of a token, `src/decoder.cc` 347-373. -/
def emitArc (e : Env F D) (frame : List F) (ab : F) (tok : Token F) (acc : D × Dec F) (arc : GArc F) :
    Exec (D × Dec F) :=
  let (nwc, d) := acc
  if arc.ilabel = 0 then .ok (nwc, d) else do
    let total ← emitTotal e frame tok.cost arc
    if e.ar.dlt nwc total then .ok (nwc, d) else
    let (lm', total') ← addLm e tok.state.2 arc.olabel total
    cassert (decide (0 ≤ arc.next ∧ 0 ≤ lm'))
    let (_, d) ← insertTok e d (arc.next, lm') arc.olabel tok.hist (e.ar.toF total')
    .ok (tighten e.ar ab nwc total, d)

/-- One token of the loop `src/decoder.cc` 337-377. -/
def emitTok (e : Env F D) (frame : List F) (wc ab : F) (acc : D × Dec F) (tok : Token F) :
    Exec (D × Dec F) :=
  if e.ar.flt wc tok.cost then .ok acc else do
    let (nwc, d) ← (e.g.arcs tok.state.1).foldlM (emitArc e frame ab tok) acc
    .ok (nwc, { d with live := d.live - 1 })

/-- The cutoffs that governed a frame: `weight_cutoff` (float) and the final `next_weight_cutoff`.
`src/decoder.cc` 307, 315, 330-331, 354-356, 382. -/
structure Cutoffs (F D : Type) where
  weight : F
  next : D

/-- `Decoder::ProcessEmitting`, `src/decoder.cc` 295-383.  The first component is `none` for the early
`return INFINITY` (310) and the cutoffs otherwise, of which `next` (rounded to `float`) is the return
value. -/
def processEmitting (e : Env F D) (frame : List F) (d : Dec F) :
    Exec (Option (Cutoffs F D) × Dec F) := do
  let d : Dec F := { d with idx := [], toks := d.prev, prev := d.toks }
  let (cut, ab, bestTok) ← getCutoff e.ar d.prev
  let wc := e.ar.toF cut
  if e.ar.finite (e.ar.toD wc) = false then .ok (none, d) else
  let nwc ← (e.g.arcs bestTok.state.1).foldlM (bestArc e frame ab bestTok.cost) e.ar.inf
  let (nwc, d') ← d.prev.foldlM (emitTok e frame wc ab) (nwc, d)
  .ok (some ⟨wc, nwc⟩, { d' with prev := [] })

/-- `Decoder::Process`, `src/decoder.cc` 70-95: the return value, the cutoffs of the frame if any, and the
new state.  The garbage collection of word histories (81-91) does not change them (see `Verif.Gc`). -/
def process (e : Env F D) (fuel : Nat) (frame : List F) (d : Dec F) :
    Exec (Bool × Option (Cutoffs F D) × Dec F) := do
  let (c, d) ← processEmitting e frame d
  match c with
  | none => .ok (false, none, d)
  | some c =>
    let cutoff := e.ar.toD (e.ar.toF c.next)
    if e.ar.finite cutoff = false then .ok (false, some c, d) else do
    let d ← processNonemitting e cutoff fuel d
    if d.toks = [] then .ok (false, some c, d) else
    .ok (true, some c, { d with frames := d.frames + 1 })

/-- `lm_start_state`, `src/decoder.cc` 113-116. -/
def lmStart (e : Env F D) : Exec Int :=
  match e.lm with
  | some lm => lm.start
  | none => .ok 0

/-- `Decoder::Initialize`, `src/decoder.cc` 104-121. -/
def initDecoder (e : Env F D) (fuel : Nat) (d : Dec F) : Exec (Dec F) := do
  cassert (decide (0 ≤ e.g.start))
  let ls ← lmStart e
  let (_, d) ← insertTok e { d with toks := [], prev := [] } (e.g.start, ls) 0 [] e.ar.zero
  processNonemitting e e.ar.inf fuel { d with frames := 0 }

/-- `Decoder::EndOfStream`, `src/decoder.h` 83. -/
def endOfStream (d : Dec F) : Dec F := { d with eos := true }

/-! ## Best path -/

/-- The cost `BestPath` compares, `src/decoder.cc` 394-404. -/
def pathCost (e : Env F D) (eos : Bool) (tok : Token F) : Exec D :=
  let cost := e.ar.toD tok.cost
  if eos then
    let cost := e.ar.dadd cost (e.ar.toD (e.g.final tok.state.1))
    match e.lm with
    | none => .ok cost
    | some lm => do
      let w ← lm.final tok.state.2
      .ok (e.ar.dadd cost (e.ar.toD w))
  else .ok cost

/-- The loop of `Decoder::BestPath`, `src/decoder.cc` 393-410. -/
def bestLoop (e : Env F D) (eos : Bool) : List (Token F) → Option (Token F) → D →
    Exec (Option (Token F) × D)
  | [], best, cost => .ok (best, cost)
  | tok :: rest, best, cost => do
    let c ← pathCost e eos tok
    if e.ar.isInf c = false ∧ e.ar.dlt c cost = true then bestLoop e eos rest (some tok) c
    else bestLoop e eos rest best cost

/-- `Decoder::BestPath`, `src/decoder.cc` 386-431: words (latest first, as the code returns them) and
weight. -/
def bestPath (e : Env F D) (d : Dec F) : Exec (List Int × F) := do
  let (best, cost) ← bestLoop e d.eos d.toks none e.ar.inf
  match best with
  | none => .ok ([], e.ar.zero)
  | some tok => do
    cassert (decide (tok.hist.length < 100000))
    .ok (tok.hist, e.ar.fadd (e.ar.toF cost) (e.g.final tok.state.1))

end Verif.Decoder
