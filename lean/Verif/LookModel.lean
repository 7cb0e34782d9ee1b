import Verif.DecoderModel
import Verif.HclgModel

/-!
# Model of the beam search on a graph whose lookups may fail

The functions of `DecoderModel.lean` that look into the decoding graph, again with lookups that may be undefined behaviour, such
as those into a graph that was read from a file.  The graph inside of `Env` is not used here; all that does not look into the
graph is taken from `DecoderModel.lean`.  Simplification: all arcs of a state are looked up before the first of them is used.
-/

namespace Verif.Look

open Verif Verif.Fst Verif.Decoder

variable {F D : Type}

/-- The decoding graph `fst_` with lookups that may fail: `Start`, the arc iterator, `Final`.  `src/decoder.h` 134. -/
structure LGraph (F : Type) where
  start : Int
  arcs : Int → Exec (List (GArc F))
  final : Int → Exec F

/-- A graph that was read from a file; `ofBits` is the `float` with these bits.  `Start`, `Final` and the iterator of `ConstFst`,
`src/openfst/include/fst/const-fst.h` 66-68, 90-95. -/
def fileGraph (ofBits : Nat → F) (f : Hclg.ConstFst) : LGraph F where
  start := f.start
  arcs s := do
    let as ← Hclg.arcsAt f s
    .ok (as.map fun a => ⟨a.ilabel, a.olabel, ofBits a.weight, a.next⟩)
  final s := do
    let w ← Hclg.finalAt f s
    .ok (ofBits w)

/-- The `while` loop of `Decoder::ProcessNonemitting`, `src/decoder.cc` 250-291, bounded by `fuel` iterations. -/
def nonemitLoop (e : Env F D) (l : LGraph F) (cutoff : D) : Nat → Dec F → List State → Exec (Dec F)
  | _, d, [] => .ok d
  | 0, _, _ :: _ => .error .fuel
  | fuel + 1, d, st :: stack =>
    match d.idx.lookup st with
    | none => .error .assert
    | some i => do
      let arcs ← l.arcs st.1
      let r ← arcs.foldlM (nonemitArc e i cutoff) (d, stack)
      nonemitLoop e l cutoff fuel r.1 r.2

/-- `Decoder::ProcessNonemitting`, `src/decoder.cc` 240-292. -/
def processNonemitting (e : Env F D) (l : LGraph F) (cutoff : D) (fuel : Nat) (d : Dec F) : Exec (Dec F) := do
  cassert (d.toks.all (fun t => decide (0 ≤ t.state.1)))
  nonemitLoop e l cutoff fuel d (d.toks.map (·.state)).reverse

/-- One token of the loop `src/decoder.cc` 337-377. -/
def emitTok (e : Env F D) (l : LGraph F) (frame : List F) (wc ab : F) (acc : D × Dec F) (tok : Token F) :
    Exec (D × Dec F) :=
  if e.ar.flt wc tok.cost then .ok acc else do
    let arcs ← l.arcs tok.state.1
    let r ← arcs.foldlM (emitArc e frame ab tok) acc
    .ok (r.1, { r.2 with live := r.2.live - 1 })

/-- `Decoder::ProcessEmitting`, `src/decoder.cc` 295-383. -/
def processEmitting (e : Env F D) (l : LGraph F) (frame : List F) (d : Dec F) : Exec (Option (Cutoffs F D) × Dec F) := do
  let d : Dec F := { d with idx := [], toks := d.prev, prev := d.toks }
  let c ← getCutoff e.ar d.prev
  let wc := e.ar.toF c.1
  if e.ar.finite (e.ar.toD wc) = false then .ok (none, d) else do
    let arcs ← l.arcs c.2.2.state.1
    let nwc ← arcs.foldlM (bestArc e frame c.2.1 c.2.2.cost) e.ar.inf
    let r ← d.prev.foldlM (emitTok e l frame wc c.2.1) (nwc, d)
    .ok (some ⟨wc, r.1⟩, { r.2 with prev := [] })

/-- `Decoder::Process`, `src/decoder.cc` 70-95: the return value and the new state. -/
def process (e : Env F D) (l : LGraph F) (fuel : Nat) (frame : List F) (d : Dec F) : Exec (Bool × Dec F) := do
  let x ← processEmitting e l frame d
  match x.1 with
  | none => .ok (false, x.2)
  | some c =>
    let cutoff := e.ar.toD (e.ar.toF c.next)
    if e.ar.finite cutoff = false then .ok (false, x.2) else do
      let d ← processNonemitting e l cutoff fuel x.2
      if d.toks = [] then .ok (false, d) else .ok (true, { d with frames := d.frames + 1 })

/-- `Decoder::Initialize`, `src/decoder.cc` 104-121. -/
def initDecoder (e : Env F D) (l : LGraph F) (fuel : Nat) (d : Dec F) : Exec (Dec F) := do
  cassert (decide (0 ≤ l.start))
  let ls ← lmStart e
  let x ← insertTok e { d with toks := [], prev := [] } (l.start, ls) 0 [] e.ar.zero
  processNonemitting e l e.ar.inf fuel { x.2 with frames := 0 }

/-- The cost `BestPath` compares, `src/decoder.cc` 394-404. -/
def pathCost (e : Env F D) (l : LGraph F) (eos : Bool) (tok : Token F) : Exec D :=
  let cost := e.ar.toD tok.cost
  if eos then do
    let w ← l.final tok.state.1
    let cost := e.ar.dadd cost (e.ar.toD w)
    match e.lm with
    | none => .ok cost
    | some lm => do
      let w ← lm.final tok.state.2
      .ok (e.ar.dadd cost (e.ar.toD w))
  else .ok cost

/-- The loop of `Decoder::BestPath`, `src/decoder.cc` 393-410. -/
def bestLoop (e : Env F D) (l : LGraph F) (eos : Bool) : List (Token F) → Option (Token F) → D → Exec (Option (Token F) × D)
  | [], best, cost => .ok (best, cost)
  | tok :: rest, best, cost => do
    let c ← pathCost e l eos tok
    if e.ar.isInf c = false ∧ e.ar.dlt c cost = true then bestLoop e l eos rest (some tok) c
    else bestLoop e l eos rest best cost

/-- `Decoder::BestPath`, `src/decoder.cc` 386-431: words (latest first) and weight. -/
def bestPath (e : Env F D) (l : LGraph F) (d : Dec F) : Exec (List Int × F) := do
  let x ← bestLoop e l d.eos d.toks none e.ar.inf
  match x.1 with
  | none => .ok ([], e.ar.zero)
  | some tok => do
    cassert (decide (tok.hist.length < 100000))
    let w ← l.final tok.state.1
    .ok (tok.hist, e.ar.fadd (e.ar.toF x.2) w)

/-! ## Programs -/

/-- A call of a member function of `Decoder`: `Initialize`, `Process`, `EndOfStream`, `BestPath`.  `src/decoder.h` 74-86. -/
inductive Call (F : Type) where
  | init
  | frame (f : List F)
  | eos
  | best

/-- What a call returns, `src/decoder.h` 74-86. -/
inductive Answer (F : Type) where
  | unit
  | bool (b : Bool)
  | path (words : List Int) (weight : F)
deriving DecidableEq

/-- One call with the graph `l`.  `src/decoder.cc` 70-121, 386-431, `src/decoder.h` 83. -/
def step (e : Env F D) (l : LGraph F) (fuel : Nat) (d : Dec F) : Call F → Exec (Answer F × Dec F)
  | .init => do
    let d ← initDecoder e l fuel d
    .ok (.unit, d)
  | .frame f => do
    let x ← process e l fuel f d
    .ok (.bool x.1, x.2)
  | .eos => .ok (.unit, endOfStream d)
  | .best => do
    let x ← bestPath e l d
    .ok (.path x.1 x.2, d)

/-- Calls one after the other: all answers.  Such as those in `src/ce_stt.cc` 164, 265, 323, 356-359. -/
def run (e : Env F D) (l : LGraph F) (fuel : Nat) : Dec F → List (Call F) → Exec (List (Answer F))
  | _, [] => .ok []
  | d, c :: cs => do
    let x ← step e l fuel d c
    let as ← run e l fuel x.2 cs
    .ok (x.1 :: as)

end Verif.Look
