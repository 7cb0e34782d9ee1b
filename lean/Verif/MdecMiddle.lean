import Verif.MdecModel

/-!
# A half-way decoder: word histories in memory, everything else by value

Used to prove that the decoder of `Verif.MdecModel` does what the one of `Verif.DecoderModel` does.  Tokens are values,
the index of the active states is an association list and the language model is asked directly, as in
`Verif.DecoderModel`; word histories are pointers into the garbage collected pool, as in `Verif.MdecModel`.
-/

namespace Verif.Mdec.Mid

open Verif Verif.Fst Verif.Decoder
open Verif.Pool (Addr)

variable {F D : Type}

/-- The changing members of the half-way decoder, `src/decoder.h` 137-161 (see `Decoder.Dec` and `Mdec.Mem`). -/
structure Half (F : Type) where
  toks : List (Tok F)
  prev : List (Tok F)
  idx : List (State × Nat)
  words : Gc.GPool
  frames : Nat
  eos : Bool
  live : Int

/-- A new decoder, `src/decoder.cc` 49-64. -/
def fresh : Half F := ⟨[], [], [], Gc.init, 0, false, 0⟩

/-- `Decoder::InsertTok`, `src/decoder.cc` 143-179. -/
def insertTok (e : Env F D) (d : Half F) (st : State) (label : Int) (prev : Option Addr) (cost : F) :
    Exec (Bool × Half F) := do
  let (words, h) ← Gc.extend blockSize d.words prev label
  match d.idx.lookup st with
  | none => .ok (true, { d with words := words, toks := d.toks ++ [⟨st, cost, h⟩],
                                idx := (st, d.toks.length) :: d.idx, live := d.live + 1 })
  | some i =>
    match d.toks[i]? with
    | none => .error .ub
    | some old =>
      if e.ar.flt cost old.cost then
        .ok (true, { d with words := words, toks := d.toks.set i ⟨st, cost, h⟩, live := d.live + 1 })
      else .ok (false, { d with words := words })

/-- One arc in `Decoder::ProcessNonemitting`, `src/decoder.cc` 262-289. -/
def nonemitArc (e : Env F D) (i : Nat) (cutoff : D) (acc : Half F × List State) (arc : GArc F) :
    Exec (Half F × List State) :=
  let (d, stack) := acc
  if arc.ilabel ≠ 0 then .ok (d, stack) else
  match d.toks[i]? with
  | none => .error .ub
  | some tok => do
    let total := e.ar.toD (e.ar.fadd (e.ar.fadd tok.cost arc.weight) e.ar.zero)
    let (lm', total) ← Decoder.addLm e tok.state.2 arc.olabel total
    if e.ar.dlt cutoff total then .ok (d, stack) else
    let (ins, d) ← insertTok e d (arc.next, lm') arc.olabel tok.olabel (e.ar.toF total)
    .ok (d, if ins then (arc.next, lm') :: stack else stack)

/-- The `while` loop of `Decoder::ProcessNonemitting`, `src/decoder.cc` 250-291. -/
def nonemitLoop (e : Env F D) (cutoff : D) : Nat → Half F → List State → Exec (Half F)
  | _, d, [] => .ok d
  | 0, _, _ :: _ => .error .fuel
  | fuel + 1, d, st :: stack =>
    match d.idx.lookup st with
    | none => .error .assert
    | some i => do
      let (d, stack) ← (e.g.arcs st.1).foldlM (nonemitArc e i cutoff) (d, stack)
      nonemitLoop e cutoff fuel d stack

/-- `Decoder::ProcessNonemitting`, `src/decoder.cc` 240-292. -/
def processNonemitting (e : Env F D) (cutoff : D) (fuel : Nat) (d : Half F) : Exec (Half F) := do
  cassert (d.toks.all (fun t => decide (0 ≤ t.state.1)))
  nonemitLoop e cutoff fuel d (d.toks.map (·.state)).reverse

/-- One arc of a token, `src/decoder.cc` 347-373. -/
def emitArc (e : Env F D) (frame : List F) (ab : F) (tok : Tok F) (acc : D × Half F) (arc : GArc F) :
    Exec (D × Half F) :=
  let (nwc, d) := acc
  if arc.ilabel = 0 then .ok (nwc, d) else do
    let total ← emitTotal e frame tok.cost arc
    if e.ar.dlt nwc total then .ok (nwc, d) else
    let (lm', total') ← Decoder.addLm e tok.state.2 arc.olabel total
    cassert (decide (0 ≤ arc.next ∧ 0 ≤ lm'))
    let (_, d) ← insertTok e d (arc.next, lm') arc.olabel tok.olabel (e.ar.toF total')
    .ok (tighten e.ar ab nwc total, d)

/-- One token of the loop `src/decoder.cc` 337-377. -/
def emitTok (e : Env F D) (frame : List F) (wc ab : F) (acc : D × Half F) (tok : Tok F) : Exec (D × Half F) :=
  if e.ar.flt wc tok.cost then .ok acc else do
    let (nwc, d) ← (e.g.arcs tok.state.1).foldlM (emitArc e frame ab tok) acc
    .ok (nwc, { d with live := d.live - 1 })

/-- `Decoder::ProcessEmitting`, `src/decoder.cc` 295-383. -/
def processEmitting (e : Env F D) (frame : List F) (d : Half F) : Exec (Option (Cutoffs F D) × Half F) := do
  let d : Half F := { d with idx := [], toks := d.prev, prev := d.toks }
  let (cut, ab, bestTok) ← getCutoff e.ar (d.prev.map Tok.view)
  let wc := e.ar.toF cut
  if e.ar.finite (e.ar.toD wc) = false then .ok (none, d) else
  let nwc ← (e.g.arcs bestTok.state.1).foldlM (bestArc e frame ab bestTok.cost) e.ar.inf
  let (nwc, d') ← d.prev.foldlM (emitTok e frame wc ab) (nwc, d)
  .ok (some ⟨wc, nwc⟩, { d' with prev := [] })

/-- `Decoder::Process` up to the collection, `src/decoder.cc` 70-79. -/
def propagate (e : Env F D) (fuel : Nat) (frame : List F) (d : Half F) :
    Exec (Bool × Option (Cutoffs F D) × Half F) := do
  let (c, d) ← processEmitting e frame d
  match c with
  | none => .ok (false, none, d)
  | some c =>
    let cutoff := e.ar.toD (e.ar.toF c.next)
    if e.ar.finite cutoff = false then .ok (false, some c, d) else do
    let d ← processNonemitting e cutoff fuel d
    if d.toks = [] then .ok (false, some c, d) else .ok (true, some c, d)

/-- The collection of word histories, `src/decoder.cc` 81-91. -/
def tidy (d : Half F) : Exec (Half F) :=
  if d.frames % 20 = 0 then do
    let words ← Gc.gc blockSize d.words (d.toks.filterMap (·.olabel))
    .ok { d with words := words }
  else .ok d

/-- The end of `Decoder::Process`, `src/decoder.cc` 81-94. -/
def finish (d : Half F) : Exec (Half F) := do
  let d ← tidy d
  .ok { d with frames := d.frames + 1 }

/-- `Decoder::Process`, `src/decoder.cc` 70-95. -/
def process (e : Env F D) (fuel : Nat) (frame : List F) (d : Half F) :
    Exec (Bool × Option (Cutoffs F D) × Half F) := do
  let (b, c, d) ← propagate e fuel frame d
  if b then do
    let d ← finish d
    .ok (true, c, d)
  else .ok (false, c, d)

/-- `Decoder::Initialize`, `src/decoder.cc` 104-121. -/
def initDecoder (e : Env F D) (fuel : Nat) (d : Half F) : Exec (Half F) := do
  cassert (decide (0 ≤ e.g.start))
  let ls ← lmStart e
  let (_, d) ← insertTok e { d with toks := [], prev := [] } (e.g.start, ls) 0 none e.ar.zero
  processNonemitting e e.ar.inf fuel { d with frames := 0 }

/-- `Decoder::EndOfStream`, `src/decoder.h` 83. -/
def endOfStream (d : Half F) : Half F := { d with eos := true }

/-- The loop of `Decoder::BestPath`, `src/decoder.cc` 393-410. -/
def bestLoop (e : Env F D) (eos : Bool) : List (Tok F) → Option (Tok F) → D → Exec (Option (Tok F) × D)
  | [], best, cost => .ok (best, cost)
  | tok :: rest, best, cost => do
    let c ← pathCost e eos tok.view
    if e.ar.isInf c = false ∧ e.ar.dlt c cost = true then bestLoop e eos rest (some tok) c
    else bestLoop e eos rest best cost

/-- `Decoder::BestPath`, `src/decoder.cc` 386-431. -/
def bestPath (e : Env F D) (d : Half F) : Exec (List Int × F) := do
  let (best, cost) ← bestLoop e d.eos d.toks none e.ar.inf
  match best with
  | none => .ok ([], e.ar.zero)
  | some tok => do
    let ws ← Gc.readWords d.words.mem 99999 tok.olabel
    .ok (ws, e.ar.fadd (e.ar.toF cost) (e.g.final tok.state.1))

end Verif.Mdec.Mid
