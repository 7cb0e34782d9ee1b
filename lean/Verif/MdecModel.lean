import Verif.DecoderModel
import Verif.HashTableModel
import Verif.GcModel

/-!
# The decoder with its memory, `src/decoder.h` and `src/decoder.cc`

`Verif.DecoderModel` describes the search with values.  Here the same functions work on what the program keeps:
tokens are pointers into the pool `toks_pool_`, word histories are pointers to nodes of the garbage collected pool
`olabels_pool_`, the index of the active states is the hash table `state_idx_`, and the language model is asked
through its arc cache.  Shared with `Verif.DecoderModel` are the functions that touch no memory (`getCutoff`,
`bestArc`, `emitTotal`, `tighten`, `pathCost`) and the members that never change (`Env`; its `lm` is the FST behind
the cache).
-/

namespace Verif.Mdec

open Verif Verif.Fst Verif.Decoder
open Verif.Pool (Addr)

variable {F D : Type}

/-- `Decoder::Token`, `src/decoder.h` 218-235. -/
structure Tok (F : Type) where
  state : State
  cost : F
  olabel : Option Addr
deriving DecidableEq, Repr

/-- What the functions without memory see of a token: its state and cost.
`state()` and `cost()`, `src/decoder.h` 222-226. -/
def Tok.view (t : Tok F) : Token F := ⟨t.state, t.cost, []⟩

/-- `BLOCK_SIZE` of both pools, `src/pool.h` 16 and 160 (`src/decoder.h` 146 and 155 use the default). -/
abbrev blockSize : Nat := 4096

/-- The changing members of `Decoder`, `src/decoder.h` 137-161, with the buckets of `delta_lm_fst_` (`src/fst.h`
174).  `costs_` is left out: `GetCutoff` clears it first. -/
structure Mem (F : Type) where
  pool : Pool.Pool (Tok F)
  toks : List Addr
  prev : List Addr
  table : HashTable.Table State Int
  words : Gc.GPool
  cache : Cache F
  frames : Int
  eos : Bool

/-- A new `Decoder`, `src/decoder.cc` 49-64: the table has `kBeamSize * 4` slots or more, the cache 1000000 entries
(it is only made with a language model; without one it is never asked).  `num_frames_decoded_` is not initialised
before `Initialize`; 0 stands for it. -/
def new : Exec (Mem F) := do
  let table ← HashTable.new (30000 * 4)
  .ok ⟨Pool.init, [], [], table, Gc.init, newCache 1000000, 0, false⟩

/-- Reading through a `Token *`: undefined when no token lives there.  `src/decoder.h` 146-148. -/
def Mem.tok (d : Mem F) (a : Addr) : Exec (Tok F) :=
  match d.pool.cells a with
  | none => .error .ub
  | some t => .ok t

/-- Reading through a list of `Token *`, in order.  `src/decoder.h` 147-148. -/
def Mem.readAll (d : Mem F) : List Addr → Exec (List (Tok F))
  | [] => .ok []
  | a :: as => do
    let t ← d.tok a
    let ts ← d.readAll as
    .ok (t :: ts)

/-- `Decoder::PropogateLm`, `src/decoder.cc` 123-141, through `CachedFst::GetArc`: new LM state, weight and cache. -/
def propagateLm (ar : Arith F D) (lm : IFst F) (c : Cache F) (s label : Int) : Exec (Int × F × Cache F) :=
  if label ≠ 0 then do
    let (r, c) ← cachedGetArc lm c s label
    match r with
    | some a => .ok (a.next, a.weight, c)
    | none => .ok (s, ar.zero, c)
  else .ok (s, ar.zero, c)

/-- The online composition, `src/decoder.cc` 271-277 and 360-365: new LM state, total cost and cache. -/
def addLm (e : Env F D) (c : Cache F) (s label : Int) (total : D) : Exec (Int × D × Cache F) :=
  match e.lm with
  | none => .ok (s, total, c)
  | some lm => do
    let (s', w, c) ← propagateLm e.ar lm c s label
    .ok (s', e.ar.dadd total (e.ar.toD w), c)

/-- `Decoder::InsertTok`, `src/decoder.cc` 143-179.  The history is extended (and a node possibly allocated) before
it is known whether the token is wanted. -/
def insertTok (e : Env F D) (d : Mem F) (st : State) (label : Int) (prev : Option Addr) (cost : F) :
    Exec (Bool × Mem F) := do
  let i ← HashTable.find HashTable.hashState d.table st (-1)
  let (words, h) ← Gc.extend blockSize d.words prev label
  if i = -1 then do
    let (pool, a) ← Pool.alloc blockSize d.pool ⟨st, cost, h⟩
    let table ← HashTable.insert HashTable.hashState d.table st d.toks.length
    .ok (true, { d with words := words, pool := pool, toks := d.toks ++ [a], table := table })
  else do
    let a ← aget d.toks i
    let old ← d.tok a
    if e.ar.flt cost old.cost then do
      let (pool, a) ← Pool.alloc blockSize d.pool ⟨st, cost, h⟩
      let toks ← aset d.toks i a
      .ok (true, { d with words := words, pool := pool, toks := toks })
    else .ok (false, { d with words := words })

/-- One arc in `Decoder::ProcessNonemitting`, `src/decoder.cc` 262-289.  The stack holds the queue with its back at
the head of the list. -/
def nonemitArc (e : Env F D) (i : Int) (cutoff : D) (acc : Mem F × List State) (arc : GArc F) :
    Exec (Mem F × List State) :=
  let (d, stack) := acc
  if arc.ilabel ≠ 0 then .ok (d, stack) else do
    let a ← aget d.toks i
    let tok ← d.tok a
    let total := e.ar.toD (e.ar.fadd (e.ar.fadd tok.cost arc.weight) e.ar.zero)
    let (lm', total, cache) ← addLm e d.cache tok.state.2 arc.olabel total
    let d := { d with cache := cache }
    if e.ar.dlt cutoff total then .ok (d, stack) else
    let (ins, d) ← insertTok e d (arc.next, lm') arc.olabel tok.olabel (e.ar.toF total)
    .ok (d, if ins then (arc.next, lm') :: stack else stack)

/-- The `while` loop of `Decoder::ProcessNonemitting`, `src/decoder.cc` 250-291, bounded by `fuel` iterations. -/
def nonemitLoop (e : Env F D) (cutoff : D) : Nat → Mem F → List State → Exec (Mem F)
  | _, d, [] => .ok d
  | 0, _, _ :: _ => .error .fuel
  | fuel + 1, d, st :: stack => do
    let i ← HashTable.find HashTable.hashState d.table st (-1)
    cassert (decide (i ≠ -1))
    let (d, stack) ← (e.g.arcs st.1).foldlM (nonemitArc e i cutoff) (d, stack)
    nonemitLoop e cutoff fuel d stack

/-- `Decoder::ProcessNonemitting`, `src/decoder.cc` 240-292. -/
def processNonemitting (e : Env F D) (cutoff : D) (fuel : Nat) (d : Mem F) : Exec (Mem F) := do
  let ts ← d.readAll d.toks
  cassert (ts.all (fun t => decide (0 ≤ t.state.1)))
  nonemitLoop e cutoff fuel d (ts.map (·.state)).reverse

/-- One arc of the token `a`, whose state was read before the loop, `src/decoder.cc` 347-373. -/
def emitArc (e : Env F D) (frame : List F) (ab : F) (st : State) (a : Addr) (acc : D × Mem F) (arc : GArc F) :
    Exec (D × Mem F) :=
  let (nwc, d) := acc
  if arc.ilabel = 0 then .ok (nwc, d) else do
    let tok ← d.tok a
    let total ← emitTotal e frame tok.cost arc
    if e.ar.dlt nwc total then .ok (nwc, d) else
    let (lm', total', cache) ← addLm e d.cache st.2 arc.olabel total
    cassert (decide (0 ≤ arc.next ∧ 0 ≤ lm'))
    let (_, d) ← insertTok e { d with cache := cache } (arc.next, lm') arc.olabel tok.olabel (e.ar.toF total')
    .ok (tighten e.ar ab nwc total, d)

/-- One token of the loop `src/decoder.cc` 337-377; a token is trivially destructible. -/
def emitTok (e : Env F D) (frame : List F) (wc ab : F) (acc : D × Mem F) (a : Addr) : Exec (D × Mem F) := do
  let tok ← acc.2.tok a
  if e.ar.flt wc tok.cost then .ok acc else do
  let (nwc, d) ← (e.g.arcs tok.state.1).foldlM (emitArc e frame ab tok.state a) acc
  let pool ← Pool.dealloc true d.pool a
  .ok (nwc, { d with pool := pool })

/-- `Decoder::ProcessEmitting`, `src/decoder.cc` 295-383.  The first component is `none` for the early
`return INFINITY` (310) and the cutoffs otherwise, of which `next` (rounded to `float`) is the return value. -/
def processEmitting (e : Env F D) (frame : List F) (d : Mem F) : Exec (Option (Cutoffs F D) × Mem F) := do
  let d : Mem F := { d with table := HashTable.clear d.table, toks := d.prev, prev := d.toks }
  let ts ← d.readAll d.prev
  let (cut, ab, bestTok) ← getCutoff e.ar (ts.map Tok.view)
  let wc := e.ar.toF cut
  if e.ar.finite (e.ar.toD wc) = false then .ok (none, d) else
  let nwc ← (e.g.arcs bestTok.state.1).foldlM (bestArc e frame ab bestTok.cost) e.ar.inf
  let (nwc, d') ← d.prev.foldlM (emitTok e frame wc ab) (nwc, d)
  .ok (some ⟨wc, nwc⟩, { d' with prev := [] })

/-- `Decoder::Process` up to the collection of word histories, `src/decoder.cc` 70-79: the return value, the cutoffs
of the frame if any, and the new state. -/
def propagate (e : Env F D) (fuel : Nat) (frame : List F) (d : Mem F) :
    Exec (Bool × Option (Cutoffs F D) × Mem F) := do
  let (c, d) ← processEmitting e frame d
  match c with
  | none => .ok (false, none, d)
  | some c =>
    let cutoff := e.ar.toD (e.ar.toF c.next)
    if e.ar.finite cutoff = false then .ok (false, some c, d) else do
    let d ← processNonemitting e cutoff fuel d
    if d.toks = [] then .ok (false, some c, d) else .ok (true, some c, d)

/-- The collection of word histories, `src/decoder.cc` 81-91: every 20 frames, with the histories of the active
tokens as roots. -/
def tidy (d : Mem F) : Exec (Mem F) :=
  if d.frames.tmod 20 = 0 then do
    let ts ← d.readAll d.toks
    let words ← Gc.gc blockSize d.words (ts.filterMap (·.olabel))
    .ok { d with words := words }
  else .ok d

/-- The end of `Decoder::Process`, `src/decoder.cc` 81-94. -/
def finish (d : Mem F) : Exec (Mem F) := do
  let d ← tidy d
  let n ← i32 (d.frames + 1)
  .ok { d with frames := n }

/-- `Decoder::Process`, `src/decoder.cc` 70-95. -/
def process (e : Env F D) (fuel : Nat) (frame : List F) (d : Mem F) :
    Exec (Bool × Option (Cutoffs F D) × Mem F) := do
  let (b, c, d) ← propagate e fuel frame d
  if b then do
    let d ← finish d
    .ok (true, c, d)
  else .ok (false, c, d)

/-- `Decoder::Initialize`, `src/decoder.cc` 104-121. -/
def initDecoder (e : Env F D) (fuel : Nat) (d : Mem F) : Exec (Mem F) := do
  cassert (decide (0 ≤ e.g.start))
  let ls ← lmStart e
  let (_, d) ← insertTok e { d with toks := [], prev := [] } (e.g.start, ls) 0 none e.ar.zero
  processNonemitting e e.ar.inf fuel { d with frames := 0 }

/-- `Decoder::EndOfStream`, `src/decoder.h` 83. -/
def endOfStream (d : Mem F) : Mem F := { d with eos := true }

/-- The loop of `Decoder::BestPath`, `src/decoder.cc` 393-410. -/
def bestLoop (e : Env F D) (d : Mem F) : List Addr → Option Addr → D → Exec (Option Addr × D)
  | [], best, cost => .ok (best, cost)
  | a :: rest, best, cost => do
    let tok ← d.tok a
    let c ← pathCost e d.eos tok.view
    if e.ar.isInf c = false ∧ e.ar.dlt c cost = true then bestLoop e d rest (some a) c
    else bestLoop e d rest best cost

/-- `Decoder::BestPath`, `src/decoder.cc` 386-431: words (latest first, as the code returns them) and weight. -/
def bestPath (e : Env F D) (d : Mem F) : Exec (List Int × F) := do
  let (best, cost) ← bestLoop e d d.toks none e.ar.inf
  match best with
  | none => .ok ([], e.ar.zero)
  | some a => do
    let tok ← d.tok a
    let ws ← Gc.readWords d.words.mem 99999 tok.olabel
    .ok (ws, e.ar.fadd (e.ar.toF cost) (e.g.final tok.state.1))

end Verif.Mdec
