import Verif.PoolModel

/-!
# Model of `GCPool` (`src/pool.h` 118-249) holding word histories (`Decoder::OLabel`)
-/

namespace Verif.Gc

open Verif.Pool (Addr Arena)

/-- `Collectable`'s enum, `src/pool.h` 121-126. -/
inductive Mark where
  | marked
  | unmarked
  | freed
  | using
deriving DecidableEq, Repr

/-- `Decoder::OLabel` with its base `Collectable`, `src/decoder.h` 237-268 and `src/pool.h` 119-151.
Simplification: the `unordered_map` `nexts_` is a list of pairs with at most one pair per key. -/
structure Node where
  state : Mark
  previous : Option Addr
  olabel : Int
  nexts : List (Int × Addr)
deriving DecidableEq, Repr

/-- Memory of the pool: `none` where no object was ever constructed.  Simplification: after a node is
returned to the pool (`Dealloc` runs its destructor) the collector still reads its `state_`
(`src/pool.h` 192, 202, 205, 223, 224 and `src/decoder.cc` 36); the model lets such a read yield the
last value written, while reading any other member of a freed node is undefined. -/
abbrev Mem := Addr → Option Node

/-- Store a node.
An assignment to a member of `OLabel` or `Collectable`, `src/pool.h` 130-141 and `src/decoder.cc` 31-43. -/
def Mem.set (m : Mem) (a : Addr) (n : Node) : Mem := fun b => if b = a then some n else m b

/-- The `GCPool<OLabel>` of a decoder, `src/pool.h` 160-249. -/
structure GPool where
  arena : Arena
  mem : Mem

/-- `GCPool()`, `src/pool.h` 163-164 and 19-22. -/
def init : GPool := { arena := Arena.init, mem := fun _ => none }

/-- Read the `state_` of the object in a slot (`is_marked`, `is_freed`, `src/pool.h` 143-144). -/
def rawNode (m : Mem) (a : Addr) : Exec Node :=
  match m a with
  | none => .error .ub
  | some n => .ok n

/-- Use the object in a slot (`previous()`, `olabel()`, `next()`, `src/decoder.h` 245-259): undefined
when there is none or when it was given back to the pool. -/
def liveNode (m : Mem) (a : Addr) : Exec Node :=
  match m a with
  | none => .error .ub
  | some n => if n.state = .freed then .error .ub else .ok n

/-- `GCPool::Alloc`, `src/pool.h` 166-171, with the constructor `OLabel(previous, olabel)`,
`src/decoder.cc` 26-29. -/
def alloc (B : Nat) (g : GPool) (prev : Option Addr) (label : Int) : Exec (GPool × Addr) := do
  let (ar, a) ← g.arena.take B
  .ok ({ arena := ar, mem := g.mem.set a ⟨.using, prev, label, []⟩ }, a)

/-- `nexts_[label] = a`, `src/decoder.h` 261. -/
def Node.addNext (n : Node) (label : Int) (a : Addr) : Node :=
  { n with nexts := (label, a) :: n.nexts.filter (fun e => e.1 ≠ label) }

/-- `set_next`, `src/decoder.h` 260-262. -/
def setNext (m : Mem) (p : Addr) (label : Int) (a : Addr) : Exec Mem := do
  let n ← liveNode m p
  .ok (m.set p (n.addNext label a))

/-- The creation of the word history of a new token in `InsertTok`, `src/decoder.cc` 151-163: append
`label` to the history `prev`. -/
def extend (B : Nat) (g : GPool) (prev : Option Addr) (label : Int) :
    Exec (GPool × Option Addr) :=
  if label = 0 then .ok (g, prev)
  else match prev with
    | none => do
      let (g', a) ← alloc B g none label
      .ok (g', some a)
    | some p => do
      let n ← liveNode g.mem p
      match n.nexts.lookup label with
      | some b => .ok (g, some b)
      | none => do
        let (g', a) ← alloc B g (some p) label
        let m ← setNext g'.mem p label a
        .ok ({ g' with mem := m }, some a)

/-- The slots visited by the unmark and sweep loops of `GC`, `src/pool.h` 185-194 and 218-222, in
order: all positions of the blocks before the current one, and the positions below `current_pos_ - 1`
of the current one (so the slot handed out last by bumping is not visited). -/
def sweepSlots (B : Nat) (ar : Arena) : List Addr :=
  (List.range (ar.curBlock + 1)).flatMap fun b =>
    (List.range (if b = ar.curBlock then ar.curPos - 1 else B)).map fun i => (b, i)

/-- The unmark loop of `GC`, `src/pool.h` 185-194. -/
def unmarkAll : List Addr → Mem → Exec Mem
  | [], m => .ok m
  | a :: as, m => do
    let n ← rawNode m a
    unmarkAll as (if n.state = .freed then m else m.set a { n with state := .unmarked })

/-- The marking loop of `GC`, `src/pool.h` 198-213; the head of the list is `queue.back()`.  The
first argument bounds the iterations (the C++ loop has no bound). -/
def markLoop : Nat → Mem → List Addr → Exec Mem
  | 0, _, _ => .error .fuel
  | _ + 1, m, [] => .ok m
  | fuel + 1, m, a :: q => do
    let n ← rawNode m a
    if n.state = .marked then markLoop fuel m q
    else do
      cassert (n.state ≠ .freed)
      markLoop fuel (m.set a { n with state := .marked }) (n.previous.toList ++ q)

/-- The part of `OnCollect` that touches the previous node, `src/decoder.cc` 35-40. -/
def eraseFromPrevious (m : Mem) (prev : Option Addr) (label : Int) : Exec Mem :=
  match prev with
  | none => .ok m
  | some p => do
    let k ← rawNode m p
    .ok (if k.state = .freed then m
      else m.set p { k with nexts := k.nexts.filter (fun e => e.1 ≠ label) })

/-- `node->OnCollect(); node->Free();`, `src/pool.h` 228-233, with `OLabel::OnCollect`,
`src/decoder.cc` 31-43. -/
def collect (m : Mem) (a : Addr) (n : Node) : Exec Mem := do
  let m1 := m.set a { n with nexts := [] }
  let m2 ← eraseFromPrevious m1 n.previous n.olabel
  .ok (m2.set a ⟨.freed, none, -1, []⟩)

/-- The sweep loop of `GC`, `src/pool.h` 215-238; returns the memory and `nodes_to_free`. -/
def sweep : List Addr → Mem → Exec (Mem × List Addr)
  | [], m => .ok (m, [])
  | a :: as, m => do
    let n ← rawNode m a
    if n.state = .freed ∨ n.state = .marked then sweep as m
    else do
      let m' ← collect m a n
      let (m'', fs) ← sweep as m'
      .ok (m'', a :: fs)

/-- The final loop of `GC`, `src/pool.h` 240-242, with `GCPool::Dealloc` 173-176 and `Pool::Dealloc`
60-65: every node of `nodes_to_free` goes on the free list (its state is already `kFreed`). -/
def deallocAll : List Addr → Arena → Arena
  | [], ar => ar
  | a :: as, ar => deallocAll as { ar with free := a :: ar.free }

/-- All slots of all blocks.  `blocks_`, `src/pool.h` 112; used only to bound the marking loop. -/
def allSlots (B : Nat) (ar : Arena) : List Addr :=
  (List.range ar.nBlocks).flatMap fun b => (List.range B).map fun i => (b, i)

/-- `GC`, `src/pool.h` 179-248.  The fuel of the marking loop is more than the number of iterations of
any terminating run: each iteration removes a queue entry, and adds one only when it marks a node. -/
def gc (B : Nat) (g : GPool) (roots : List Addr) : Exec GPool := do
  let slots := sweepSlots B g.arena
  let m1 ← unmarkAll slots g.mem
  let m2 ← markLoop (roots.length + (allSlots B g.arena).length + 1) m1 roots.reverse
  let (m3, fs) ← sweep slots m2
  .ok { arena := deallocAll fs g.arena, mem := m3 }

/-- The word loop of `BestPath`, `src/decoder.cc` 418-425; the second argument is the number of words
still allowed by `assert(words.size() < 100000)` (99999 at the start). -/
def readWords (m : Mem) : Nat → Option Addr → Exec (List Int)
  | _, none => .ok []
  | 0, some a => do
    let _ ← liveNode m a
    .error .assert
  | k + 1, some a => do
    let n ← liveNode m a
    let ws ← readWords m k n.previous
    .ok (n.olabel :: ws)

/-- A client of the pool holds handles (histories of its tokens).  `start`: a token without words.
`extend i l`: a token following held handle number `i` through an arc with output label `l`.
`gc keep`: drop all handles but those numbered `keep` and run the collector with them as roots
(`Process`, `src/decoder.cc` 82-91, which keeps the handles of `toks_`). -/
inductive Op where
  | start
  | extend (i : Nat) (l : Int)
  | gc (keep : List Nat)
deriving Repr

/-- The held handles with the given numbers; asking for a handle not held is a client error.
`src/decoder.cc` 82-91. -/
def pick {α : Type} (hs : List α) : List Nat → Exec (List α)
  | [] => .ok []
  | i :: is => do
    let h ← aget hs i
    let t ← pick hs is
    .ok (h :: t)

/-- One client action.  A client of `src/pool.h` 160-250 that calls it as `src/decoder.cc` 82-91 and 151-163 do. -/
def step (B : Nat) (g : GPool) (hs : List (Option Addr)) : Op → Exec (GPool × List (Option Addr))
  | .start => .ok (g, hs ++ [none])
  | .extend i l => do
    let h ← aget hs i
    let (g', h') ← extend B g h l
    .ok (g', hs ++ [h'])
  | .gc keep => do
    let hs' ← pick hs keep
    let g' ← gc B g (hs'.filterMap id)
    .ok (g', hs')

/-- A history of client actions.  A client of `src/pool.h` 160-250. -/
def run (B : Nat) : GPool → List (Option Addr) → List Op → Exec (GPool × List (Option Addr))
  | g, hs, [] => .ok (g, hs)
  | g, hs, op :: ops => do
    let (g', hs') ← step B g hs op
    run B g' hs' ops

end Verif.Gc
