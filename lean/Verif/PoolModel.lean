import Verif.Basic

/-!
# Model of `Pool<T, BLOCK_SIZE>` (`src/pool.h` 15-116)
-/

namespace Verif.Pool

/-- Address of a slot: block number and position inside the block.  Simplification: a pointer
`blocks_[block] + pos` is the pair; blocks never overlap and never move (`blocks_` stores the block
pointers, the blocks themselves stay where `operator new` put them).  `src/pool.h` 112. -/
abbrev Addr := Nat × Nat

/-- The bookkeeping members of `Pool`, `src/pool.h` 111-115: `blocks_.size()`, `free_` (the head of
the list is `free_.back()`), `current_block_`, `current_pos_`.  Simplification: the `int` members are
natural numbers (they start at 0 and are only incremented or reset); their overflow beyond 2^31 slots
is not modelled. -/
structure Arena where
  nBlocks : Nat
  free : List Addr
  curBlock : Nat
  curPos : Nat
deriving DecidableEq, Repr

/-- Constructor `Pool()`, `src/pool.h` 19-22: one block. -/
def Arena.init : Arena := { nBlocks := 1, free := [], curBlock := 0, curPos := 0 }

/-- The block switch of `Alloc`, `src/pool.h` 39-46. -/
def nextBlock (B : Nat) (a : Arena) : Arena :=
  if a.curPos = B then
    { a with
      nBlocks := if a.curBlock = a.nBlocks - 1 then a.nBlocks + 1 else a.nBlocks
      curBlock := a.curBlock + 1
      curPos := 0 }
  else a

/-- The choice of memory in `Alloc`, `src/pool.h` 36-53; `B` is `BLOCK_SIZE`.  Indexing `blocks_` out
of range is undefined. -/
def Arena.take (B : Nat) (a : Arena) : Exec (Arena × Addr) :=
  match a.free with
  | [] => do
    cassert (a.curPos ≤ B)
    let a := nextBlock B a
    if a.curBlock < a.nBlocks then
      .ok ({ a with curPos := a.curPos + 1 }, (a.curBlock, a.curPos))
    else .error .ub
  | m :: rest => .ok ({ a with free := rest }, m)

/-- `free_nodes()`, `src/pool.h` 102-106. -/
def Arena.freeNodes (B : Nat) (a : Arena) : Int :=
  a.free.length + ((a.nBlocks : Int) - a.curBlock) * B - a.curPos

/-- `allocated_nodes()`, `src/pool.h` 107-109. -/
def Arena.allocatedNodes (B : Nat) (a : Arena) : Int :=
  a.curBlock * B + a.curPos - a.free.length

/-- A pool together with the objects living in its slots (`none`: raw memory or a destroyed object).
`src/pool.h` 112-115. -/
structure Pool (T : Type) where
  arena : Arena
  cells : Addr → Option T

variable {T : Type}

/-- `Pool()`, `src/pool.h` 19-22. -/
def init : Pool T := { arena := Arena.init, cells := fun _ => none }

/-- `Alloc`, `src/pool.h` 35-57: take a slot and construct the object in it. -/
def alloc (B : Nat) (p : Pool T) (x : T) : Exec (Pool T × Addr) := do
  let (ar, m) ← p.arena.take B
  .ok ({ arena := ar, cells := fun a => if a = m then some x else p.cells a }, m)

/-- The destructor call `pointer->~T()`: undefined when no object lives there.  `src/pool.h` 62, 82, 91. -/
def destroy (cells : Addr → Option T) (m : Addr) : Exec (Addr → Option T) :=
  match cells m with
  | none => .error .ub
  | some _ => .ok (fun a => if a = m then none else cells a)

/-- `Dealloc`, `src/pool.h` 60-65.  `trivial` is `is_trivially_destructible<T>`: then no destructor
runs and the object merely ceases to be used. -/
def dealloc (trivial : Bool) (p : Pool T) (m : Addr) : Exec (Pool T) := do
  let cells ← if trivial then .ok (fun a => if a = m then none else p.cells a)
    else destroy p.cells m
  .ok { arena := { p.arena with free := m :: p.arena.free }, cells := cells }

/-- The slots visited by the destructor loops of `Clear`, `src/pool.h` 77-94, in order: all positions
of all blocks but the last one of `blocks_`, then the first `current_pos_` positions of the last
block; slots on the free list are skipped.  (Note that `current_block_` plays no role.) -/
def clearTargets (B : Nat) (a : Arena) : List Addr :=
  (((List.range (a.nBlocks - 1)).flatMap fun b => (List.range B).map fun i => (b, i)) ++
    (List.range a.curPos).map fun i => (a.nBlocks - 1, i)).filter fun m => !a.free.contains m

/-- Destructor calls on a list of slots, in order.  `src/pool.h` 82, 91. -/
def destroyAll (cells : Addr → Option T) : List Addr → Exec (Addr → Option T)
  | [] => .ok cells
  | m :: ms => do
    let cells' ← destroy cells m
    destroyAll cells' ms

/-- `Clear`, `src/pool.h` 68-99; also the body of the destructor `~Pool`, lines 24-31.  Returns the
slots whose destructor ran.  Simplification: in the trivial case the objects cease to exist without
any code running. -/
def clear (B : Nat) (trivial : Bool) (p : Pool T) : Exec (Pool T × List Addr) := do
  let ar : Arena := { p.arena with free := [], curBlock := 0, curPos := 0 }
  if trivial then .ok ({ arena := ar, cells := fun _ => none }, [])
  else do
    let cells ← destroyAll p.cells (clearTargets B p.arena)
    .ok ({ arena := ar, cells := cells }, clearTargets B p.arena)

/-- A call made by a client of the pool.  Public functions of `src/pool.h` 18-109. -/
inductive Op (T : Type) where
  | alloc (x : T)
  | dealloc (a : Addr)
  | clear
deriving Repr

/-- What the client observes of a call.  Public functions of `src/pool.h` 18-109. -/
inductive Event (T : Type) where
  | alloc (x : T) (a : Addr)
  | dealloc (a : Addr)
  | clear
deriving Repr, DecidableEq

/-- One client call.  Public functions of `src/pool.h` 18-109. -/
def step (B : Nat) (trivial : Bool) (p : Pool T) : Op T → Exec (Pool T × Event T)
  | .alloc x => do
    let (p', a) ← alloc B p x
    .ok (p', .alloc x a)
  | .dealloc a => do
    let p' ← dealloc trivial p a
    .ok (p', .dealloc a)
  | .clear => do
    let (p', _) ← clear B trivial p
    .ok (p', .clear)

/-- A history of client calls, with what the client observed (oldest first).
Public functions of `src/pool.h` 18-109. -/
def run (B : Nat) (trivial : Bool) : Pool T → List (Op T) → Exec (Pool T × List (Event T))
  | p, [] => .ok (p, [])
  | p, op :: ops => do
    let (p', e) ← step B trivial p op
    let (p'', es) ← run B trivial p' ops
    .ok (p'', e :: es)

end Verif.Pool
