import Verif.PoolLemmas
import Mathlib.Data.List.Perm.Lattice

/-!
# Properties C04, C05, C06: the object pool
-/

namespace Verif.Pool

variable {T : Type}

/-- **C04.**  In every history of `Alloc`/`Dealloc`/`Clear` calls in which the client only deallocates
slots it holds: `Alloc` never returns a slot the client still holds and stays inside a block that
exists, slots held are pairwise distinct, and every object the client holds still has the contents it
was constructed with. -/
theorem C04_pool_never_aliases {B : Nat} (hB : 0 < B) {trivial : Bool} {ops : List (Op T)}
    {p : Pool T} {evs : List (Event T)} (h : run B trivial init ops = .ok (p, evs))
    (hc : ClientOk [] evs) :
    (∀ pre x a post, evs = pre ++ .alloc x a :: post → a ∉ liveAfter pre.reverse) ∧
    (liveAfter evs.reverse).Nodup ∧
    (∀ a ∈ liveAfter evs.reverse, a.1 < p.arena.nBlocks ∧ a.2 < B) ∧
    (∀ a ∈ liveAfter evs.reverse, ∃ x, valueAt a evs.reverse = some x ∧ p.cells a = some x) := by
  have i := run_inv hB ops [] init p evs init_inv h hc
  rw [List.append_nil] at i
  refine ⟨?_, i.arena.nodupLive, ?_, ?_⟩
  · intro pre x a post e
    subst e
    obtain ⟨ops1, op, ops2, p1, p2, e1, e2, e3⟩ := run_split ops init p pre _ post h
    have i1 := run_inv hB ops1 [] init p1 pre init_inv e2 (clientOk_append _ _ _ hc)
    rw [List.append_nil] at i1
    have i2 := step_inv' hB i1 e3 (fun b hb => by cases hb)
    exact (List.nodup_cons.mp i2.arena.nodupLive).1
  · intro a ha
    have := (i.arena.cover a).mp (Or.inl ha)
    have h1 := i.arena.block
    have h2 := i.arena.pos
    unfold Used at this
    omega
  · intro a ha
    obtain ⟨x, hx⟩ := (i.alive a).mp ha
    exact ⟨x, hx, by rw [i.cells a, hx]⟩

/-- **C04**, progress part: after any such history `Alloc` succeeds, and so does `Dealloc` of any held
slot. -/
theorem C04_pool_calls_succeed {B : Nat} (hB : 0 < B) {trivial : Bool} {ops : List (Op T)}
    {p : Pool T} {evs : List (Event T)} (h : run B trivial init ops = .ok (p, evs))
    (hc : ClientOk [] evs) :
    (∀ x, ∃ p' a, alloc B p x = .ok (p', a)) ∧
    (∀ a ∈ liveAfter evs.reverse, ∃ p', dealloc trivial p a = .ok p') := by
  have i := run_inv hB ops [] init p evs init_inv h hc
  rw [List.append_nil] at i
  constructor
  · intro x
    obtain ⟨ar, m, e, _⟩ := take_spec hB i.arena
    exact ⟨_, m, by unfold alloc; rw [e]; rfl⟩
  · intro a ha
    obtain ⟨x, hx⟩ := (i.alive a).mp ha
    rw [← i.cells a] at hx
    cases trivial with
    | true => exact ⟨_, rfl⟩
    | false =>
      have hd : destroy p.cells a = .ok (fun b => if b = a then none else p.cells b) := by
        unfold destroy; rw [hx]
      exact ⟨_, by change (destroy p.cells a >>= _) = _; rw [hd]; rfl⟩

/-- **C05.**  After every such history `allocated_nodes()` is the number of objects the client holds,
and `allocated_nodes() + free_nodes()` is the number of slots of all blocks. -/
theorem C05_pool_accounting {B : Nat} (hB : 0 < B) {trivial : Bool} {ops : List (Op T)}
    {p : Pool T} {evs : List (Event T)} (h : run B trivial init ops = .ok (p, evs))
    (hc : ClientOk [] evs) :
    p.arena.allocatedNodes B = (liveAfter evs.reverse).length ∧
    p.arena.allocatedNodes B + p.arena.freeNodes B = p.arena.nBlocks * B ∧
    0 ≤ p.arena.freeNodes B := by
  have i := run_inv hB ops [] init p evs init_inv h hc
  rw [List.append_nil] at i
  have hcount := i.arena.count
  have hb := i.arena.block
  have hp := i.arena.pos
  unfold Arena.allocatedNodes Arena.freeNodes
  have hz : ((liveAfter evs.reverse).length : Int) + p.arena.free.length =
      p.arena.curBlock * B + p.arena.curPos := by exact_mod_cast hcount
  refine ⟨by omega, by ring, ?_⟩
  have : ((p.arena.nBlocks : Int) - p.arena.curBlock) * B ≥ 1 * B := by
    apply Int.mul_le_mul_of_nonneg_right <;> omega
  omega

/-- **C05**, memory part: a pool that was never cleared owns as many blocks as are needed for the
largest number of objects held at one time, never more (`Alloc` prefers recycled slots). -/
theorem C05_pool_grows_only_when_full {B : Nat} (hB : 0 < B) {trivial : Bool} {ops : List (Op T)}
    {p p' : Pool T} {evs : List (Event T)} {x : T} {a : Addr}
    (h : run B trivial init ops = .ok (p, evs)) (hc : ClientOk [] evs)
    (ha : alloc B p x = .ok (p', a)) (hg : p'.arena.nBlocks ≠ p.arena.nBlocks) :
    (liveAfter evs.reverse).length = p.arena.nBlocks * B := by
  have i := run_inv hB ops [] init p evs init_inv h hc
  rw [List.append_nil] at i
  have hcount := i.arena.count
  have hb := i.arena.block
  unfold alloc at ha
  obtain ⟨⟨ar, m⟩, h1, h2⟩ := bind_ok ha
  cases h2
  unfold Arena.take at h1
  cases hf : p.arena.free with
  | cons m' r => rw [hf] at h1; cases h1; exact absurd rfl hg
  | nil =>
    rw [hf] at h1
    simp only at h1
    obtain ⟨_, _, h1⟩ := bind_ok h1
    split at h1
    · cases h1
      simp only [nextBlock] at hg
      split at hg
      · rename_i hcp
        simp only at hg
        split at hg
        · rename_i hl
          rw [hf, hcp] at hcount
          simp only [List.length_nil, Nat.add_zero] at hcount
          rw [hcount, show p.arena.nBlocks = p.arena.curBlock + 1 by omega]; ring
        · exact absurd rfl hg
      · exact absurd rfl hg
    · cases h1

/-- **C06**, the part that holds: for a pool that was never cleared before, or that owns a single
block, `Clear` (and with it the destructor) of a pool of objects with a destructor succeeds and runs
the destructor of exactly the held objects, each once.  Missing: pools with two or more blocks that were
cleared before, where the claim is false (`C06_second_clear_is_undefined`). -/
theorem C06_clear_destroys_each_object_once_partial {B : Nat} (hB : 0 < B) {ops : List (Op T)}
    {p : Pool T} {evs : List (Event T)} (h : run B false init ops = .ok (p, evs))
    (hc : ClientOk [] evs) (hcl : NoClear ops ∨ p.arena.nBlocks = 1) :
    ∃ p' ds, clear B false p = .ok (p', ds) ∧ ds.Perm (liveAfter evs.reverse) ∧
      (∀ a, p'.cells a = none) ∧ p'.arena.allocatedNodes B = 0 := by
  have i := run_inv hB ops [] init p evs init_inv h hc
  rw [List.append_nil] at i
  have ht : p.arena.curBlock = p.arena.nBlocks - 1 := by
    rcases hcl with hn | h1
    · exact run_tight hB ops [] init p evs init_inv h hc hn rfl
    · have := i.arena.block; omega
  obtain ⟨hm, p', hp, hn⟩ := (clear_spec hB i).1 ht
  refine ⟨p', _, hp, ?_, hn, ?_⟩
  · exact (List.perm_ext_iff_of_nodup nodup_clearTargets i.arena.nodupLive).mpr hm
  · change (destroyAll p.cells (clearTargets B p.arena) >>= _) = _ at hp
    obtain ⟨c, _, hp⟩ := bind_ok hp
    cases hp
    simp [Arena.allocatedNodes]

/-- **C06 fails**: whenever a pool of objects with a destructor has grown to two blocks, the first
`Clear` makes every later `Clear` (hence also the destructor of the pool) undefined: it runs
destructors on slots that hold no object.  This holds for every block size and every such history. -/
theorem C06_second_clear_is_undefined {B : Nat} (hB : 0 < B) {ops : List (Op T)}
    {p p' : Pool T} {evs : List (Event T)} {ds : List Addr}
    (h : run B false init ops = .ok (p, evs)) (hc : ClientOk [] evs)
    (h2 : 2 ≤ p.arena.nBlocks) (hclear : clear B false p = .ok (p', ds)) :
    clear B false p' = .error .ub := by
  have i := run_inv hB ops [] init p evs init_inv h hc
  rw [List.append_nil] at i
  have i' : Inv B (.clear :: evs.reverse) p' :=
    step_inv' (op := .clear) hB i (by
      change (clear B false p >>= fun r => .ok (r.1, Event.clear)) = _
      rw [hclear]; rfl) (fun b hb => by cases hb)
  refine (clear_spec hB i').2 ?_
  change (destroyAll p.cells (clearTargets B p.arena) >>= _) = _ at hclear
  obtain ⟨c, _, hp⟩ := bind_ok hclear
  cases hp
  simp only
  omega

/-- **C06**, exact boundary: after any history, `Clear` of a pool of objects with a destructor is
defined exactly when the pool is working in its last block. -/
theorem C06_clear_defined_iff {B : Nat} (hB : 0 < B) {ops : List (Op T)}
    {p : Pool T} {evs : List (Event T)} (h : run B false init ops = .ok (p, evs))
    (hc : ClientOk [] evs) :
    (∃ r, clear B false p = .ok r) ↔ p.arena.curBlock + 1 = p.arena.nBlocks := by
  have i := run_inv hB ops [] init p evs init_inv h hc
  rw [List.append_nil] at i
  have := i.arena.block
  constructor
  · rintro ⟨r, hr⟩
    by_contra hne
    rw [(clear_spec hB i).2 (by omega)] at hr
    cases hr
  · intro e
    obtain ⟨_, p', hp, _⟩ := (clear_spec hB i).1 (by omega)
    exact ⟨_, hp⟩

/-! ## The hypotheses are satisfiable -/

/-- A history with growth, recycling and a `Clear`, block size 2. -/
def demoOps : List (Op Nat) :=
  [.alloc 10, .alloc 11, .alloc 12, .dealloc (0, 1), .alloc 13]

/-- What the client sees of `demoOps`. -/
def demoEvents : List (Event Nat) :=
  [.alloc 10 (0, 0), .alloc 11 (0, 1), .alloc 12 (1, 0), .dealloc (0, 1), .alloc 13 (0, 1)]

example : (run 2 false init demoOps).map (·.2) = .ok demoEvents := by decide +kernel
example : ClientOk [] demoEvents := by simp [ClientOk, demoEvents, liveAfter]
example : liveAfter demoEvents.reverse = [(0, 1), (1, 0), (0, 0)] := by decide
example : NoClear demoOps := by simp [NoClear, demoOps]
/-- After these calls the pool has two blocks, `Clear` works, and another `Clear` is undefined. -/
example : (run 2 false init demoOps).map (fun r => (r.1.arena.nBlocks,
    ((clear 2 false r.1).map (·.2)).toOption)) = .ok (2, some [(0, 0), (0, 1), (1, 0)]) := by
  decide +kernel
example : ((run 2 false init demoOps) >>= fun r => clear 2 false r.1 >>= fun q =>
    (clear 2 false q.1).map (·.2)) = .error .ub := by decide +kernel
/-- A history with a `Clear` in it that is defined (one block), so the first two theorems cover
`Clear` too. -/
example : (run 2 false init ([.alloc 1, .alloc 2, .clear, .alloc 3] : List (Op Nat))).map
    (fun r => (r.2, r.1.arena.nBlocks)) =
    .ok ([.alloc 1 (0, 0), .alloc 2 (0, 1), .clear, .alloc 3 (0, 0)], 1) := by decide +kernel
/-- Growth happens when the single block of size 2 is full. -/
example : (run 2 false init ([.alloc 1, .alloc 2] : List (Op Nat)) >>= fun r =>
    alloc 2 r.1 7 >>= fun q => .ok (r.1.arena.nBlocks, q.1.arena.nBlocks)) = .ok (1, 2) := by
  decide +kernel

end Verif.Pool
