import Verif.SrfftMemRun
import Verif.SrfftSafeProps

/-!
# Property C113: the tables of the transform in memory
-/

namespace Verif.SrfftMem

open Mat (Heap Addr)
open Srfft

variable {F : Type}

/-- C113: whatever the arithmetic and whatever is in memory, for every size the constructor accepts: it fills its tables
within the blocks it allocates and changes nothing else.  From then on, whatever happens to the rest of memory, and as
often as one likes, a transform with these tables reads nothing outside of them and nothing that was not written, and
its answer (or refusal) is the one of the model whose tables are values.  The destructor frees each of the blocks, none twice,
and nothing else. -/
theorem C113_tables (o : Ops F) {points : Int} {t : State F} (ht : new o points = .ok t) (h : Heap (Val F)) :
    ∃ obj h', newM o points h = .ok (obj, h') ∧
      h'.length = h.length + (if t.logn < 4 then 1 else t.logn - 1) ∧ (∀ b, b < h.length → h'[b]? = h[b]?) ∧
      ∀ g, (∀ b, h.length ≤ b → b < h'.length → g[b]? = h'[b]?) →
        (∀ (data : List F) (size : Int) (forward : Bool) (buffer : List F) (bufSize : Int),
          computeM o obj g data size forward buffer bufSize = compute o t data size forward buffer bufSize) ∧
        ∃ g', destroyM obj g = .ok g' ∧ g'.length = g.length ∧
          (∀ b, h.length ≤ b → b < h'.length → g'[b]? = some none) ∧
          ∀ b, b < h.length ∨ h'.length ≤ b → g'[b]? = g[b]? := by
  obtain ⟨k, hk, hp, rfl⟩ := new_inv o ht
  have hl : (h ++ blocks o k h.length).length = h.length + (if k < 4 then 1 else k - 1) := by
    rw [List.length_append, blocks_length]
  refine ⟨_, _, new_ok o h hk hp, hl, fun b hb => List.getElem?_append_left hb, fun g hg => ?_⟩
  have H := holds_of o hg
  obtain ⟨g', e, q⟩ := destroy_ok o H
  refine ⟨fun d s f b bs => compute_same o H d s f b bs, g', e, q.length, fun b h1 h2 => q.freed b h1 (by omega), fun b hb => ?_⟩
  exact q.others b (by omega)

/-- C113: a size that is refused is refused before anything is allocated. -/
theorem C113_refused (o : Ops F) {points : Int} {e : Fault} (ht : new o points = .error e) (h : Heap (Val F)) :
    newM o points h = .error e := new_fails o h ht

/-- C113, together with C60: a transform of enough data with a large enough buffer finishes. -/
theorem C113_finishes (o : Ops F) {points : Int} {t : State F} (ht : new o points = .ok t) (h : Heap (Val F))
    (data buffer : List F) (hd : 2 * t.n ≤ data.length) (hb : t.n ≤ buffer.length) (forward : Bool) :
    ∃ obj h' out buf, newM o points h = .ok (obj, h') ∧
      computeM o obj h' data (2 * t.n : Nat) forward buffer buffer.length = .ok (out, buf) ∧
      out.length = data.length ∧ buf.length = buffer.length := by
  obtain ⟨obj, h', e, -, -, q⟩ := C113_tables o ht h
  obtain ⟨out, e1, e2⟩ := C60_safe o ht data hd forward
  obtain ⟨buf, e3, e4⟩ := e2 buffer buffer.length (by omega) hb
  exact ⟨obj, h', out, buf, e, by rw [(q h' (fun _ _ _ => rfl)).1, e3], e1, e4⟩

/-- What C113 does not cover: the class has the implicit copy constructor, which copies the pointers.  If a copy is destroyed, so are
the tables of the original: its destructor frees freed memory. -/
theorem C113_copy_frees_twice (o : Ops F) {points : Int} {h h' : Heap (Val F)} {obj : Obj}
    (hn : newM o points h = .ok (obj, h')) (g g' : Heap (Val F)) (hg : ∀ b, h.length ≤ b → b < h'.length → g[b]? = h'[b]?)
    (hd : destroyM obj g = .ok g') : destroyM obj g' = .error .ub := by
  cases ht : new o points with
  | error e =>
    rw [new_fails o h ht] at hn
    cases hn
  | ok t =>
    obtain ⟨k, hk, hp, -⟩ := new_inv o ht
    have e := hn.symm.trans (new_ok o h hk hp)
    cases Except.ok.inj e
    obtain ⟨g2, e2, q⟩ := destroy_ok o (holds_of o hg)
    rw [e2] at hd
    cases Except.ok.inj hd
    exact destroy_again q (by split_ifs <;> omega)

/-! ## Instances -/

/-- Memory with a freed block and a block of something else. -/
def someHeap : Heap (Val Nat) := [none, some [some (.num 3), none]]

/-- 32 points: the seeds, the pointers (three places, one used) and one level of twelve numbers. -/
example : ∃ t obj h', new oddOps 32 = .ok t ∧ newM oddOps 32 someHeap = .ok (obj, h') ∧ h'.length = 5 ∧
    (h'[3]? = some (some [some (.ptr ⟨4, 0⟩), none, none])) ∧ (h'[4]?.map (Option.map List.length)) = some (some 12) ∧
    obj = ⟨16, 4, ⟨2, 0⟩, some ⟨3, 0⟩⟩ := by
  refine ⟨_, _, _, new_pow (k := 4) oddOps (by omega) rfl, new_ok (k := 4) oddOps someHeap (by omega) rfl, ?_, ?_, ?_, ?_⟩ <;>
    decide +kernel

/-- The transform itself, and the two destructors. -/
example : ∃ t obj h', new oddOps 32 = .ok t ∧ newM oddOps 32 someHeap = .ok (obj, h') ∧
    computeM oddOps obj h' (List.range 32) 32 true (List.replicate 16 0) 16 =
      compute oddOps t (List.range 32) 32 true (List.replicate 16 0) 16 ∧
    (∃ x, computeM oddOps obj h' (List.range 32) 32 true (List.replicate 16 0) 16 = .ok x) ∧
    destroyM obj h' = .ok [none, some [some (.num 3), none], none, none, none] ∧
    destroyM obj [none, some [some (.num 3), none], none, none, none] = (.error .ub : Exec (Heap (Val Nat))) := by
  have e := C113_finishes oddOps (new_pow (k := 4) (points := 32) oddOps (by omega) rfl) someHeap (List.range 32)
    (List.replicate 16 0) (by decide +kernel) (by decide +kernel) true
  obtain ⟨obj, h', out, buf, e1, e2, -, -⟩ := e
  have e3 := e1.symm.trans (new_ok (k := 4) oddOps someHeap (by omega) rfl)
  cases Except.ok.inj e3
  refine ⟨_, _, _, new_pow (k := 4) oddOps (by omega) rfl, e1, ?_, ⟨_, e2⟩, ?_, ?_⟩ <;> decide +kernel

/-- Sizes that are refused: not a power of two, and too small. -/
example : newM oddOps 24 someHeap = .error .assert ∧ newM oddOps 2 someHeap = .error .assert :=
  ⟨C113_refused oddOps rfl _, C113_refused oddOps rfl _⟩

end Verif.SrfftMem
