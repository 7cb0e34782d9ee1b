import Verif.AmMemRun
import Verif.NetMemProps
import Verif.AmProps

/-!
# Property C109: the acoustic model in memory
-/

namespace Verif.AmMem

open Mat (Heap Addr View peek)
open VecMem (Vec)
open Nnet (Ops toyOps toyOps_rowWise toyNet toyNet_built)
open Nnet.Spec (RowWise Built series edge)
open Am (seg seg_length seg_get Setup)
open NetMem (toyHeap toyLayers line_of)
open NetMem.Spec (Line VShows Live)
open Spec

variable {F : Type}

/-- Frames as a series that goes on at both ends. -/
theorem series_of (xs more : List (List F)) : Series (edge (xs ++ more)) 0 xs := by
  intro i f hf
  obtain ⟨hi, rfl⟩ := List.getElem?_eq_some_iff.mp hf
  unfold edge
  rw [if_neg (by omega), Int.toNat_natCast, Nat.zero_add, List.getElem?_append_left hi, List.getElem?_eq_getElem hi]
  rfl

theorem edge_of {d : Nat} (xs : List (List F)) (hn : xs ≠ []) (hd : ∀ f ∈ xs, f.length = d) :
    Am.Frames (xs.map fun f => (([], f) : List (List F) × List F)) d (edge xs) := by
  have := Am.edge_frames (d := d) (xs.map fun f => (([], f) : List (List F) × List F))
    (by simpa using hn) (by simpa using hd)
  rw [List.map_map] at this
  have hid : (Prod.snd ∘ fun f => (([], f) : List (List F) × List F)) = id := rfl
  rw [hid, List.map_id] at this
  exact this

/-- **C109, an utterance.**  The parameters of the acoustic model are somewhere in memory.  The frames `ps.flatten` come
in any pieces, those of a piece in a matrix that is gone before the next piece comes.  Then the calls of `Process`, the
one of `EndOfStream` and the destructors meet no undefined behaviour, and

* there is one row of scores for every frame, and row `t` is the one of C28: the network at time `t`, minus the log of
  the prior, where the first and the last frame go on for ever;
* no block that was there before has changed;
* the blocks in use are those that were in use before: the features, the buffer, the batches, the matrices of the network
  and the scores have all been freed. -/
theorem C109_utterance {o : Ops F} {vm : List F → List (List F) → List F} (hvm : RowWise o vm) {h : Heap F}
    {am : Am.Model F} {M : ModelM} (hM : Loaded h M am) {d e L R w c : Nat} (hb : Built am.layers d e L R w)
    (hprior : am.logPrior.length = e) (hl : am.left = L) (hr : am.right = R) (hch : am.chunk = c) (hc : 1 ≤ c)
    (hsize : (c + L + R + R) * w ≤ 2147483647) (hbig : c + L + R + R ≤ 1073741823) (hw : w ≤ 536870911)
    (ps : List (List (List F))) (hps : ∀ p ∈ ps, p.length * d ≤ 2147483647) (hn : ps.flatten ≠ [])
    (hd : ∀ f ∈ ps.flatten, f.length = d) :
    ∃ rows h', utterance o M d ps h = .ok (rows, h') ∧ rows.length = ps.flatten.length ∧
      (∀ t : Nat, t < ps.flatten.length → rows[t]? = some (List.zipWith (fun a b => o.add a (o.mul o.negOne b))
        (series o vm am.layers (edge ps.flatten) t) am.logPrior)) ∧
      (∀ a : Addr, a.block < h.length → peek h' a = peek h a) ∧ ∀ k, Live h' k ↔ Live h k := by
  have hx := edge_of ps.flatten hn hd
  have S : Setup o vm am d e L R c w (edge ps.flatten) :=
    ⟨hvm, hb, hprior, hl, hr, hch, hc, hsize, hbig, hx.size, hx.first⟩
  have hg : Series (edge ps.flatten) 0 ps.flatten := by
    have := series_of ps.flatten []
    rwa [List.append_nil] at this
  have hlast := hx.last
  rw [List.length_map] at hlast
  obtain ⟨h', e1, E⟩ := utterance_ok S hw hM ps hps hg (List.length_pos_iff.mpr hn) hlast
  refine ⟨_, h', e1, seg_length _ _ _, ?_, fun a ha => E.kept a ha id, fun k => ?_⟩
  · intro t ht
    rw [seg_get _ _ ht, Int.zero_add]
    rfl
  · rw [E.live]
    exact ⟨fun g => g.elim And.left (fun g => absurd g id), fun g => .inl ⟨g, id⟩⟩

/-- **C109, on the way.**  After any number of calls for some pieces of an utterance, with one frame at least,

* the rows so far are final: they are the first rows of the whole utterance, whatever frames follow;
* fewer than `R + c` frames are still without scores;
* the memory the acoustic model has in use is the buffer, which has fewer than `L + R + c` vectors, each in a block of
  its own.  All other blocks in use were so before, with the same content. -/
theorem C109_on_the_way {o : Ops F} {vm : List F → List (List F) → List F} (hvm : RowWise o vm) {h : Heap F}
    {am : Am.Model F} {M : ModelM} (hM : Loaded h M am) {d e L R w c : Nat} (hb : Built am.layers d e L R w)
    (hprior : am.logPrior.length = e) (hl : am.left = L) (hr : am.right = R) (hch : am.chunk = c) (hc : 1 ≤ c)
    (hsize : (c + L + R + R) * w ≤ 2147483647) (hbig : c + L + R + R ≤ 1073741823) (hw : w ≤ 536870911)
    (ps : List (List (List F))) (hps : ∀ p ∈ ps, p.length * d ≤ 2147483647) (hn : ps.flatten ≠ [])
    (hd : ∀ f ∈ ps.flatten, f.length = d) :
    ∃ rows inst q h', pieces o M d .new ps h = .ok (rows, inst, h') ∧ rows.length ≤ ps.flatten.length ∧
      ps.flatten.length < rows.length + R + c ∧
      (∀ more : List (List F), (∀ f ∈ more, f.length = d) → ∀ t : Nat, t < rows.length →
        rows[t]? = some (List.zipWith (fun a b => o.add a (o.mul o.negOne b))
          (series o vm am.layers (edge (ps.flatten ++ more)) t) am.logPrior)) ∧
      inst.feats = q.map vecOf ∧ Held h' q ∧ q.length < L + R + c ∧
      (∀ a : Addr, a.block < h.length → peek h' a = peek h a) ∧
      (∀ k, Live h' k ↔ Live h k ∨ Owns q k) ∧ ∀ k, Owns q k → h.length ≤ k := by
  have hpos := List.length_pos_iff.mpr hn
  have go : ∀ more : List (List F), (∀ f ∈ more, f.length = d) → ∃ I q h' p,
      pieces o M d .new ps h = .ok (seg (score o vm am (edge (ps.flatten ++ more))) 0 p, I, h') ∧
      State h' I q L R c (edge (ps.flatten ++ more)) ps.flatten.length p ∧ Effect h h' (Owns ([] : List (Nat × List F))) (Owns q) := by
    intro more hmore
    have hx := edge_of (ps.flatten ++ more) (by simp [hn]) (d := d) (by
      intro f hf
      rcases List.mem_append.mp hf with g | g
      · exact hd f g
      · exact hmore f g)
    have S : Setup o vm am d e L R c w (edge (ps.flatten ++ more)) :=
      ⟨hvm, hb, hprior, hl, hr, hch, hc, hsize, hbig, hx.size, hx.first⟩
    have st : State h InstM.new ([] : List (Nat × List F)) L R c (edge (ps.flatten ++ more)) 0 0 :=
      ⟨rfl, ⟨by simp, by simp, by simp⟩, .inl ⟨rfl, rfl, rfl⟩, (Am.due_zero _ _).symm⟩
    obtain ⟨I, q, h', p, e1, _, st1, E1⟩ := pieces_ok S hw hM ps hps st (series_of _ more)
      (fun a c ha => ⟨ha, owns_nil _⟩)
    rw [Nat.zero_add] at st1
    exact ⟨I, q, h', p, e1, st1, E1⟩
  obtain ⟨I, q, h', p, e1, st, E⟩ := go [] (by simp)
  rcases st.inv with ⟨g, _, _⟩ | ⟨_, g1, g2, _, g3⟩
  · omega
  refine ⟨_, I, q, h', e1, by rw [seg_length]; exact g1, by rw [seg_length]; exact g2, ?_, st.feats, st.held, ?_,
    fun a ha => E.kept a ha (owns_nil _), fun k => ?_, fun k hk => ?_⟩
  · intro more hmore t ht
    obtain ⟨_, _, _, p', e2, _, _⟩ := go more hmore
    rw [e1] at e2
    have hs := (Prod.mk.inj (Except.ok.inj e2)).1
    rw [hs] at ht ⊢
    rw [seg_length] at ht
    rw [seg_get _ _ ht, Int.zero_add]
    rfl
  · have := congrArg List.length g3
    simp only [List.length_map, seg_length] at this
    omega
  · rw [E.live]
    exact ⟨fun g => g.elim (fun g => .inl g.1) .inr, fun g => g.elim (fun g => .inl ⟨g, owns_nil _⟩) .inr⟩
  · exact (E.fresh k hk).elim (fun g => absurd g (owns_nil _)) id

/-! ## A case -/

/-- The memory of the example of C108, with the priors in one more block. -/
def amHeap : Heap Int := toyHeap ++ [some ([1, 1, 1, 1].map some)]

/-- `toyModel` in `amHeap`, with batches of two. -/
def amModel : ModelM := ⟨toyLayers, ⟨some ⟨6, 0⟩, 4⟩, 1, 3, 2⟩

/-- Three frames in two pieces, with a call without frames between them. -/
def amPieces : List (List (List Int)) := [[[4], [5]], [], [[6]]]

theorem amModel_loaded : Loaded amHeap amModel (Am.toyModel 2) := by
  refine ⟨?_, ⟨by decide, ⟨6, 0⟩, rfl, line_of (by decide +kernel)⟩, rfl, rfl, rfl⟩
  show List.Forall₂ (NetMem.Spec.Stored amHeap) toyLayers toyNet
  refine .cons (.splice _) (.cons (.narrow _ _) (.cons (.linear (a := ⟨0, 0⟩) ?_ ?_) (.cons .relu (.cons (.splice _)
    (.cons (.narrow _ _) (.cons (.batchNorm ?_ ?_) .nil))))))
  · exact ⟨rfl, by decide, by decide, by decide, by decide, by decide, by decide, NetMem.lines_of (by decide +kernel)⟩
  · exact ⟨by decide, ⟨1, 0⟩, rfl, line_of (by decide +kernel)⟩
  · exact ⟨by decide, ⟨2, 0⟩, rfl, line_of (by decide +kernel)⟩
  · exact ⟨by decide, ⟨3, 0⟩, rfl, line_of (by decide +kernel)⟩

/-- The hypotheses of `C109_utterance` are met. -/
example : ∃ rows h', utterance toyOps amModel 1 amPieces amHeap = .ok (rows, h') ∧ rows.length = 3 ∧
    ∀ k, Live h' k ↔ Live amHeap k := by
  obtain ⟨rows, h', e, l, _, _, hv⟩ := C109_utterance toyOps_rowWise amModel_loaded toyNet_built rfl rfl rfl
    (c := 2) rfl (by decide) (by decide) (by decide) (by decide) amPieces (by decide) (by decide) (by decide)
  exact ⟨rows, h', e, l, hv⟩

/-- Those of `C109_on_the_way` as well. -/
example : ∃ rows inst h', pieces toyOps amModel 1 .new amPieces amHeap = .ok (rows, inst, h') ∧ inst.feats.length < 6 := by
  obtain ⟨rows, inst, q, h', e, _, _, _, hf, _, hq, _⟩ := C109_on_the_way toyOps_rowWise amModel_loaded toyNet_built rfl
    rfl rfl (c := 2) rfl (by decide) (by decide) (by decide) (by decide) amPieces (by decide) (by decide) (by decide)
  exact ⟨rows, inst, h', e, by rw [hf, List.length_map]; exact hq⟩

/-- The whole run in numbers: the rows of the example of C28; the memory from before is as it was, and behind it there
are only freed blocks. -/
example : (utterance toyOps amModel 1 amPieces amHeap).map (fun r => (r.1, r.2.take 7, (r.2.drop 7).all (·.isNone))) =
    .ok ([[21, 10, 63, 24], [21, 12, 66, 28], [22, 14, 69, 28]], amHeap, true) := by decide +kernel

/-- After six frames of which two are scored the buffer has five vectors in blocks of their own, and nothing else is in
use besides what was before. -/
example : (pieces toyOps amModel 1 .new [amPieces.flatten, amPieces.flatten] amHeap).map
    (fun r => (r.1.length, r.2.1.feats.length, ((r.2.2.drop 7).filter (·.isSome)).length)) = .ok (2, 5, 5) := by
  decide +kernel

/-- The bound on the buffer needs a batch size from 1: with the batch size 0 nothing is scored or removed before the end
of the stream. -/
theorem C109_chunk_zero :
    (pieces toyOps { amModel with chunk := 0 } 1 .new [amPieces.flatten, amPieces.flatten, amPieces.flatten] amHeap).map
      (fun r => (r.1, r.2.1.feats.length, ((r.2.2.drop 7).filter (·.isSome)).length)) = .ok ([], 10, 10) := by
  decide +kernel

end Verif.AmMem
