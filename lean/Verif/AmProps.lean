import Verif.AmLemmas
import Verif.NnetProps

/-!
# Property C28: scores do not depend on the batching
-/

namespace Verif.Am

open Nnet (Ops Layer)
open Nnet.Spec

/-- **C28.** For a network built by the converter with `L` frames of left and `R` frames of right context, a
configuration with these contexts and any batch size `c ≥ 1`: an utterance of `n ≥ 1` frames gives exactly `n` rows of
scores.  Row `t` is the network applied to the frames, continued at both ends by the first and the last frame, at
time `t`, minus the log prior.  The old contents of the output matrices do not matter.  (The sizes of the largest
batch must fit in an `int`.) -/
theorem C28_scores {F : Type} {o : Ops F} {vm : List F → List (List F) → List F} (hvm : RowWise o vm)
    (am : Model F) {d e L R w c : Nat} (hb : Built am.layers d e L R w) (hprior : am.logPrior.length = e)
    (hl : am.left = L) (hr : am.right = R) (hch : am.chunk = c) (hc : 1 ≤ c)
    (hsize : (c + L + R + R) * w ≤ 2147483647) (hbig : c + L + R + R ≤ 1073741823)
    (fs : List (List (List F) × List F)) (hn : fs ≠ []) (hd : ∀ f ∈ fs, f.2.length = d) :
    ∃ rows inst, utterance o am fs = .ok (rows, inst) ∧ rows.length = fs.length ∧
      ∀ t : Nat, t < fs.length → rows[t]? = some (List.zipWith (fun a b => o.add a (o.mul o.negOne b))
        (series o vm am.layers (edge (fs.map Prod.snd)) t) am.logPrior) := by
  have hx := edge_frames fs hn hd
  have S : Setup o vm am d e L R c w (edge (fs.map Prod.snd)) :=
    ⟨hvm, hb, hprior, hl, hr, hch, hc, hsize, hbig, hx.size, hx.first⟩
  obtain ⟨inst, h⟩ := S.batches.utterance_ok hn hx
  refine ⟨_, inst, h, seg_length _ _ _, fun t ht => ?_⟩
  rw [seg_get _ _ ht, Int.zero_add]
  rfl

/-- Two batch sizes give the same rows. -/
theorem C28_batching {F : Type} {o : Ops F} {vm : List F → List (List F) → List F} (hvm : RowWise o vm)
    (am am' : Model F) {d e L R w c c' : Nat} (hb : Built am.layers d e L R w) (hprior : am.logPrior.length = e)
    (hl : am.left = L) (hr : am.right = R) (hch : am.chunk = c) (hc : 1 ≤ c)
    (hsize : (c + L + R + R) * w ≤ 2147483647) (hbig : c + L + R + R ≤ 1073741823)
    (ham : am' = { am with chunk := c' }) (hc' : 1 ≤ c')
    (hsize' : (c' + L + R + R) * w ≤ 2147483647) (hbig' : c' + L + R + R ≤ 1073741823)
    (fs : List (List (List F) × List F)) (hn : fs ≠ []) (hd : ∀ f ∈ fs, f.2.length = d) :
    (utterance o am fs).map Prod.fst = (utterance o am' fs).map Prod.fst := by
  obtain ⟨rows, inst, h1, h2, h3⟩ := C28_scores hvm am hb hprior hl hr hch hc hsize hbig fs hn hd
  subst ham
  obtain ⟨rows', inst', h1', h2', h3'⟩ := C28_scores hvm { am with chunk := c' } hb hprior hl hr rfl hc' hsize' hbig'
    fs hn hd
  rw [h1, h1']
  show Except.ok rows = Except.ok rows'
  congr 1
  apply List.ext_getElem?
  intro t
  by_cases ht : t < fs.length
  · rw [h3 t ht, h3' t ht]
  · rw [List.getElem?_eq_none (by omega), List.getElem?_eq_none (by omega)]

/-- An utterance without frames has no scores. -/
theorem C28_no_frames {F : Type} (o : Ops F) (am : Model F) : utterance o am [] = .ok ([], Inst.new) := rfl

/-- A model for the examples. -/
def toyModel (chunk : Int) : Model Int := ⟨Nnet.toyNet, [1, 1, 1, 1], 1, 3, chunk⟩

/-- Three frames, scored in batches of two. -/
example : (utterance Nnet.toyOps (toyModel 2) [([], [4]), ([], [5]), ([[9]], [6])]).map Prod.fst =
    .ok [[21, 10, 63, 24], [21, 12, 66, 28], [22, 14, 69, 28]] := by decide +kernel

/-- The hypotheses of `C28_scores` hold for it. -/
example : (toyModel 2).left = (1 : Nat) ∧ (toyModel 2).right = (3 : Nat) ∧ (toyModel 2).chunk = (2 : Nat) ∧
    (toyModel 2).logPrior.length = 4 ∧ Built (toyModel 2).layers 1 4 1 3 4 ∧ (2 + 1 + 3 + 3) * 4 ≤ 2147483647 :=
  ⟨rfl, rfl, rfl, rfl, Nnet.toyNet_built, by decide⟩

/-- Batch size -1, the internal code for "all frames", is accepted by the configuration but does not work: nothing is
removed from the buffer, and earlier frames are scored again with every new one. -/
theorem C28_chunk_minus_one :
    utterance Nnet.toyOps ⟨[], [0], 0, 0, -1⟩ [([], [4]), ([], [5])] = .ok ([[4], [4], [5], [4], [5]], ⟨true, [[4], [5]]⟩) := by
  decide +kernel

/-- The end of the stream does not empty the buffer; announcing it again scores frames again. -/
theorem C28_second_end_repeats :
    ∃ inst inst', utterance Nnet.toyOps ⟨[], [0], 0, 0, 10⟩ [([], [4]), ([], [5])] = .ok ([[4], [5]], inst) ∧
      endOfStream Nnet.toyOps ⟨[], [0], 0, 0, 10⟩ inst [] = .ok ([[4], [5]], inst') :=
  ⟨⟨true, [[4], [5]]⟩, ⟨true, [[4], [5]]⟩, by decide +kernel, by decide +kernel⟩

end Verif.Am
