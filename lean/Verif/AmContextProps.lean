import Verif.AmContextLemmas
import Verif.AmProps

/-!
# C77: contexts in the configuration

The network file holds the contexts of the network (`src/nnet.cc` 277-281); the recogniser uses those of the
configuration (`src/am.cc` 48-49) and never compares them.
-/

namespace Verif.Am

open Nnet (Ops Layer)
open Nnet.Spec

/-- **C77, noticed.**  If the contexts of the configuration do not have the sum of the contexts of the network, and
neither a batch nor the utterance is so short that its frames with their contexts fit into the context of the network,
the utterance is stopped by the assertion in `ComputeBatch`.  In full: for every configuration with contexts other than
those of the network; missing are contexts with the same sum, where it is false (`C77_shift`), and short batches, where
it is false (`C77_short_batch_fails`). -/
theorem C77_noticed_partial {F : Type} {o : Ops F} {vm : List F → List (List F) → List F} (hvm : RowWise o vm)
    (am : Model F) {d e L R l r w c : Nat} (hb : Built am.layers d e L R w) (hprior : am.logPrior.length = e)
    (hl : am.left = l) (hr : am.right = r) (hch : am.chunk = c) (hc : 1 ≤ c)
    (hsize : (c + l + r + r) * w ≤ 2147483647) (hbig : c + l + r + r ≤ 1073741823) (hsum : l + r ≠ L + R)
    (fs : List (List (List F) × List F)) (hn : fs ≠ []) (hd : ∀ f ∈ fs, f.2.length = d)
    (hbatch : L + R < c + l + r) (hfs : L + R < fs.length + l + r) : utterance o am fs = .error .assert := by
  have hx := edge_frames fs hn hd
  exact (wrong_batches (n := fs.length) hvm hb hprior hl hr hch hc hsize hbig hsum hbatch hfs hx.size hx.first).utterance
    hn hx rfl

/-- **C77, shifted.**  If the contexts of the configuration have the sum of the contexts of the network, there is a row
for every frame, and row `t` is the score of frame `t + L - l`: the scores come too early or too late. -/
theorem C77_shift {F : Type} {o : Ops F} {vm : List F → List (List F) → List F} (hvm : RowWise o vm)
    (am : Model F) {d e L R l r w c : Nat} (hb : Built am.layers d e L R w) (hprior : am.logPrior.length = e)
    (hl : am.left = l) (hr : am.right = r) (hch : am.chunk = c) (hc : 1 ≤ c)
    (hsize : (c + l + r + r) * w ≤ 2147483647) (hbig : c + l + r + r ≤ 1073741823) (hsum : l + r = L + R)
    (fs : List (List (List F) × List F)) (hn : fs ≠ []) (hd : ∀ f ∈ fs, f.2.length = d) :
    ∃ rows inst, utterance o am fs = .ok (rows, inst) ∧ rows.length = fs.length ∧
      ∀ t : Nat, t < fs.length → rows[t]? = some (List.zipWith (fun a b => o.add a (o.mul o.negOne b))
        (series o vm am.layers (edge (fs.map Prod.snd)) ((t : Int) + L - l)) am.logPrior) := by
  have hx := edge_frames fs hn hd
  obtain ⟨inst, h⟩ := (shifted_batches hvm hb hprior hl hr hch hc hsize hbig hsum hx.size hx.first).utterance_ok hn hx
  refine ⟨_, inst, h, seg_length _ _ _, fun t ht => ?_⟩
  rw [seg_get _ _ ht, Int.zero_add]
  rfl

/-- A network with one frame of left context and three of right context, with other contexts in the configuration. -/
def contexts (l r c : Int) : Model Int := ⟨Nnet.toyNet, [1, 1, 1, 1], l, r, c⟩

/-- The hypotheses of `C77_noticed_partial` hold with contexts 2 and 3, for two frames in batches of one. -/
example : (contexts 2 3 1).left = (2 : Nat) ∧ (contexts 2 3 1).right = (3 : Nat) ∧ (contexts 2 3 1).chunk = (1 : Nat) ∧
    (contexts 2 3 1).logPrior.length = 4 ∧ Built (contexts 2 3 1).layers 1 4 1 3 4 ∧
    (1 + 2 + 3 + 3) * 4 ≤ 2147483647 ∧ 2 + 3 ≠ 1 + 3 ∧ 1 + 3 < 1 + 2 + 3 ∧ 1 + 3 < 2 + 2 + 3 :=
  ⟨rfl, rfl, rfl, rfl, Nnet.toyNet_built, by decide, by decide, by decide, by decide⟩

example : utterance Nnet.toyOps (contexts 2 3 1) [([], [4]), ([], [5])] = .error .assert := by decide +kernel

/-- The hypotheses of `C77_shift` hold with contexts 2 and 2, for three frames in batches of one; the scores are those
of the frame before. -/
example : (contexts 2 2 1).left = (2 : Nat) ∧ (contexts 2 2 1).right = (2 : Nat) ∧ (contexts 2 2 1).chunk = (1 : Nat) ∧
    (contexts 2 2 1).logPrior.length = 4 ∧ Built (contexts 2 2 1).layers 1 4 1 3 4 ∧ 2 + 2 = 1 + 3 :=
  ⟨rfl, rfl, rfl, rfl, Nnet.toyNet_built, by decide⟩

/-- **C77 fails for contexts with the right sum**: three frames are scored without complaint, with other scores than
with the contexts of the network.  The second and the third row are what should be the first and the second. -/
theorem C77_shift_fails :
    (utterance Nnet.toyOps (contexts 1 3 1) [([], [4]), ([], [5]), ([], [6])]).map Prod.fst =
      .ok [[21, 10, 63, 24], [21, 12, 66, 28], [22, 14, 69, 28]] ∧
    (utterance Nnet.toyOps (contexts 2 2 1) [([], [4]), ([], [5]), ([], [6])]).map Prod.fst =
      .ok [[19, 12, 63, 20], [21, 10, 63, 24], [21, 12, 66, 28]] := by
  decide +kernel

/-- Two layers with context: two frames on the left, one on the right in all. -/
def twoContexts (l r c : Int) : Model Int :=
  ⟨[.splice [-2, 0], .narrow 2 0, .splice [0, 1], .narrow 0 1], [0, 0, 0, 0], l, r, c⟩

theorem twoContexts_built (l r c : Int) : Built (twoContexts l r c).layers 1 4 2 1 4 := by
  refine Built.context (l := 2) (r := 0) (L := 0) (R := 1) (by decide) (by decide) (by decide) (by decide)
    (by decide) (.inr (by decide)) (.inl rfl) ?_
  refine Built.context (l := 0) (r := 1) (L := 0) (R := 0) (by decide) (by decide) (by decide) (by decide)
    (by decide) (.inl rfl) (.inr (by decide)) ?_
  exact Built.nil (by decide) (by decide)

/-- **C77 fails for short batches**: with the sum 2 in place of 3 and batches of one frame the second narrow layer keeps
the only row there is.  The frame to the right is never seen: where the network wants it, the frame itself is repeated. -/
theorem C77_short_batch_fails :
    (utterance Nnet.toyOps (twoContexts 2 1 1) [([], [4]), ([], [5]), ([], [6])]).map Prod.fst =
      .ok [[4, 4, 4, 5], [4, 5, 4, 6], [4, 6, 5, 6]] ∧
    (utterance Nnet.toyOps (twoContexts 2 0 1) [([], [4]), ([], [5]), ([], [6])]).map Prod.fst =
      .ok [[4, 4, 4, 4], [4, 5, 4, 5], [4, 6, 4, 6]] := by
  decide +kernel

end Verif.Am
