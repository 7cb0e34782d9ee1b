import Verif.BeamSpec
import Verif.MainSpec

/-!
# Specification of the scores of an audio file
-/

namespace Verif.Main.Spec

open Verif

variable {F D : Type}

/-- `rows` are the scores of `data`, as samples of `b` bytes: one row per frame of the signal, computed by the network from
the features of the frames continued at both ends, less the logarithms of the priors. -/
def Scores (r : Stt.Rec F D) (vm : List F → List (List F) → List F) (b : Nat) (data : List UInt8)
    (rows : List (List F)) : Prop :=
  let signal := (Pcm.Spec.samples b data).map r.conv
  ∃ feats, (Fbank.Spec.frames signal).mapM (Fbank.Spec.row r.fb) = .ok feats ∧
    rows.length = Fbank.Spec.numFrames signal.length ∧
    ∀ t : Nat, t < rows.length → rows[t]? = some (List.zipWith (fun x y => r.nn.add x (r.nn.mul r.nn.negOne y))
      (Nnet.Spec.series r.nn vm r.am.layers (Nnet.Spec.edge feats) t) r.am.logPrior)

end Verif.Main.Spec
