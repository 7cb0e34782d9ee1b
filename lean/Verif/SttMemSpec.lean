import Verif.SttMemModel
import Verif.MdecSpec
import Verif.FbankSpec
import Verif.PcmSpec
import Verif.NnetSpec
import Verif.AmModel

/-!
# The scores of an utterance, and the same answer from both recognisers
-/

namespace Verif.SttMem

open Verif Verif.Nnet.Spec Verif.Fbank.Spec

variable {F D : Type}

/-- `rows` are the scores of the audio `bytes` (samples of `b` bytes): one row per frame, the network at that frame
minus the log prior, where `vm` is what the network's matrix product does to one row. -/
def Scores (r : Stt.Rec F D) (vm : List F → List (List F) → List F) (b : Nat) (bytes : List UInt8)
    (rows : List (List F)) : Prop :=
  ∃ feats, (frames ((Pcm.Spec.samples b bytes).map r.conv)).mapM (row r.fb) = .ok feats ∧
    rows = (List.range feats.length).map fun t : Nat => List.zipWith (fun x y => r.nn.add x (r.nn.mul r.nn.negOne y))
      (series r.nn vm r.am.layers (edge feats) t) r.am.logPrior

/-- What a caller can read off an utterance after recognition, and what the next call would find, is the same. -/
structure SameUtt (u : Utt F) (v : Stt.Utt F) : Prop where
  hyp : u.back.hyp = v.back.hyp
  ll : u.back.ll = v.back.ll
  frames : u.back.dec.frames = v.back.dec.frames
  tokens : Mdec.SameTokens u.back.dec v.back.dec
  reader : u.reader = v.reader
  wave : u.wave = v.wave
  am : u.back.am = v.back.am

end Verif.SttMem
