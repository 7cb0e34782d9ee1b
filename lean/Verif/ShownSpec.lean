import Verif.SttProps
import Verif.DecoderSpec

/-!
# What a caller sees of an utterance while audio is still being fed
-/

namespace Verif.Stt.Spec

open Verif

variable {F D : Type}

/-- Of `N` frames of features this many have been scored: scores are computed in batches of `c` frames, and a frame waits
for the `R` frames behind it. -/
def scoredFrames (R c N : Nat) : Nat := c * ((N - R) / c)

/-- Calls of `ce_stt_process` with the given pieces, one after the other, and what each of them returned. -/
inductive Fed : List (List UInt8) → List Int → Handle F D → Msg → Handle F D → Msg → Prop where
  | nil {h : Handle F D} {m : Msg} : Fed [] [] h m h m
  | cons {p : List UInt8} {ps : List (List UInt8)} {n : Int} {ns : List Int} {h h1 h2 : Handle F D} {m m1 m2 : Msg}
      {mem : Mem F} : processApi mem h m (some p) p.length = .ok (n, h1, m1) → Fed ps ns h1 m1 h2 m2 →
      Fed (p :: ps) (n :: ns) h m h2 m2

/-- `rows` are the scores known once the bytes `data`, as samples of `b` bytes, have been heard: one row for every frame
that has been scored, computed by the network from the features of the frames heard. -/
def Scores (r : Rec F D) (vm : List F → List (List F) → List F) (R c b : Nat) (data : List UInt8)
    (rows : List (List F)) : Prop :=
  let signal := (Pcm.Spec.samples b data).map r.conv
  ∃ feats, (Fbank.Spec.frames signal).mapM (Fbank.Spec.row r.fb) = .ok feats ∧
    rows.length = scoredFrames R c (Fbank.Spec.numFrames signal.length) ∧
    ∀ t : Nat, t < rows.length → rows[t]? = some (List.zipWith (fun x y => r.nn.add x (r.nn.mul r.nn.negOne y))
      (Nnet.Spec.series r.nn vm r.am.layers (Nnet.Spec.edge feats) t) r.am.logPrior)

/-- After `i` of the rows, at least one, the decoder `d` says that it has decoded a multiple of twenty frames. -/
def Tick (e : Decoder.Env F D) (rows : List (List F)) (i : Nat) (d : Decoder.Dec F) : Prop :=
  1 ≤ i ∧ i ≤ rows.length ∧ d.frames % 20 = 0 ∧ ∃ bs cs, Decoder.Run e (rows.take i) bs cs d

/-- Text and likelihood are those of the best path of the decoder `d`: the words in the order they were spoken, single
blanks between them.  Without words nothing is said about the likelihood. -/
def Tells (r : Rec F D) (d : Decoder.Dec F) (hyp : Text.Str) (ll : F) : Prop :=
  ∃ words weight ws, Decoder.bestPath r.dec d = .ok (words, weight) ∧
    words.reverse.map (Text.word? r.syms) = ws.map some ∧ hyp = Text.join [32] ws ++ [0] ∧
    (words ≠ [] → ll = r.perFrame weight d.frames)

/-- Text and likelihood are the latest that were due. -/
def Shown (r : Rec F D) (rows : List (List F)) (hyp : Text.Str) (ll : F) : Prop :=
  ((∀ i d, ¬ Tick r.dec rows i d) → hyp = [0] ∧ ll = r.zero) ∧
  ∀ i d, Tick r.dec rows i d → (∀ j d', Tick r.dec rows j d' → j ≤ i) → Tells r d hyp ll

end Verif.Stt.Spec
