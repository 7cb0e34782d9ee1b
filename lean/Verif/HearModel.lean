import Verif.FbankMemModel
import Verif.AmMemModel

/-!
# Model of `ce_stt_process` from samples to scores at the level of memory (`src/ce_stt.cc`)

The feature extraction of `FbankMemModel` and the acoustic model of `AmMemModel` in the order of the code: the matrix that
`Fbank::Process` has filled is the one whose rows go to `AcousticModel::Process`.
-/

namespace Verif.Hear

open Mat (Heap View)
open VecMem (Vec destroy)
open FbankMem (TabM samplesM processM)
open AmMem (ModelM InstM rowsOf frames readMat popFront endOfStream)

variable {F : Type}

/-- `fbank_inst` and `am_inst`, `src/ce_stt.cc` 57-58: the wave buffer and the buffer of frames. -/
structure Utt where
  buf : Vec
  am : InstM

/-- `ce_stt_process` after the wave reader has made the samples `y`, `src/ce_stt.cc` 295-333: `samples`, `feats` and
`log_prob` belong to the call; their destructors run at the end, `log_prob` first.  The rows of `log_prob` are returned;
in the code they go on to the decoder. -/
def hear (o : Fbank.Ops F) (a : Nnet.Ops F) (t : TabM) (M : ModelM) (wild : Nat → F) (u : Utt) (y : List F) (h : Heap F) :
    Exec (List (List F) × Utt × Heap F) := do
  let s ← samplesM o y h
  if s.1.dim = 0 then do
    let h ← destroy s.1 s.2
    .ok ([], u, h)
  else do
    let r ← processM o t wild u.buf s.1 .empty s.2
    let vs ← rowsOf r.2.1
    let q ← frames a M u.am .empty vs r.2.2
    let h ← Mat.destroy q.2.2.1 q.2.2.2
    let h ← Mat.destroy r.2.1 h
    let h ← destroy s.1 h
    .ok (q.1, ⟨r.1, q.2.1⟩, h)

/-- The calls of `ce_stt_process` for the pieces of an utterance, `src/ce_stt.cc` 295-333. -/
def hearAll (o : Fbank.Ops F) (a : Nnet.Ops F) (t : TabM) (M : ModelM) :
    Utt → List ((Nat → F) × List F) → Heap F → Exec (List (List F) × Utt × Heap F)
  | u, [], h => .ok ([], u, h)
  | u, (wild, y) :: cs, h => do
    let r ← hear o a t M wild u y h
    let q ← hearAll o a t M r.2.1 cs r.2.2
    .ok (r.1 ++ q.1, q.2)

/-- An utterance: new instances (`src/ce_stt.cc` 57-58), pieces of audio, the end of the stream (351-358, with a matrix of
its own), and the destructors of the two instances, that of `am_inst` first. -/
def utterance (o : Fbank.Ops F) (a : Nnet.Ops F) (t : TabM) (M : ModelM) (cs : List ((Nat → F) × List F)) (h : Heap F) :
    Exec (List (List F) × Heap F) := do
  let q ← hearAll o a t M ⟨.empty, .new⟩ cs h
  let r ← endOfStream a M q.2.1.am .empty q.2.2
  let xs ← readMat r.1 r.2.2
  let h ← Mat.destroy r.1 r.2.2
  let w ← popFront r.2.1.feats.length r.2.1.feats h
  let h ← destroy q.2.1.buf w.2
  .ok (q.1 ++ xs, h)

end Verif.Hear
