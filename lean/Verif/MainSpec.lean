import Verif.MainModel
import Verif.InitSpec
import Verif.SttProps
import Verif.FstSpec

/-!
# What the program is expected to do
-/

namespace Verif.Main.Spec

open Verif Verif.Text Verif.App.Spec

variable {G F D : Type}

/-- A layer with the values of its numbers. -/
def valueLayer (g : Nat → F) : Nnet.Layer Nat → Nnet.Layer F
  | .linear W b => .linear (W.map (·.map g)) (b.map g)
  | .relu => .relu
  | .normalize => .normalize
  | .softmax => .softmax
  | .splice idx => .splice idx
  | .batchNorm s t => .batchNorm (s.map g) (t.map g)
  | .logSoftmax => .logSoftmax
  | .narrow l r => .narrow l r

/-- A transducer with the values of its weights. -/
def valueFst (g : UInt32 → F) (t : Fst.Transducer UInt32) : Fst.Transducer F :=
  ⟨t.start, t.states.map fun p => (g p.1, p.2.map fun a => ⟨a.next, a.ilabel, a.olabel, g a.weight⟩)⟩

/-- The language model `lm` answers as the backoff model `t` says, with the scores `small` of the words subtracted: a word
is looked up along the backoff arcs, the start state is the one behind `bos`, and the final weight the one behind `eos`.
Backoff chains of `depth` or more arcs are left open. -/
structure Answers (o : Fst.FloatOps F) (small : List F) (t : Fst.Transducer F) (bos eos : Int) (depth : Nat)
    (lm : Fst.IFst F) : Prop where
  start : bos ≠ 0 → ∀ s e : Nat, t.start = (s : Int) → ∀ bs, Fst.Chain t bos s bs e → bs.length < depth →
    ∀ a, Fst.firstArc t e bos = some a → lm.start = .ok a.next
  arc : ∀ w : Int, 0 < w → ∀ x, small[w.toNat]? = some x → ∀ (s e : Nat) bs, Fst.Chain t w s bs e → bs.length < depth →
    ∀ a, Fst.firstArc t e w = some a →
      lm.getArc s w = .ok (some { a with weight := o.sub (Fst.backedWeight o bs a.weight) x })
  noArc : ∀ w : Int, 0 < w → ∀ x, small[w.toNat]? = some x → ∀ (s e : Nat) bs, Fst.Chain t w s bs e → bs.length < depth →
    e < t.states.length → Fst.firstArc t e w = none → Fst.firstArc t e 0 = none → lm.getArc s w = .ok none
  final : 0 < eos → ∀ x, small[eos.toNat]? = some x → ∀ (s e d g : Nat) bs fs, Fst.Chain t eos s bs e →
    bs.length < depth → ∀ a, Fst.firstArc t e eos = some a → a.next = (d : Int) → Fst.FChain o t d fs g →
    fs.length < depth → ∀ w, Fst.finalOf t g = some w → (o.finite w = true ∨ Fst.firstArc t g 0 = none) →
    lm.final s = .ok (o.sub (o.add (Fst.backedFinal o fs (if o.finite w then w else o.inf))
      (Fst.backedWeight o bs a.weight)) x)

/-- Which model directories the theorems are about: the network is one the converter writes, for features of dimension
40, and fits to the priors and numbers of the configuration; sizes fit; and, of the machine: the matrix product of the
network works row by row, the tables of the feature extraction have the right sizes, its FFT uses its buffer as scratch
space only. -/
structure Fits (mach : Machine G F D) (m : App.Spec.Model G) (vm : List F → List (List F) → List F) (e wd : Nat) :
    Prop where
  rows : Nnet.Spec.RowWise mach.nn vm
  net : Nnet.Spec.Built (m.layers.map (valueLayer fun x => mach.word (some x))) 40 e m.left m.right wd
  prior : m.prior.length = e
  chunk : 1 ≤ m.chunk
  size : (m.chunk + m.left + m.right + m.right) * wd ≤ 2147483647
  big : m.chunk + m.left + m.right + m.right ≤ 1073741823
  tables : Fbank.Spec.Tables mach.fb
  scratch : Fbank.Spec.ScratchOnly mach.fb

/-- How a word id is spelled: by the last line with the id; an id that no line has, below one that some line has, is the
empty word. -/
def Spells (es : List SymEntry) (id : Int) (word : Str) : Prop :=
  IsLast (es.map fun e => ((e.id : Int), e.word)) id word ∨
    (word = [] ∧ 0 ≤ id ∧ (∀ e ∈ es, (e.id : Int) ≠ id) ∧ ∃ e ∈ es, id < (e.id : Int))

/-- The recogniser of a model: every part has the values of the files. -/
structure IsRec (mach : Machine G F D) (w : App.World G) (m : App.Spec.Model G) (r : Stt.Rec F D) : Prop where
  conv : r.conv = mach.conv
  fb : r.fb = mach.fb
  nn : r.nn = mach.nn
  layers : r.am.layers = m.layers.map (valueLayer fun x => mach.word (some x))
  prior : r.am.logPrior = m.prior.map fun x => mach.word (some (w.log x))
  left : r.am.left = m.left
  right : r.am.right = m.right
  chunk : r.am.chunk = m.chunk
  ar : r.dec.ar = mach.ar
  graph : r.dec.g = mach.graph m.graph
  pdf : r.dec.pdf = m.map
  amScale : r.dec.amScale = mach.amScale
  lm : match m.lm with
    | none => r.dec.lm = none
    | some (u, t) => ∃ lm bos eos, r.dec.lm = some lm ∧
      Answers mach.lm (u.map fun x => mach.word (some x)) (valueFst (fun x => mach.word (some x.toNat)) t) bos eos
        mach.lmFuel lm ∧
      IsLast (m.symbols.map fun e => (e.word, (e.id : Int))) sentBegin bos ∧
      IsLast (m.symbols.map fun e => (e.word, (e.id : Int))) sentEnd eos
  words : ∀ id word, word? r.syms id = some word ↔ Spells m.symbols id word

/-- What is recognised in `data`, as samples of `b` bytes: `feats` are the features of all frames of the signal; there is
one row of scores per frame, computed by the network from the frames continued at both ends; the decoder takes all rows
in order; `ids` are the words of its best path, the latest first. -/
def Hears (r : Stt.Rec F D) (vm : List F → List (List F) → List F) (b : Nat) (data : List UInt8) (ids : List Int) : Prop :=
  let signal := (Pcm.Spec.samples b data).map r.conv
  ∃ feats rows d0 d weight,
    (Fbank.Spec.frames signal).mapM (Fbank.Spec.row r.fb) = .ok feats ∧
    rows.length = Fbank.Spec.numFrames signal.length ∧
    (∀ t : Nat, t < rows.length → rows[t]? = some (List.zipWith (fun x y => r.nn.add x (r.nn.mul r.nn.negOne y))
      (Nnet.Spec.series r.nn vm r.am.layers (Nnet.Spec.edge feats) t) r.am.logPrior)) ∧
    Decoder.initDecoder r.dec r.fuel Decoder.fresh = .ok d0 ∧ Stt.decodeRows r rows d0 = .ok d ∧
    Decoder.bestPath r.dec (Decoder.endOfStream d) = .ok (ids, weight)

/-- A name that ends in `.wav`. -/
def IsWav (name : Str) : Prop := [46, 119, 97, 118] <:+ name

/-- A file of one channel, 16000 samples per second, `b` bytes per sample: the documented header of 44 bytes, and data. -/
def IsAudio (file : List UInt8) (b : Nat) (data : List UInt8) : Prop :=
  (b = 1 ∨ b = 2 ∨ b = 4) ∧ ∃ h, file = h ++ data ∧ Pcm.Spec.WavHeader h 1 16000 (8 * b)

/-- An audio file as above that says where its data ends: the last field of the header is the number of bytes of `chunk`
(in little-endian order); `rest` is what follows, for example a chunk with the name of the artist. -/
def HasChunk (file : List UInt8) (b : Nat) (chunk rest : List UInt8) : Prop :=
  (b = 1 ∨ b = 2 ∨ b = 4) ∧ ∃ h s0 s1 s2 s3, file = h ++ (chunk ++ rest) ∧ Pcm.Spec.WavHeader h 1 16000 (8 * b) ∧
    Pcm.Spec.field h 40 4 = [s0, s1, s2, s3] ∧
    s0.toNat + 256 * s1.toNat + 65536 * s2.toNat + 16777216 * s3.toNat = chunk.length

/-- A line `name file` of a script. -/
structure ScriptEntry where
  name : Str
  wav : Str
  eol : Str

/-- The line of an entry. -/
def ScriptEntry.line (e : ScriptEntry) : Str := e.name ++ [32] ++ e.wav

/-- Neither part has a blank, the file is a `.wav` file, and the line is one that can be read. -/
structure ScriptEntry.Ok (e : ScriptEntry) : Prop where
  name : 32 ∉ e.name
  wav : 32 ∉ e.wav
  isWav : IsWav e.wav
  good : GoodLine e.line e.eol

/-- A line that does not consist of two parts and a blank between them.  (A blank at the end does no harm.) -/
def NotTwoParts (l : Str) : Prop :=
  ∀ a b : Str, 32 ∉ a → 32 ∉ b → (b ≠ [] → l ≠ a ++ [32] ++ b) ∧ l ≠ a ++ [32] ++ b ++ [32]

end Verif.Main.Spec
