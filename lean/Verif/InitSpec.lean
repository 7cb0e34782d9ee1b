import Verif.InitModel
import Verif.ConfigProps
import Verif.SerSpec
import Verif.FstSpec

/-!
# What it means that a model is installed, and that it is loaded

A configuration names files; the files hold what the converters write.
-/

namespace Verif.App.Spec

open Verif Verif.Text

/-- The last definition of the key, in any letter case, has the value `v`. -/
def Defines (defs : List (Str × Str)) (key v : Str) : Prop :=
  ∃ pre k post, defs = pre ++ (k, v) :: post ∧ SameKey k key ∧ ∀ p ∈ post, ¬ SameKey p.1 key

/-- The key is not defined. -/
def Undefined (defs : List (Str × Str)) (key : Str) : Prop := ∀ p ∈ defs, ¬ SameKey p.1 key

/-- Which file a value stands for: an absolute name is taken as it is, any other is relative to the directory of the
configuration file. -/
inductive Resolves (conf : Str) : Str → Str → Prop
  | absolute {v : Str} : v.head? = some 47 → Resolves conf v v
  | here {v : Str} : v.head? ≠ some 47 → 47 ∉ conf → Resolves conf v v
  | beside {v dir base : Str} : v.head? ≠ some 47 → conf = dir ++ [47] ++ base → 47 ∉ base →
      Resolves conf v (dir ++ [47] ++ v)

/-- The one value that cannot be used, see C38: `~_$$NOT_Ext_Val$$>-^-<@@_`. -/
def reserved : Str :=
  [126, 95, 36, 36, 78, 79, 84, 95, 69, 120, 116, 95, 86, 97, 108, 36, 36, 62, 45, 94, 45, 60, 64, 64, 95]

/-- The configuration names the file under the key. -/
def Names (conf : Str) (defs : List (Str × Str)) (key file : Str) : Prop :=
  ∃ v, Defines defs key v ∧ v ≠ reserved ∧ Resolves conf v file

/-- The configuration gives the key a number. -/
def Sets (defs : List (Str × Str)) (key : Str) (n : Nat) : Prop :=
  ∃ v, Defines defs key v ∧ Decimal v n ∧ n < 2147483648

/-- A configuration file: its entries, a last line that may lack its newline, and the definitions in it. -/
structure IsConf (bytes : Str) (defs : List (Str × Str)) : Prop where
  lines : ∃ (es : List ConfEntry) (tail : Str) (tailMean : Option (Str × Str)),
    bytes = (es.map (fun e => e.line ++ e.eol)).flatten ++ tail ∧ (∀ e ∈ es, e.Good) ∧ GoodTail tail ∧
    ConfLine tail tailMean ∧ defs = es.filterMap ConfEntry.mean ++ tailMean.toList

/-- A model as people and converters make it. -/
structure Model (G : Type) where
  graph : G
  netLeft : Int
  netRight : Int
  layers : List (Nnet.Layer Nat)
  prior : List Nat
  left : Nat
  right : Nat
  chunk : Nat
  numPdfs : Nat
  map : List Int
  symbols : List SymEntry
  lm : Option (List Nat × Fst.Transducer UInt32)

/-- The numbers of a vector of `int32_t`, as written by `tool/convert_trans.py`. -/
def intWords (v : List Int) : List Nat := v.map fun x => (x % 4294967296).toNat

/-- The files of the model are where the configuration says.  `junk` is whatever follows in a file. -/
structure Installed {G : Type} (w : World G) (conf : Str) (defs : List (Str × Str)) (m : Model G) : Prop where
  fst : ∃ f, Names conf defs [102, 115, 116] f ∧ w.readGraph f = some m.graph
  nnet : ∃ f junk, Names conf defs [110, 110, 101, 116] f ∧
    w.file f = some (Ser.writeNnet m.netLeft m.netRight m.layers ++ junk)
  prior : ∃ f junk, Names conf defs [112, 114, 105, 111, 114] f ∧ w.file f = some (Ser.writeVec m.prior ++ junk)
  left : Sets defs [108, 101, 102, 116, 95, 99, 111, 110, 116, 101, 120, 116] m.left
  right : Sets defs [114, 105, 103, 104, 116, 95, 99, 111, 110, 116, 101, 120, 116] m.right
  chunk : Sets defs [99, 104, 117, 110, 107, 95, 115, 105, 122, 101] m.chunk
  pdfs : Sets defs [110, 117, 109, 95, 112, 100, 102, 115] m.numPdfs
  map : ∃ f junk, Names conf defs [116, 105, 100, 50, 112, 100, 102] f ∧
    w.file f = some (Ser.writeVec (intWords m.map) ++ junk)
  symbols : ∃ f, Names conf defs [115, 121, 109, 98, 111, 108, 95, 116, 97, 98, 108, 101] f ∧
    w.file f = some ((m.symbols.map (fun e => e.line ++ e.eol)).flatten)
  lm : match m.lm with
    | none => Undefined defs [108, 97, 114, 103, 101, 95, 108, 109]
    | some (u, t) =>
      (∃ f junk bytes, Names conf defs [108, 97, 114, 103, 101, 95, 108, 109] f ∧
        Fst.converterOutput t = .ok bytes ∧ w.file f = some (bytes ++ junk)) ∧
      (∃ f junk, Names conf defs [111, 114, 105, 103, 105, 110, 97, 108, 95, 108, 109] f ∧
        w.file f = some (Ser.writeVec u ++ junk))

/-- The model can be written to files and makes sense: sizes fit, priors are not negative, the sentence symbols are
there, and the large language model is one. -/
structure Model.Ok {G : Type} (w : World G) (m : Model G) : Prop where
  netLeft : InI32 m.netLeft
  netRight : InI32 m.netRight
  layers : m.layers.length ≤ 2147483647
  layer : ∀ l ∈ m.layers, Ser.Spec.LayerOk l
  prior : Ser.Spec.VecOk m.prior
  nonneg : ∀ x ∈ m.prior, w.nonneg x = true
  map : m.map ≠ [] ∧ m.map.length * 4 + 4 ≤ 2147483647 ∧ ∀ x ∈ m.map, InI32 x
  symbols : ∀ e ∈ m.symbols, e.Ok ∧ GoodLine e.line e.eol
  sents : sentBegin ∈ m.symbols.map SymEntry.word ∧ sentEnd ∈ m.symbols.map SymEntry.word
  lm : ∀ u t, m.lm = some (u, t) → Ser.Spec.VecOk u ∧ Fst.FitsFields t ∧ t.states ≠ [] ∧ Fst.arcCount t ≠ 0 ∧
    Fst.IsLm t ∧ Fst.UnigramState t

/-- The large language model in memory is the given one: start state, final weights, arcs by label, and the table of the
unigram state changes no answer; the arrays are those the converter wrote, and the table is made from them. -/
structure IsLmOf (l : Lm) (t : Fst.Transducer UInt32) : Prop where
  start : l.fst.start = t.start
  states : l.fst.finals.length = t.states.length
  state : ∀ (s : Nat) x as, t.states[s]? = some (x, as) →
    Fst.final l.fst s = .ok x ∧ ∃ out, Fst.iterArcs l.fst s = .ok out ∧ Fst.ByLabel as out
  table : ∀ (o : Fst.FloatOps UInt32) (fuel : Nat) (s x : Int),
    Fst.lmGetArc o l.fst l.bucket fuel s x = Fst.lmGetArc o l.fst [] fuel s x
  data : Fst.convert t = .ok l.fst
  bucket : Fst.initBucket0 l.fst = .ok l.bucket

/-- The recogniser in memory holds the model. -/
structure Holds {G : Type} (w : World G) (s : Self G) (m : Model G) : Prop where
  fst : ∃ a, s.fst = some (a, m.graph)
  am : ∃ a, s.am = some (a, some ⟨⟨m.netLeft, m.netRight, m.layers.map Ser.Spec.full⟩, m.prior.map w.log, m.left,
    m.right, m.chunk, m.numPdfs, m.map⟩)
  symbols : ∃ a t, s.symbols = some (a, some t) ∧ Consistent t (m.symbols.map fun e => (e.word, (e.id : Int))) ∧
    t.bos = t.getId sentBegin ∧ t.eos = t.getId sentEnd ∧
    (∀ b e, s.delta = some (b, e) → e = (t.bos, t.eos))
  lm : match m.lm with
    | none => s.large = none ∧ s.original = none ∧ s.delta = none
    | some (u, t) => (∃ a l, s.large = some (a, some l) ∧ IsLmOf l t) ∧ (∃ a, s.original = some (a, some u)) ∧
      ∃ a e, s.delta = some (a, e)
  fbank : ∃ a, s.fbank = some a

/-! ## When something is missing -/

/-- The key is not defined, or names a file that, if it exists, has a valid content. -/
def Part {G : Type} (w : World G) (conf : Str) (defs : List (Str × Str)) (key : Str) (valid : List UInt8 → Prop) : Prop :=
  Undefined defs key ∨ ∃ f, Names conf defs key f ∧ ∀ bs, w.file f = some bs → valid bs

/-- A network file. -/
def ValidNnet (bs : List UInt8) : Prop :=
  ∃ left right layers junk, InI32 left ∧ InI32 right ∧ layers.length ≤ 2147483647 ∧
    (∀ l ∈ layers, Ser.Spec.LayerOk l) ∧ bs = Ser.writeNnet left right layers ++ junk

/-- A vector file whose elements satisfy `P`. -/
def ValidVec (P : Nat → Prop) (bs : List UInt8) : Prop :=
  ∃ v junk, Ser.Spec.VecOk v ∧ (∀ x ∈ v, P x) ∧ bs = Ser.writeVec v ++ junk

/-- A symbol file. -/
def ValidSymbols (bs : List UInt8) : Prop :=
  ∃ es : List SymEntry, (∀ e ∈ es, e.Ok ∧ GoodLine e.line e.eol) ∧ sentBegin ∈ es.map SymEntry.word ∧
    sentEnd ∈ es.map SymEntry.word ∧ bs = (es.map (fun e => e.line ++ e.eol)).flatten

/-- The file of a large language model. -/
def ValidLm (bs : List UInt8) : Prop :=
  ∃ t bytes junk, Fst.FitsFields t ∧ t.states ≠ [] ∧ Fst.arcCount t ≠ 0 ∧ Fst.IsLm t ∧ Fst.UnigramState t ∧
    Fst.converterOutput t = .ok bytes ∧ bs = bytes ++ junk

/-- Everything that is there is well formed: files are what the converters write, numbers are numbers. -/
structure Sound {G : Type} (w : World G) (conf : Str) (defs : List (Str × Str)) : Prop where
  fst : Undefined defs [102, 115, 116] ∨ ∃ f, Names conf defs [102, 115, 116] f
  nnet : Part w conf defs [110, 110, 101, 116] ValidNnet
  prior : Part w conf defs [112, 114, 105, 111, 114] (ValidVec fun x => w.nonneg x = true)
  number : ∀ key ∈ [[108, 101, 102, 116, 95, 99, 111, 110, 116, 101, 120, 116],
      [114, 105, 103, 104, 116, 95, 99, 111, 110, 116, 101, 120, 116], [99, 104, 117, 110, 107, 95, 115, 105, 122, 101],
      [110, 117, 109, 95, 112, 100, 102, 115]], Undefined defs key ∨ ∃ n, Sets defs key n
  map : Part w conf defs [116, 105, 100, 50, 112, 100, 102] (ValidVec fun _ => True)
  symbols : Part w conf defs [115, 121, 109, 98, 111, 108, 95, 116, 97, 98, 108, 101] ValidSymbols
  large : Part w conf defs [108, 97, 114, 103, 101, 95, 108, 109] ValidLm
  original : Part w conf defs [111, 114, 105, 103, 105, 110, 97, 108, 95, 108, 109] (ValidVec fun _ => True)

/-- Something needed is missing; the code is that of the report: a key that is not there makes the configuration
corrupt, a file that is not there is an input/output error.  `fst`, `nnet`, `prior`, `left_context`, `right_context`,
`chunk_size`, `num_pdfs`, `tid2pdf` and `symbol_table` are always needed, `original_lm` with `large_lm`. -/
inductive Missing {G : Type} (w : World G) (conf : Str) (defs : List (Str × Str)) : Code → Prop
  | key (k : Str) : k ∈ [[102, 115, 116], [110, 110, 101, 116], [112, 114, 105, 111, 114],
      [108, 101, 102, 116, 95, 99, 111, 110, 116, 101, 120, 116],
      [114, 105, 103, 104, 116, 95, 99, 111, 110, 116, 101, 120, 116], [99, 104, 117, 110, 107, 95, 115, 105, 122, 101],
      [110, 117, 109, 95, 112, 100, 102, 115], [116, 105, 100, 50, 112, 100, 102],
      [115, 121, 109, 98, 111, 108, 95, 116, 97, 98, 108, 101]] → Undefined defs k → Missing w conf defs .corruption
  | graph (f : Str) : Names conf defs [102, 115, 116] f → w.readGraph f = none → Missing w conf defs .io
  | file (k f : Str) : k ∈ [[110, 110, 101, 116], [112, 114, 105, 111, 114], [116, 105, 100, 50, 112, 100, 102],
      [115, 121, 109, 98, 111, 108, 95, 116, 97, 98, 108, 101]] → Names conf defs k f → w.file f = none →
      Missing w conf defs .io
  | originalKey : ¬ Undefined defs [108, 97, 114, 103, 101, 95, 108, 109] →
      Undefined defs [111, 114, 105, 103, 105, 110, 97, 108, 95, 108, 109] → Missing w conf defs .corruption
  | originalFile (f : Str) : ¬ Undefined defs [108, 97, 114, 103, 101, 95, 108, 109] →
      Names conf defs [111, 114, 105, 103, 105, 110, 97, 108, 95, 108, 109] f → w.file f = none →
      Missing w conf defs .io
  | largeFile (f : Str) : Names conf defs [108, 97, 114, 103, 101, 95, 108, 109] f → w.file f = none →
      Missing w conf defs .io

end Verif.App.Spec
