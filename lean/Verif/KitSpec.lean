import Verif.InitSpec
import Verif.AmConvModel
import Verif.AmConvFile
import Verif.ToolSpec

/-!
# What it means that a directory was made with the tools

The sources are what training leaves behind; the files of the directory are what the programs in `tool` make of them.
-/

namespace Verif.Kit

open Verif Verif.Text Verif.App.Spec Verif.Tool

/-- What training leaves behind: the decoding graph, the text of the acoustic model, the lines that `extract_id2pdf`
prints, the word list as bytes and as decoded lines, and perhaps a large language model with the ARPA file of the
original one; and the numbers written into the configuration. -/
structure Sources (G : Type) where
  graph : G
  am : Txt
  trans : List Txt
  words : List SymEntry
  vocab : List Txt
  lm : Option (Fst.Transducer UInt32 × List Txt)
  left : Nat
  right : Nat
  chunk : Nat
  numPdfs : Nat

/-- The files named by the configuration, other than the decoding graph, are what the tools make of the sources
(`convert_am.py`, `convert_trans.py`, `convert_fstfmt.py`, `convert_unigram.py`; the word list is taken as it is).
Anything may follow in the files. -/
structure Files {G H R R' : Type} (w : App.World G) (conf : Str) (defs : List (Str × Str)) (num : ANum R) (unum : Num R')
    (src : Sources H) : Prop where
  am : ∃ f f' nn pr junk junk', Names conf defs [110, 110, 101, 116] f ∧ Names conf defs [112, 114, 105, 111, 114] f' ∧
    convertAm num src.am = .ok (nn, pr) ∧ w.file f = some (nn ++ junk) ∧ w.file f' = some (pr ++ junk')
  left : Sets defs [108, 101, 102, 116, 95, 99, 111, 110, 116, 101, 120, 116] src.left
  right : Sets defs [114, 105, 103, 104, 116, 95, 99, 111, 110, 116, 101, 120, 116] src.right
  chunk : Sets defs [99, 104, 117, 110, 107, 95, 115, 105, 122, 101] src.chunk
  pdfs : Sets defs [110, 117, 109, 95, 112, 100, 102, 115] src.numPdfs
  trans : ∃ f bytes junk, Names conf defs [116, 105, 100, 50, 112, 100, 102] f ∧ convertTrans src.trans = .ok bytes ∧
    w.file f = some (bytes ++ junk)
  words : ∃ f, Names conf defs [115, 121, 109, 98, 111, 108, 95, 116, 97, 98, 108, 101] f ∧
    w.file f = some ((src.words.map (fun e => e.line ++ e.eol)).flatten)
  lm : match src.lm with
    | none => Undefined defs [108, 97, 114, 103, 101, 95, 108, 109]
    | some (g, arpa) =>
      (∃ f bytes junk, Names conf defs [108, 97, 114, 103, 101, 95, 108, 109] f ∧
        Fst.converterOutput g = .ok bytes ∧ w.file f = some (bytes ++ junk)) ∧
      (∃ f bytes junk, Names conf defs [111, 114, 105, 103, 105, 110, 97, 108, 95, 108, 109] f ∧
        convertUnigram unum arpa src.vocab = .ok bytes ∧ w.file f = some (bytes ++ junk))

/-- Moreover, the decoding graph is read from the file that the configuration names. -/
structure Made {G R R' : Type} (w : App.World G) (conf : Str) (defs : List (Str × Str)) (num : ANum R) (unum : Num R')
    (src : Sources G) : Prop where
  fst : ∃ f, Names conf defs [102, 115, 116] f ∧ w.readGraph f = some src.graph
  files : Files w conf defs num unum src

/-- The lines of the transition map: number of pdfs, highest transition id, and the pairs. -/
structure IsTrans (lines : List Txt) (n : Nat) (ps : List (Nat × Int)) : Prop where
  lines : ∃ a b rest, ∃ pdfs : Int, lines = a :: b :: rest ∧ Reads a [(toString pdfs).toList] ∧ Reads b [(toString n).toList] ∧
    IsMap rest ps
  fits : ∀ p ∈ ps, p.1 ≤ n ∧ InI32 p.2
  size : (n + 1) * 4 + 4 ≤ 2147483647

/-- The word list: the words with their ids; `enc` is the encoding of the text, in which different words are different.
Every word and every id occurs once, and both sentence symbols are there. -/
structure IsWords (enc : Txt → Str) (words : List SymEntry) (vocab : List Txt) (vs : List (Txt × Nat)) : Prop where
  entries : ∀ e ∈ words, e.Ok ∧ GoodLine e.line e.eol
  same : words.map (fun e => (e.word, e.id)) = vs.map (fun p => (enc p.1, p.2))
  lines : IsVocab vocab vs
  inj : ∀ a b, enc a = enc b → a = b
  words : (vs.map Prod.fst).Nodup
  ids : (vs.map Prod.snd).Nodup
  begins : "<s>".toList ∈ vs.map Prod.fst ∧ enc "<s>".toList = sentBegin
  ends : "</s>".toList ∈ vs.map Prod.fst ∧ enc "</s>".toList = sentEnd
  size : ∀ w i, (w, i) ∈ vs → i * 4 + 8 ≤ 2147483647

/-- The language models: the large one is one and fits its file; the words `us` of the original one are in the word list,
and their costs can be written. -/
structure IsLms {R' : Type} (unum : Num R') (vs : List (Txt × Nat)) (g : Fst.Transducer UInt32) (arpa : List Txt)
    (us : List (Txt × R')) : Prop where
  large : Fst.FitsFields g ∧ g.states ≠ [] ∧ Fst.arcCount g ≠ 0 ∧ Fst.IsLm g ∧ Fst.UnigramState g
  file : ∃ counts es tail, (Arpa1 counts es tail arpa ∨ ArpaN counts es arpa) ∧ Valued unum.parse es us
  known : ∀ w c, (w, c) ∈ us → w = "<unk>".toList ∨ w ∈ vs.map Prod.fst
  costs : unum.pack unum.inf ≠ none ∧ unum.pack (unum.cost unum.zero) ≠ none ∧
    ∀ w c, (w, c) ∈ us → unum.pack (unum.cost c) ≠ none

/-- The cost of a word: that of `<s>` is the cost of zero, that of a word of the language model the cost of its last
number, and infinity otherwise. -/
def IsCost {R' : Type} (unum : Num R') (us : List (Txt × R')) (w : Txt) (c : R') : Prop :=
  (w = "<s>".toList ∧ c = unum.cost unum.zero) ∨ (w ≠ "<s>".toList ∧ ∃ x, LastIs us w x ∧ c = unum.cost x) ∨
    (w ≠ "<s>".toList ∧ (∀ x, (w, x) ∉ us) ∧ c = unum.inf)

/-- The model in the files of the directory.  `ls` are the layers of the network of the text, with contexts `l` and `r`;
`ps` are the pairs of the transition map, `vs` the words with their ids, `us` the words of the language model. -/
structure ModelOf {G R R' : Type} (m : App.Spec.Model G) (src : Sources G) (num : ANum R) (unum : Num R')
    (ls : List (Nnet.Layer R)) (l r : Int) (priors : List R) (n : Nat) (ps : List (Nat × Int))
    (vs : List (Txt × Nat)) (us : List (Txt × R')) : Prop where
  graph : m.graph = src.graph
  netLeft : m.netLeft = l
  netRight : m.netRight = r
  layers : List.Forall₂ (Rounds num) ls m.layers
  prior : List.Forall₂ (IsWord32 num) priors m.prior
  left : m.left = src.left
  right : m.right = src.right
  chunk : m.chunk = src.chunk
  pdfs : m.numPdfs = src.numPdfs
  size : m.map.length = n + 1
  map : ∀ i x, LastIs ps i x → m.map[i]? = some x
  unmapped : ∀ i : Nat, i ≤ n → (∀ x, (i, x) ∉ ps) → m.map[i]? = some 0
  symbols : m.symbols = src.words
  lm : match src.lm with
    | none => m.lm = none
    | some (g, _) => ∃ u, m.lm = some (u, g) ∧ ∀ wd i, (wd, i) ∈ vs → ∃ c b, IsCost unum us wd c ∧ unum.pack c = some b ∧
        u[i]? = some b.toNat

/-- What the recogniser holds then.  `net` is the network of the text, with layers `ls` and contexts `l` and `r`; `ps` are
the pairs of the transition map, `vs` the words with their ids, `us` the words of the language model.

* The graph is the one that was read.
* The network has these contexts and layers, every number being the `float` Python writes for it; the priors are the
  logarithms of the priors of the text; the numbers of the configuration are as written.
* Every transition id has the pdf of its last line.
* Every word has its id and every id its word; the sentence symbols are known.
* If there is a language model, the table of unigram costs has at the id of every word the cost of this word, and the
  large language model is the given one. -/
structure Loaded {G R R' : Type} (w : App.World G) (s : App.Self G) (src : Sources G) (num : ANum R) (unum : Num R')
    (enc : Txt → Str) (ls : List (Nnet.Layer R)) (l r : Int) (priors : List R) (n : Nat) (ps : List (Nat × Int))
    (vs : List (Txt × Nat)) (us : List (Txt × R')) : Prop where
  fst : ∃ a, s.fst = some (a, src.graph)
  am : ∃ a ls' p map, s.am = some (a, some ⟨⟨l, r, ls'.map Ser.Spec.full⟩, p.map w.log, src.left, src.right, src.chunk,
      src.numPdfs, map⟩) ∧ List.Forall₂ (Rounds num) ls ls' ∧ List.Forall₂ (IsWord32 num) priors p ∧
    map.length = n + 1 ∧ (∀ i x, LastIs ps i x → map[i]? = some x) ∧ ∀ i : Nat, i ≤ n → (∀ x, (i, x) ∉ ps) → map[i]? = some 0
  symbols : ∃ a t, s.symbols = some (a, some t) ∧ (∀ wd i, (wd, i) ∈ vs → t.getId (enc wd) = i ∧ t.get i = .ok (cstr (enc wd))) ∧
    ("<s>".toList, t.bos.toNat) ∈ vs ∧ ("</s>".toList, t.eos.toNat) ∈ vs ∧ 0 ≤ t.bos ∧ 0 ≤ t.eos
  lm : match src.lm with
    | none => s.large = none ∧ s.original = none ∧ s.delta = none
    | some (g, _) => (∃ a m, s.large = some (a, some m) ∧ IsLmOf m g) ∧
      (∃ a u, s.original = some (a, some u) ∧ ∀ wd i, (wd, i) ∈ vs → ∃ c b, IsCost unum us wd c ∧ unum.pack c = some b ∧
        u[i]? = some b.toNat) ∧
      ∃ a e, s.delta = some (a, e) ∧ ("<s>".toList, e.1.toNat) ∈ vs ∧ ("</s>".toList, e.2.toNat) ∈ vs

end Verif.Kit
