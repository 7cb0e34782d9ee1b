import Verif.KitSpec
import Verif.MainSpec
import Verif.HclgSpec
import Verif.HclgRead

/-!
# What it means that a recogniser was made from what training leaves behind

Here the decoding graph is a file like the others.
-/

namespace Verif.Disk.Spec

open Verif Verif.Text Verif.App.Spec Verif.Tool Verif.Kit Verif.Main Verif.Main.Spec

variable {F D R R' : Type}

/-- Graphs are read from files: whenever reading the bytes of a file has a result, this is what `ConstFst::Read` of the
file gives.  Nothing is said about files whose reading is undefined. -/
def OnDisk (w : App.World Hclg.ConstFst) : Prop :=
  ∀ f bytes x, w.file f = some bytes → Hclg.read bytes = .ok x → w.readGraph f = x

/-- The decoder looks into the graph: whenever a lookup is defined, it sees its result, the weights being the `float`s with
these bits. -/
structure Looks (mach : Machine Hclg.ConstFst F D) : Prop where
  start : ∀ f, (mach.graph f).start = f.start
  arcs : ∀ f s as, Hclg.arcsAt f s = .ok as →
    (mach.graph f).arcs s = as.map fun a => ⟨a.ilabel, a.olabel, mach.word (some a.weight), a.next⟩
  final : ∀ f s x, Hclg.finalAt f s = .ok x → (mach.graph f).final s = mach.word (some x)

/-- The directory: the decoding graph is a file that OpenFst writes for it, in any of its forms; the other files are those
of the tools. -/
structure Built (w : App.World Hclg.ConstFst) (conf : Str) (defs : List (Str × Str)) (num : ANum R) (unum : Num R')
    (src : Sources Hclg.Source) : Prop where
  fst : ∃ f align properties i o rest, Names conf defs [102, 115, 116] f ∧ properties < 18446744073709551616 ∧
    (∀ t, i = some t → Hclg.Spec.TableFits t) ∧ (∀ t, o = some t → Hclg.Spec.TableFits t) ∧
    w.file f = some (Hclg.write align properties i o src.graph ++ rest)
  fits : Hclg.Spec.Fits src.graph
  closed : Hclg.Spec.Closed src.graph
  files : Files w conf defs num unum src

/-- Which networks the program can use: for features of dimension 40, with the contexts of the configuration and one prior
per output; sizes fit.  Of the machine: the matrix product of the network works row by row, the tables of the feature
extraction have the right sizes, its FFT uses its buffer as scratch space only. -/
structure Sized (mach : Machine Hclg.ConstFst F D) (src : Sources Hclg.Source) (ls : List (Nnet.Layer R)) (priors : List R)
    (vm : List F → List (List F) → List F) (e wd : Nat) : Prop where
  rows : Nnet.Spec.RowWise mach.nn vm
  net : Nnet.Spec.Built ls 40 e src.left src.right wd
  prior : priors.length = e
  chunk : 1 ≤ src.chunk
  size : (src.chunk + src.left + src.right + src.right) * wd ≤ 2147483647
  big : src.chunk + src.left + src.right + src.right ≤ 1073741823
  tables : Fbank.Spec.Tables mach.fb
  scratch : Fbank.Spec.ScratchOnly mach.fb

/-- The recogniser of what training left behind.

* The network has the layers `ls` of the text, every number being the `float` that Python writes for it; the logarithms of
  the priors are subtracted.
* The decoding graph has the start state, the arcs and the final weights of the graph that was written; it is the one that
  the machine sees in the bytes of the file.
* Every transition id has the pdf of its last line.
* The language model, if there is one, is the large one, from which the costs that the ARPA file gives the words are
  subtracted.
* Every id of the word list has its word. -/
structure Trained (mach : Machine Hclg.ConstFst F D) (w : App.World Hclg.ConstFst) (src : Sources Hclg.Source) (num : ANum R)
    (unum : Num R') (enc : Txt → Str) (ls : List (Nnet.Layer R)) (priors : List R) (n : Nat) (ps : List (Nat × Int))
    (vs : List (Txt × Nat)) (us : List (Txt × R')) (r : Stt.Rec F D) : Prop where
  conv : r.conv = mach.conv
  fb : r.fb = mach.fb
  nn : r.nn = mach.nn
  layers : ∃ ls', List.Forall₂ (Rounds num) ls ls' ∧ r.am.layers = ls'.map (valueLayer fun x => mach.word (some x))
  prior : ∃ p, List.Forall₂ (IsWord32 num) priors p ∧ r.am.logPrior = p.map fun x => mach.word (some (w.log x))
  left : r.am.left = src.left
  right : r.am.right = src.right
  chunk : r.am.chunk = src.chunk
  ar : r.dec.ar = mach.ar
  amScale : r.dec.amScale = mach.amScale
  start : r.dec.g.start = src.graph.start
  state : ∀ (i : Nat) x as, src.graph.states[i]? = some (x, as) → r.dec.g.final i = mach.word (some x) ∧
    r.dec.g.arcs i = as.map fun a => ⟨a.ilabel, a.olabel, mach.word (some a.weight), a.next⟩
  image : r.dec.g = mach.graph src.graph.image
  size : r.dec.pdf.length = n + 1
  pdf : ∀ i x, LastIs ps i x → r.dec.pdf[i]? = some x
  unmapped : ∀ i : Nat, i ≤ n → (∀ x, (i, x) ∉ ps) → r.dec.pdf[i]? = some 0
  lm : match src.lm with
    | none => r.dec.lm = none
    | some (g, _) => ∃ (u : List Nat) (lm : Fst.IFst F) (bos eos : Nat), r.dec.lm = some lm ∧
      ("<s>".toList, bos) ∈ vs ∧ ("</s>".toList, eos) ∈ vs ∧
      Answers mach.lm (u.map fun x => mach.word (some x)) (valueFst (fun x => mach.word (some x.toNat)) g) bos eos
        mach.lmFuel lm ∧
      ∀ wd i, (wd, i) ∈ vs → ∃ c b, IsCost unum us wd c ∧ unum.pack c = some b ∧ u[i]? = some b.toNat
  words : ∀ wd i, (wd, i) ∈ vs → ∀ word, word? r.syms i = some word ↔ word = enc wd

end Verif.Disk.Spec
