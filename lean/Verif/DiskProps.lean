import Verif.DiskSpec
import Verif.KitProps
import Verif.MainProps
import Verif.BeamMainProps
import Verif.HclgProps

/-!
# C97: from what training leaves behind, and an audio file, to a line of text
-/

namespace Verif.Disk

open Verif Verif.Text Verif.App.Spec Verif.Tool Verif.Kit Verif.Main Verif.Main.Spec Verif.Disk.Spec
open Verif.Decoder Verif.Decoder.Beam

variable {F D R R' : Type}

/-- The graph that is in memory. -/
def inMemory (src : Sources Hclg.Source) : Sources Hclg.ConstFst :=
  ⟨src.graph.image, src.am, src.trans, src.words, src.vocab, src.lm, src.left, src.right, src.chunk, src.numPdfs⟩

theorem made_of_built {w : App.World Hclg.ConstFst} {conf : Str} {defs : List (Str × Str)} {num : ANum R} {unum : Num R'}
    {src : Sources Hclg.Source} (hd : OnDisk w) (hb : Built w conf defs num unum src) :
    Made w conf defs num unum (inMemory src) := by
  obtain ⟨⟨f, align, properties, i, o, rest, h1, h2, h3, h4, h5⟩, hf, -, ⟨f1, f2, f3, f4, f5, f6, f7, f8⟩⟩ := hb
  refine ⟨⟨f, h1, hd _ _ _ h5 ?_⟩, f1, f2, f3, f4, f5, f6, f7, f8⟩
  exact Hclg.read_of_impl (Hclg.impl_write hf align h2 h3 h4 rest)

theorem rows_size {num : ANum R} {W : List (List R)} {W' : List (List Nat)}
    (h : List.Forall₂ (List.Forall₂ (IsWord32 num)) W W') {e : Nat} (hW : ∀ x ∈ W, x.length = e) : ∀ x ∈ W', x.length = e := by
  induction h with
  | nil => exact fun x hx => by cases hx
  | cons h1 _ ih =>
    intro x hx
    rcases List.mem_cons.mp hx with rfl | hx
    · rw [← h1.length_eq]; exact hW _ (.head _)
    · exact ih (fun y hy => hW y (.tail _ hy)) x hx

theorem pointwise_value {num : ANum R} (g : Nat → F) {k : Nnet.Layer R} {k' : Nnet.Layer Nat} (h : Rounds num k k') {d e : Nat}
    (hp : Nnet.Spec.Pointwise k d e) : Nnet.Spec.Pointwise (valueLayer g k') d e := by
  cases hp with
  | linear h0 h1 h2 h3 =>
    cases k' <;> try exact h.elim
    obtain ⟨hW, hb⟩ := h
    refine .linear ?_ ?_ ?_ ?_
    · intro e
      rw [List.map_eq_nil_iff] at e
      subst e
      exact h0 (List.forall₂_nil_right_iff.mp hW)
    · rw [List.length_map, ← hW.length_eq, h1]
    · intro y hy
      obtain ⟨x, hx, rfl⟩ := List.mem_map.mp hy
      rw [List.length_map]
      exact rows_size hW h2 x hx
    · rw [List.length_map, ← hb.length_eq, h3]
  | relu => cases k' <;> first | exact h.elim | exact .relu
  | normalize => cases k' <;> first | exact h.elim | exact .normalize
  | softmax => cases k' <;> first | exact h.elim | exact .softmax
  | logSoftmax => cases k' <;> first | exact h.elim | exact .logSoftmax
  | batchNorm h1 h2 =>
    cases k' <;> try exact h.elim
    exact .batchNorm (by rw [List.length_map, ← h.1.length_eq, h1]) (by rw [List.length_map, ← h.2.length_eq, h2])

theorem built_value {num : ANum R} (g : Nat → F) {ls : List (Nnet.Layer R)} {d e L M w : Nat}
    (h : Nnet.Spec.Built ls d e L M w) : ∀ {ls' : List (Nnet.Layer Nat)}, List.Forall₂ (Rounds num) ls ls' →
      Nnet.Spec.Built (ls'.map (valueLayer g)) d e L M w := by
  induction h with
  | nil h1 h2 =>
    intro ls' hr
    cases hr
    exact .nil h1 h2
  | row h1 h2 hp _ ih =>
    intro ls' hr
    cases hr with
    | cons ha hb => exact .row h1 h2 (pointwise_value g ha hp) (ih hb)
  | context h1 h2 h0 hl hr hl' hr' _ ih =>
    intro ls' hf
    cases hf with
    | @cons _ k _ ks ha hb =>
      cases hb with
      | @cons _ j _ js hc hb =>
        cases k <;> try exact ha.elim
        cases j <;> try exact hc.elim
        obtain rfl := ha
        obtain ⟨rfl, rfl⟩ := hc
        exact .context h1 h2 h0 hl hr hl' hr' (ih hb)

theorem fits_of {mach : Machine Hclg.ConstFst F D} {src : Sources Hclg.Source} {num : ANum R} {unum : Num R'}
    {ls : List (Nnet.Layer R)} {l r : Int} {priors : List R} {n : Nat} {ps : List (Nat × Int)} {vs : List (Txt × Nat)}
    {us : List (Txt × R')} {vm : List F → List (List F) → List F} {e wd : Nat} (h : Sized mach src ls priors vm e wd)
    {M : App.Spec.Model Hclg.ConstFst} (q : ModelOf M (inMemory src) num unum ls l r priors n ps vs us) :
    Fits mach M vm e wd where
  rows := h.rows
  net := by
    rw [q.left, q.right]
    exact built_value _ h.net q.layers
  prior := by rw [← q.prior.length_eq, h.prior]
  chunk := by rw [q.chunk]; exact h.chunk
  size := by rw [q.chunk, q.left, q.right]; exact h.size
  big := by rw [q.chunk, q.left, q.right]; exact h.big
  tables := h.tables
  scratch := h.scratch

theorem last_eq {α β : Type} {ps : List (α × β)} {k : α} {v v' : β} (h : IsLast ps k v) (h' : IsLast ps k v')
    (hn : (ps.map Prod.fst).Nodup) : v = v' := by
  obtain ⟨a, b, rfl, -⟩ := h
  obtain ⟨a', b', e, -⟩ := h'
  exact congrArg Prod.snd (nodup_of_map hn (k, v) (by simp) (k, v') (by rw [e]; simp) rfl)

/-- How the ids of the word list are spelled. -/
theorem spells_iff {enc : Txt → Str} {words : List SymEntry} {vocab : List Txt} {vs : List (Txt × Nat)}
    (h : IsWords enc words vocab vs) {wd : Txt} {i : Nat} (hm : (wd, i) ∈ vs) (word : Str) :
    Spells words i word ↔ word = enc wd := by
  have he : words.map (fun e => ((e.id : Int), e.word)) = vs.map (fun p => ((p.2 : Int), enc p.1)) := by
    have := congrArg (List.map fun p : Str × Nat => ((p.2 : Int), p.1)) h.same
    rw [List.map_map, List.map_map] at this
    exact this
  have hn : ((vs.map (fun p => ((p.2 : Int), enc p.1))).map Prod.fst).Nodup := by
    rw [List.map_map]
    have := nodup_map_inj (f := fun n : Nat => (n : Int)) (fun a b e => by omega) h.ids
    rw [List.map_map] at this
    exact this
  have h2 : IsLast (vs.map (fun p => ((p.2 : Int), enc p.1))) (i : Int) (enc wd) :=
    isLast_of_nodup hn (List.mem_map.mpr ⟨_, hm, rfl⟩)
  unfold Spells
  rw [he]
  constructor
  · rintro (hl | ⟨-, -, ha, -⟩)
    · exact last_eq hl h2 hn
    · exfalso
      have : ((i : Int), enc wd) ∈ words.map (fun e => ((e.id : Int), e.word)) := by
        rw [he]; exact List.mem_map.mpr ⟨_, hm, rfl⟩
      obtain ⟨e, h3, h4⟩ := List.mem_map.mp this
      exact ha e h3 (congrArg Prod.fst h4)
  · rintro rfl
    exact .inl h2

/-- The sentence symbols. -/
theorem sent_mem {enc : Txt → Str} {words : List SymEntry} {vocab : List Txt} {vs : List (Txt × Nat)}
    (h : IsWords enc words vocab vs) {wd : Txt} {id : Int}
    (hl : IsLast (words.map fun e => (e.word, (e.id : Int))) (enc wd) id) : ∃ n : Nat, id = n ∧ (wd, n) ∈ vs := by
  rw [pairs_eq h.same] at hl
  obtain ⟨a, b, e, -⟩ := hl
  have : (enc wd, id) ∈ vs.map (fun p => (enc p.1, (p.2 : Int))) := by rw [e]; simp
  obtain ⟨⟨w, n⟩, h1, h2⟩ := List.mem_map.mp this
  obtain ⟨h3, rfl⟩ := Prod.mk.inj h2
  obtain rfl := h.inj _ _ h3
  exact ⟨n, rfl, h1⟩

theorem trained_of {mach : Machine Hclg.ConstFst F D} {w : App.World Hclg.ConstFst} {src : Sources Hclg.Source}
    {num : ANum R} {unum : Num R'} {enc : Txt → Str} {ls : List (Nnet.Layer R)} {l r : Int} {priors : List R} {n : Nat}
    {ps : List (Nat × Int)} {vs : List (Txt × Nat)} {us : List (Txt × R')} (hl : Looks mach)
    (hg : Hclg.Spec.Fits src.graph) (hw : IsWords enc src.words src.vocab vs) {M : App.Spec.Model Hclg.ConstFst}
    (q : ModelOf M (inMemory src) num unum ls l r priors n ps vs us) {rec : Stt.Rec F D} (hr : IsRec mach w M rec) :
    Trained mach w src num unum enc ls priors n ps vs us rec where
  conv := hr.conv
  fb := hr.fb
  nn := hr.nn
  layers := ⟨M.layers, q.layers, hr.layers⟩
  prior := ⟨M.prior, q.prior, hr.prior⟩
  left := by rw [hr.left, q.left]; rfl
  right := by rw [hr.right, q.right]; rfl
  chunk := by rw [hr.chunk, q.chunk]; rfl
  ar := hr.ar
  amScale := hr.amScale
  start := by rw [hr.graph, q.graph, hl.start]; rfl
  state i x as h := by
    rw [hr.graph, q.graph]
    exact ⟨hl.final _ _ _ (Hclg.finalAt_image hg h), hl.arcs _ _ _ (Hclg.arcsAt_image hg h)⟩
  image := by rw [hr.graph, q.graph]; rfl
  size := by rw [hr.pdf, q.size]
  pdf i x h := by rw [hr.pdf]; exact q.map i x h
  unmapped i h1 h2 := by rw [hr.pdf]; exact q.unmapped i h1 h2
  lm := by
    have h1 := q.lm
    have h2 := hr.lm
    rw [show (inMemory src).lm = src.lm from rfl] at h1
    cases hs : src.lm with
    | none =>
      simp only [hs] at h1 ⊢
      simp only [h1] at h2
      exact h2
    | some p =>
      obtain ⟨g, arpa⟩ := p
      simp only [hs] at h1 ⊢
      obtain ⟨u, hu, h3⟩ := h1
      simp only [hu] at h2
      obtain ⟨lm, bos, eos, k1, k2, k3, k4⟩ := h2
      rw [q.symbols] at k3 k4
      rw [← hw.begins.2] at k3
      rw [← hw.ends.2] at k4
      obtain ⟨b, rfl, b2⟩ := sent_mem hw k3
      obtain ⟨e, rfl, e2⟩ := sent_mem hw k4
      exact ⟨u, lm, b, e, k1, b2, e2, k2, h3⟩
  words wd i h word := by
    rw [hr.words, q.symbols]
    exact spells_iff hw h word

/-- **C97.**  Training leaves behind a decoding graph, the text of an acoustic model, a transition map, a word list and
perhaps language models.  The graph is written by OpenFst, everything else goes through the tools, and a configuration names
the files; the second argument of the program names an audio file of one channel, 16 kHz and 8, 16 or 32 bits.  If the
program runs to its end, it has written one line, and nothing else: the words that recognition of the whole signal yields
with the recogniser of what training left behind, as the word list spells them, with single blanks between them. -/
theorem C97_line (mach : Machine Hclg.ConstFst F D) (w : App.World Hclg.ConstFst) (conf bytes : Str)
    (defs : List (Str × Str)) {num : ANum R} {unum : Num R'} {src : Sources Hclg.Source} {val : Txt → R}
    {net : Kaldi.Net Txt} {e : Nat} {ls : List (Nnet.Layer R)} {l r : Int} {n : Nat} {ps : List (Nat × Int)}
    {enc : Txt → Str} {vs : List (Txt × Nat)} {us : List (Txt × R')} (hd : OnDisk w) (hl : Looks mach)
    (hf : w.file conf = some bytes) (hc : IsConf bytes defs) (hb : Built w conf defs num unum src)
    (ham : Convertible num val net src.am 40 e ls l r)
    (hpos : ∀ x ∈ net.prior, ∀ b, num.pack (val x) = some b → w.nonneg b.toNat = true)
    (htr : IsTrans src.trans n ps) (hw : IsWords enc src.words src.vocab vs)
    (hlm : ∀ g arpa, src.lm = some (g, arpa) → IsLms unum vs g arpa us)
    (vm : List F → List (List F) → List F) (wd : Nat) (hsz : Sized mach src ls (net.prior.map val) vm e wd)
    (input : Str) (hi : IsWav input) (file data : List UInt8) (b : Nat) (hfile : w.file input = some file)
    (ha : IsAudio file b data) :
    ∃ rec, Trained mach w src num unum enc ls (net.prior.map val) n ps vs us rec ∧
      ∀ (junk : Nat → Junk F) (out : List Out), main mach w junk [conf, input] = ⟨out, .ok ()⟩ →
        ∃ ids ws, Hears rec vm b data ids ∧ ws.length = ids.length ∧
          (∀ (i : Nat) wd (id : Nat), (wd, id) ∈ vs → ids.reverse[i]? = some (id : Int) → ws[i]? = some (enc wd)) ∧
          out = [.line (join [32] ws)] := by
  obtain ⟨M, i1, i2, q⟩ := made_installed w conf defs (made_of_built hd hb) ham hpos htr hw hlm
  obtain ⟨rec, hr, h⟩ := C68_program mach w conf bytes defs M hf hc i1 i2 vm e wd (fits_of hsz q) input hi file data b hfile ha
  refine ⟨rec, trained_of hl hb.fits hw q hr, fun junk out ho => ?_⟩
  obtain ⟨ids, ws, h1, h2, h3, h4⟩ := h junk out ho
  refine ⟨ids, ws, h1, h2, fun i wd id hm hi => ?_, h4⟩
  have hlt : i < ws.length := by
    have := (List.getElem?_eq_some_iff.mp hi).1
    rw [List.length_reverse] at this
    omega
  have := h3 i id _ hi (List.getElem?_eq_getElem hlt)
  rw [q.symbols] at this
  rw [List.getElem?_eq_getElem hlt, (spells_iff hw hm _).mp this]

/-- C97 with C95: if some cheapest path of the decoding graph (with the language model) over the scores of the audio file
never leaves the beam, then the line is the words of a cheapest path, in spoken order, each as the word list spells it; as
long as no frame is refused, there are never more than 30000 tokens and no path has a cost that is not a number.  Missing: the
same as in `C95_cheapest_partial`. -/
theorem C97_cheapest_partial (mach : Machine Hclg.ConstFst F D) (w : App.World Hclg.ConstFst) (conf bytes : Str)
    (defs : List (Str × Str)) {num : ANum R} {unum : Num R'} {src : Sources Hclg.Source} {val : Txt → R}
    {net : Kaldi.Net Txt} {e : Nat} {ls : List (Nnet.Layer R)} {l r : Int} {n : Nat} {ps : List (Nat × Int)}
    {enc : Txt → Str} {vs : List (Txt × Nat)} {us : List (Txt × R')} (hd : OnDisk w) (hl : Looks mach)
    (hf : w.file conf = some bytes) (hc : IsConf bytes defs) (hb : Built w conf defs num unum src)
    (ham : Convertible num val net src.am 40 e ls l r)
    (hpos : ∀ x ∈ net.prior, ∀ b, num.pack (val x) = some b → w.nonneg b.toNat = true)
    (htr : IsTrans src.trans n ps) (hw : IsWords enc src.words src.vocab vs)
    (hlm : ∀ g arpa, src.lm = some (g, arpa) → IsLms unum vs g arpa us)
    (vm : List F → List (List F) → List F) (wd : Nat) (hsz : Sized mach src ls (net.prior.map val) vm e wd)
    (input : Str) (hi : IsWav input) (file data : List UInt8) (b : Nat) (hfile : w.file input = some file)
    (ha : IsAudio file b data) {fn : F → Bool} {dn : D → Bool} (hord : DOrder mach.ar) (hnan : NanLaws mach.ar fn dn)
    (hmono : MonoLaws mach.ar fn dn) :
    ∃ rec, Trained mach w src num unum enc ls (net.prior.map val) n ps vs us rec ∧
      ∀ (junk : Nat → Junk F) (out : List Out), main mach w junk [conf, input] = ⟨out, .ok ()⟩ →
        ∃ rows, Scores rec vm b data rows ∧ ∀ s0 p x, StartState rec.dec s0 → Alive rec.dec rows → Few rec.dec rows →
          NoNan rec.dec fn s0 rows → NoNanEnd rec.dec dn s0 rows true → Kept rec.dec s0 rows true p x →
          rec.dec.ar.dlt x rec.dec.ar.inf = true → (∀ q y, Whole rec.dec s0 rows true q y → rec.dec.ar.dlt y x = false) →
          ∃ q ws, Cheapest rec.dec s0 rows true q ∧ ws.length = (wordsOf q).length ∧
            (∀ (i : Nat) wd (id : Nat), (wd, id) ∈ vs → (wordsOf q)[i]? = some (id : Int) → ws[i]? = some (enc wd)) ∧
            out = [.line (join [32] ws)] := by
  obtain ⟨M, i1, i2, q⟩ := made_installed w conf defs (made_of_built hd hb) ham hpos htr hw hlm
  obtain ⟨rec, hr, h⟩ := C95_program_partial mach w conf bytes defs M hf hc i1 i2 vm e wd (fits_of hsz q) input hi file data b
    hfile ha hord hnan hmono
  refine ⟨rec, trained_of hl hb.fits hw q hr, fun junk out ho => ?_⟩
  obtain ⟨rows, h1, h2⟩ := h junk out ho
  refine ⟨rows, h1, fun s0 p x a1 a2 a3 a4 a5 a6 a7 a8 => ?_⟩
  obtain ⟨c, ws, c1, c2, c3, c4⟩ := h2 s0 p x a1 a2 a3 a4 a5 a6 a7 a8
  refine ⟨c, ws, c1, c2, fun i wd id hm hi => ?_, c4⟩
  have hlt : i < ws.length := by rw [c2]; exact (List.getElem?_eq_some_iff.mp hi).1
  have := c3 i id _ hi (List.getElem?_eq_getElem hlt)
  rw [q.symbols] at this
  rw [List.getElem?_eq_getElem hlt, (spells_iff hw hm _).mp this]

end Verif.Disk
