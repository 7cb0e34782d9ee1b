import Verif.KitSpec
import Verif.InitProps
import Verif.ToolProps
import Verif.AmConvProps

/-!
# C78: from what training leaves behind to the recogniser
-/

namespace Verif.Kit

open Verif Verif.Text Verif.App.Spec Verif.Tool

variable {G R R' : Type}

theorem nodup_of_map {α β : Type} {f : α → β} : ∀ {l : List α}, (l.map f).Nodup → ∀ a ∈ l, ∀ b ∈ l, f a = f b → a = b
  | [], _, a, ha, _, _, _ => absurd ha List.not_mem_nil
  | x :: l, h, a, ha, b, hb, e => by
    rw [List.map_cons, List.nodup_cons] at h
    rcases List.mem_cons.mp ha with ha' | ha' <;> rcases List.mem_cons.mp hb with hb' | hb'
    · rw [ha', hb']
    · rw [ha'] at e
      exact absurd (List.mem_map.mpr ⟨b, hb', e.symm⟩) h.1
    · rw [hb'] at e
      exact absurd (List.mem_map.mpr ⟨a, ha', e⟩) h.1
    · exact nodup_of_map h.2 a ha' b hb' e

/-- Where every key occurs once, every pair is the last one of its key. -/
theorem isLast_of_nodup {α β : Type} {ps : List (α × β)} (h : (ps.map Prod.fst).Nodup) {k : α} {v : β} (hm : (k, v) ∈ ps) :
    IsLast ps k v := by
  obtain ⟨a, b, rfl⟩ := List.append_of_mem hm
  refine ⟨a, b, rfl, fun p hp e => ?_⟩
  rw [List.map_append, List.map_cons, List.nodup_append] at h
  have := h.2.1
  rw [List.nodup_cons] at this
  exact this.1 (List.mem_map.mpr ⟨p, hp, e⟩)

theorem lastIs_of_nodup {α β : Type} {ps : List (α × β)} (h : (ps.map Prod.fst).Nodup) {k : α} {v : β} (hm : (k, v) ∈ ps) :
    LastIs ps k v := isLast_of_nodup h hm

theorem nodup_map_inj {α β : Type} {f : α → β} (hf : ∀ a b, f a = f b → a = b) : ∀ {l : List α}, l.Nodup → (l.map f).Nodup
  | [], _ => List.nodup_nil
  | x :: l, h => by
    rw [List.nodup_cons] at h
    rw [List.map_cons, List.nodup_cons]
    refine ⟨fun hm => ?_, nodup_map_inj hf h.2⟩
    obtain ⟨y, hy, e⟩ := List.mem_map.mp hm
    exact h.1 (hf _ _ e ▸ hy)

/-- The pairs of the symbol file. -/
theorem pairs_eq {enc : Txt → Str} {words : List SymEntry} {vs : List (Txt × Nat)}
    (h : words.map (fun e => (e.word, e.id)) = vs.map (fun p => (enc p.1, p.2))) :
    words.map (fun e => (e.word, (e.id : Int))) = vs.map (fun p => (enc p.1, (p.2 : Int))) := by
  have := congrArg (List.map fun p : Str × Nat => (p.1, (p.2 : Int))) h
  rw [List.map_map, List.map_map] at this
  exact this

theorem words_eq {enc : Txt → Str} {words : List SymEntry} {vs : List (Txt × Nat)}
    (h : words.map (fun e => (e.word, e.id)) = vs.map (fun p => (enc p.1, p.2))) :
    words.map SymEntry.word = vs.map (fun p => enc p.1) := by
  have := congrArg (List.map Prod.fst) h
  rw [List.map_map, List.map_map] at this
  exact this

/-- The table of a proper word list. -/
theorem table_of_words {enc : Txt → Str} {words : List SymEntry} {vocab : List Txt} {vs : List (Txt × Nat)}
    (h : IsWords enc words vocab vs) {t : Symbols} (hc : Consistent t (words.map fun e => (e.word, (e.id : Int)))) :
    ∀ wd i, (wd, i) ∈ vs → t.getId (enc wd) = i ∧ t.get i = .ok (cstr (enc wd)) := by
  intro wd i hm
  rw [pairs_eq h.same] at hc
  have h1 : IsLast (vs.map fun p => (enc p.1, (p.2 : Int))) (enc wd) (i : Int) := by
    apply isLast_of_nodup
    · rw [List.map_map]
      have := nodup_map_inj h.inj h.words
      rw [List.map_map] at this
      exact this
    · exact List.mem_map.mpr ⟨_, hm, rfl⟩
  have h2 : IsLast ((vs.map fun p => (enc p.1, (p.2 : Int))).map fun p => (p.2, p.1)) (i : Int) (enc wd) := by
    apply isLast_of_nodup
    · rw [List.map_map, List.map_map]
      have := nodup_map_inj (f := fun n : Nat => (n : Int)) (fun a b e => by omega) h.ids
      rw [List.map_map] at this
      exact this
    · exact List.mem_map.mpr ⟨_, List.mem_map.mpr ⟨_, hm, rfl⟩, rfl⟩
  have hs := h.size wd i hm
  refine ⟨?_, hc.word _ _ h2⟩
  rw [hc.id _ _ h1, wrap32_of ⟨by omega, by omega⟩]

theorem id_of_mem {enc : Txt → Str} {words : List SymEntry} {vocab : List Txt} {vs : List (Txt × Nat)}
    (h : IsWords enc words vocab vs) {t : Symbols} (hc : Consistent t (words.map fun e => (e.word, (e.id : Int)))) {wd : Txt}
    (hm : wd ∈ vs.map Prod.fst) : (wd, (t.getId (enc wd)).toNat) ∈ vs ∧ 0 ≤ t.getId (enc wd) := by
  obtain ⟨⟨w, i⟩, hp, rfl⟩ := List.mem_map.mp hm
  have := (table_of_words h hc w i hp).1
  rw [this]
  exact ⟨hp, by omega⟩

/-- The cost at a place, where words and ids are unique. -/
theorem cost_of {unum : Num R'} {us : List (Txt × R')} {vs : List (Txt × Nat)} (hw : (vs.map Prod.fst).Nodup)
    (hi : (vs.map Prod.snd).Nodup) {wd : Txt} {i : Nat} (hm : (wd, i) ∈ vs) {c : R'}
    (h : CostAt unum.cost unum.zero unum.inf us vs i c) : IsCost unum us wd c := by
  have same : ∀ {w : Txt}, LastIs vs w i → w = wd := by
    intro w h
    have := nodup_of_map hi _ h.mem _ hm rfl
    exact congrArg Prod.fst this
  cases h with
  | bos h => exact .inl ⟨(same h).symm, rfl⟩
  | word h1 h2 h3 =>
    obtain rfl := same h2
    exact .inr (.inl ⟨h1, _, h3, rfl⟩)
  | absent h =>
    obtain ⟨h1, h2⟩ := h wd (lastIs_of_nodup hw hm)
    exact .inr (.inr ⟨h1, h2, rfl⟩)

/-- The files of such a directory are the files of a model, and this is the model of the sources. -/
theorem made_installed (w : App.World G) (conf : Str) (defs : List (Str × Str)) {num : ANum R}
    {unum : Num R'} {src : Sources G} {val : Txt → R} {net : Kaldi.Net Txt} {d e : Nat} {ls : List (Nnet.Layer R)}
    {l r : Int} {n : Nat} {ps : List (Nat × Int)} {enc : Txt → Str} {vs : List (Txt × Nat)} {us : List (Txt × R')}
    (hm : Made w conf defs num unum src) (ham : Convertible num val net src.am d e ls l r)
    (hpos : ∀ x ∈ net.prior, ∀ b, num.pack (val x) = some b → w.nonneg b.toNat = true)
    (htr : IsTrans src.trans n ps) (hw : IsWords enc src.words src.vocab vs)
    (hlm : ∀ g arpa, src.lm = some (g, arpa) → IsLms unum vs g arpa us) :
    ∃ M : App.Spec.Model G, Installed w conf defs M ∧ M.Ok w ∧
      ModelOf M src num unum ls l r (net.prior.map val) n ps vs us := by
  -- acoustic model
  obtain ⟨ls', p, a1, a2, a3, a4, a5, a6, a7⟩ := convertAm_written ham
  obtain ⟨fn, fp, nn, pr, j1, j2, n1, n2, c1, f1, f2⟩ := hm.files.am
  rw [a1] at c1
  injection c1 with c1
  obtain ⟨rfl, rfl⟩ := Prod.mk.inj c1
  -- transition map
  obtain ⟨ta, tb, tl, pdfs, te, t1, t2, t3⟩ := htr.lines
  obtain ⟨m, m1, -, -, m4, m5, m6⟩ := C75_transition_map t1 t2 t3 htr.fits htr.size
  rw [← te] at m1
  obtain ⟨ft, bt, j3, n3, c3, f3⟩ := hm.files.trans
  rw [m1] at c3
  cases c3
  have hmap : ∀ x ∈ m, InI32 x := by
    intro x hx
    obtain ⟨i, hi⟩ := List.mem_iff_getElem?.mp hx
    have hlt := (List.getElem?_eq_some_iff.mp hi).1
    by_cases hex : ∃ y, (i, y) ∈ ps
    · obtain ⟨y, hy⟩ := hex
      obtain ⟨z, hz⟩ := last_of_mem hy
      rw [m5 i z hz] at hi
      cases hi
      exact (htr.fits _ hz.mem).2
    · rw [m6 i (by omega) (fun y hy => hex ⟨y, hy⟩)] at hi
      cases hi
      exact ⟨by decide, by decide⟩
  have hsents : sentBegin ∈ src.words.map SymEntry.word ∧ sentEnd ∈ src.words.map SymEntry.word := by
    rw [words_eq hw.same, ← hw.begins.2, ← hw.ends.2]
    constructor
    · obtain ⟨q, h1, h2⟩ := List.mem_map.mp hw.begins.1
      exact List.mem_map.mpr ⟨q, h1, congrArg enc h2⟩
    · obtain ⟨q, h1, h2⟩ := List.mem_map.mp hw.ends.1
      exact List.mem_map.mpr ⟨q, h1, congrArg enc h2⟩
  have hnonneg : ∀ x ∈ p, w.nonneg x = true := by
    intro x hx
    obtain ⟨y, hy, b, hb, rfl⟩ := forall₂_mem a5 x hx
    obtain ⟨z, hz, rfl⟩ := List.mem_map.mp hy
    exact hpos z hz b hb
  have hm0 : m ≠ [] := by
    intro e
    rw [e] at m4
    simp at m4
  have hmsize : m.length * 4 + 4 ≤ 2147483647 := by rw [m4]; exact htr.size
  -- the language model
  cases hs : src.lm with
  | none =>
    have hl := hm.files.lm
    simp only [hs] at hl
    let M : App.Spec.Model G := ⟨src.graph, l, r, ls', p, src.left, src.right, src.chunk, src.numPdfs, m, src.words, none⟩
    have hi : Installed w conf defs M :=
      ⟨hm.fst, ⟨fn, j1, n1, f1⟩, ⟨fp, j2, n2, f2⟩, hm.files.left, hm.files.right, hm.files.chunk, hm.files.pdfs, ⟨ft, j3, n3, f3⟩, hm.files.words, hl⟩
    have ho : M.Ok w := ⟨a2, a3, by show ls'.length ≤ _; rw [← a4.length_eq]; exact ham.count, a6, a7, hnonneg,
      ⟨hm0, hmsize, hmap⟩, hw.entries, hsents, fun u t h => by cases h⟩
    exact ⟨M, hi, ho, rfl, rfl, rfl, a4, a5, rfl, rfl, rfl, rfl, m4, m5, m6, rfl, by simp only [hs]; rfl⟩
  | some q =>
    obtain ⟨g, arpa⟩ := q
    obtain ⟨⟨g1, g2, g3, g4, g5⟩, ⟨counts, es, tail, r1, r2⟩, kn, co⟩ := hlm g arpa hs
    have hbos : ∃ i, ("<s>".toList, i) ∈ vs := by
      obtain ⟨⟨x, i⟩, hx, ex⟩ := List.mem_map.mp hw.begins.1
      exact ⟨i, by rw [← ex]; exact hx⟩
    obtain ⟨ws, u1, -, u3, ⟨wd0, i0, u0, u4⟩, u5⟩ := C74_costs_of_words unum (tail := tail) r1 r2 hw.lines
      (fun x c hx => by
        rcases kn x c hx with h | h
        · exact .inl h
        · obtain ⟨⟨y, i⟩, hy, ey⟩ := List.mem_map.mp h
          exact .inr ⟨i, by rw [← ey]; exact hy⟩)
      hbos
      (fun x y i hx hy => congrArg Prod.fst (nodup_of_map hw.ids _ hx.mem _ hy.mem rfl))
      co hw.size
    have hl := hm.files.lm
    simp only [hs] at hl
    obtain ⟨⟨fl, bl, j4, n4, c4, f4⟩, fo, bo, j5, n5, c5, f5⟩ := hl
    rw [u1] at c5
    cases c5
    let M : App.Spec.Model G :=
      ⟨src.graph, l, r, ls', p, src.left, src.right, src.chunk, src.numPdfs, m, src.words, some (ws, g)⟩
    have hi : Installed w conf defs M :=
      ⟨hm.fst, ⟨fn, j1, n1, f1⟩, ⟨fp, j2, n2, f2⟩, hm.files.left, hm.files.right, hm.files.chunk, hm.files.pdfs, ⟨ft, j3, n3, f3⟩, hm.files.words,
        ⟨fl, j4, bl, n4, c4, f4⟩, fo, j5, n5, f5⟩
    have hvec : Ser.Spec.VecOk ws := by
      refine ⟨fun e => by rw [e] at u4; simp at u4, ?_, ?_⟩
      · have := hw.size _ _ u0.mem
        omega
      · intro x hx
        obtain ⟨i, hi⟩ := List.mem_iff_getElem?.mp hx
        obtain ⟨c, b, -, -, hb⟩ := u5 i (List.getElem?_eq_some_iff.mp hi).1
        rw [hi] at hb
        cases hb
        exact b.toNat_lt
    have ho : M.Ok w := ⟨a2, a3, by show ls'.length ≤ _; rw [← a4.length_eq]; exact ham.count, a6, a7, hnonneg,
      ⟨hm0, hmsize, hmap⟩, hw.entries, hsents, fun u t h => by
        cases h
        exact ⟨hvec, g1, g2, g3, g4, g5⟩⟩
    refine ⟨M, hi, ho, rfl, rfl, rfl, a4, a5, rfl, rfl, rfl, rfl, m4, m5, m6, rfl, ?_⟩
    simp only [hs]
    refine ⟨ws, rfl, fun wd i hwd => ?_⟩
    obtain ⟨c, b, q1, q2, q3⟩ := u5 i (u3 wd i (lastIs_of_nodup hw.words hwd))
    exact ⟨c, b, cost_of hw.words hw.ids hwd q1, q2, q3⟩

/-- **C78.**  A directory whose files the tools made of proper sources: `ce_stt_init` returns a recogniser that holds the
graph, the network of the text (every number being the `float` Python writes for it), the pdf of every transition id, the
words with their ids, and, if there is a language model, this language model and at the id of every word the cost that
the ARPA file gives this word. -/
theorem C78_directory (w : App.World G) (conf bytes : Str) (defs : List (Str × Str)) (hp : App.Heap) {num : ANum R}
    {unum : Num R'} {src : Sources G} {val : Txt → R} {net : Kaldi.Net Txt} {d e : Nat} {ls : List (Nnet.Layer R)}
    {l r : Int} {n : Nat} {ps : List (Nat × Int)} {enc : Txt → Str} {vs : List (Txt × Nat)} {us : List (Txt × R')}
    (hf : w.file conf = some bytes) (hc : IsConf bytes defs) (hm : Made w conf defs num unum src)
    (ham : Convertible num val net src.am d e ls l r)
    (hpos : ∀ x ∈ net.prior, ∀ b, num.pack (val x) = some b → w.nonneg b.toNat = true)
    (htr : IsTrans src.trans n ps) (hw : IsWords enc src.words src.vocab vs)
    (hlm : ∀ g arpa, src.lm = some (g, arpa) → IsLms unum vs g arpa us) :
    ∃ s h', App.init w conf hp = .ok (some (hp.next, s), h', none) ∧
      Loaded w s src num unum enc ls l r (net.prior.map val) n ps vs us := by
  obtain ⟨M, hi, ho, q⟩ := made_installed w conf defs hm ham hpos htr hw hlm
  obtain ⟨s, h', i1, i2⟩ := App.C65_load w conf bytes defs M hp hf hc hi ho
  obtain ⟨a, t, k1, k2, k3, k4, k5⟩ := i2.symbols
  rw [q.symbols] at k2
  obtain ⟨b1, b2⟩ := id_of_mem hw k2 hw.begins.1
  obtain ⟨e1, e2⟩ := id_of_mem hw k2 hw.ends.1
  rw [hw.begins.2, ← k3] at b1 b2
  rw [hw.ends.2, ← k4] at e1 e2
  refine ⟨s, h', i1, q.graph ▸ i2.fst, ?_, ⟨a, t, k1, table_of_words hw k2, b1, e1, b2, e2⟩, ?_⟩
  · obtain ⟨a, ha⟩ := i2.am
    rw [q.netLeft, q.netRight, q.left, q.right, q.chunk, q.pdfs] at ha
    exact ⟨a, M.layers, M.prior, M.map, ha, q.layers, q.prior, q.size, q.map, q.unmapped⟩
  · have h1 := q.lm
    have h2 := i2.lm
    cases hs : src.lm with
    | none =>
      simp only [hs] at h1 ⊢
      simp only [h1] at h2
      exact h2
    | some p =>
      obtain ⟨g, arpa⟩ := p
      simp only [hs] at h1 ⊢
      obtain ⟨u, hu, h3⟩ := h1
      simp only [hu] at h2
      obtain ⟨o1, ⟨ao, o2⟩, ad, ed, o3⟩ := h2
      refine ⟨o1, ⟨ao, u, o2, h3⟩, ad, ed, o3, ?_⟩
      obtain rfl := k5 ad ed o3
      exact ⟨b1, e1⟩

end Verif.Kit
