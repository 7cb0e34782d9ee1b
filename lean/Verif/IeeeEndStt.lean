import Verif.IeeeEndLemmas
import Verif.SttMemLemmas
import Verif.SttProps
import Verif.MainLemmas
import Verif.BeamMainProps
import Verif.IeeeNnetProps

/-!
# Lemmas: an utterance is recognised to its end
-/

namespace Verif.Ieee

open Verif Verif.Text Verif.Decoder Verif.Decoder.Beam Verif.Ieee.Spec Verif.Main Verif.Main.Spec

/-! ## The words of an answer -/

/-- The arcs of a path are arcs of the graph. -/
theorem path_arcs {F D : Type} {e : Env F D} {s0 : State} {fs : List (List F)} {p : List (GArc F)} {s : State} {c : F}
    (hp : PathTo e s0 fs p s c) : ∀ a ∈ p, ∃ g, a ∈ e.g.arcs g := by
  induction hp with
  | nil => exact fun a ha => by cases ha
  | eps _ h _ _ ih =>
    intro a ha
    rcases List.mem_append.1 ha with h1 | h1
    · exact ih a h1
    · rw [List.mem_singleton.1 h1]; exact ⟨_, h⟩
  | emit _ h _ _ _ _ ih =>
    intro a ha
    rcases List.mem_append.1 ha with h1 | h1
    · exact ih a h1
    · rw [List.mem_singleton.1 h1]; exact ⟨_, h⟩

/-- The words of an answer are labels of arcs. -/
theorem answer_words {F D : Type} {e : Env F D} {s0 : State} (hs : StartState e s0) {gs : List (List F)} {bs : List Bool}
    {cs : List (Option (Cutoffs F D))} {d : Dec F} (hr : Run e gs bs cs d) {x : Bool} {ws : List Int} {w : F}
    (h : bestPath e { d with eos := x } = .ok (ws, w)) : ∀ i ∈ ws, i ≠ 0 ∧ ∃ g, ∃ a ∈ e.g.arcs g, a.olabel = i := by
  rcases bestPath_cases h with ⟨_, _, rfl, _⟩ | ⟨t, c, h1, rfl, _⟩
  · exact fun i hi => by cases hi
  · have ht : t ∈ d.toks := by
      rcases bestLoop_mem h1 with h2 | ⟨t', h2, h3, _⟩
      · cases h2
      · cases h3; exact h2
    obtain ⟨p, p1, _, p3⟩ := hr.inv.paths s0 hs t ht
    intro i hi
    rw [p3, List.mem_reverse] at hi
    unfold wordsOf at hi
    obtain ⟨h2, h3⟩ := List.mem_filter.1 hi
    obtain ⟨a, ha, rfl⟩ := List.mem_map.1 h2
    obtain ⟨g, hg⟩ := path_arcs p1 a ha
    exact ⟨of_decide_eq_true h3, g, a, hg, rfl⟩

/-- Words that are in the table are spelt. -/
theorem text_ok {syms : List Str} {ids : List Int} (fill : Nat → UInt8) (h : ∀ i ∈ ids, ∃ v, word? syms i = some v) :
    ∃ hyp, storeHypText syms ids fill = .ok hyp := by
  have hws : ∀ l : List Int, (∀ i ∈ l, ∃ v, word? syms i = some v) → ∃ ws : List Str, l.map (word? syms) = ws.map some := by
    intro l
    induction l with
    | nil => exact fun _ => ⟨[], rfl⟩
    | cons i l ih =>
      intro hl
      obtain ⟨v, hv⟩ := hl i List.mem_cons_self
      obtain ⟨ws, hw⟩ := ih fun j hj => hl j (List.mem_cons_of_mem _ hj)
      exact ⟨v :: ws, by rw [List.map_cons, List.map_cons, hv, hw]⟩
  obtain ⟨ws, hw⟩ := hws ids.reverse fun i hi => h i (List.mem_reverse.1 hi)
  exact ⟨_, C42_hypothesis_text syms ids ws fill hw⟩

/-! ## Rows of scores -/

section rows

variable {r : Stt.Rec F32 F64} {P : Int → Prop} {width N k n : Nat} {B : Rat} {s0 : State} {fs : List (List F32)} {eos : Bool}

/-- Whatever was heard, the text is stored. -/
theorem storeHyp_ok (h : Sturdy r.dec P width N k) (he : r.dec.ar = machine) (hB : 16 ≤ B) (hT : B ≤ 2 ^ 100) (hn : n < 100000)
    (hm : Mild r.dec s0 fs eos B n) (hs : StartState r.dec s0)
    (hw : ∀ g, ∀ a ∈ r.dec.g.arcs g, a.olabel ≠ 0 → ∃ v, word? r.syms a.olabel = some v)
    {gs : List (List F32)} (hg : gs <+: fs) {bs : List Bool} {cs : List (Option (Cutoffs F32 F64))} {d : Dec F32}
    (hr : Run r.dec gs bs cs d) (hd : Sane r.dec P d) (fill : Nat → UInt8) {b : Stt.Back F32} {x : Bool}
    (hb : b.dec = { d with eos := x }) : ∃ b', Stt.storeHyp r fill b = .ok b' ∧ b'.dec = b.dec := by
  obtain ⟨⟨ws, w⟩, h1⟩ := run_answer h he hB hT hn hm hs hg hr hd x
  have h2 := answer_words hs hr h1
  obtain ⟨hyp, h3⟩ := text_ok (syms := r.syms) fill fun i hi => by
    obtain ⟨hi0, g, a, ha, rfl⟩ := h2 i hi
    exact hw g a ha hi0
  unfold Stt.storeHyp
  rw [hb, h1, ok_bind]
  simp only
  rw [h3, ok_bind]
  exact ⟨_, rfl, rfl⟩

/-- All rows are decoded, and the text is stored every now and then. -/
theorem decodeRow_all (h : Sturdy r.dec P width N k) (he : r.dec.ar = machine) (hB : 16 ≤ B) (hT : B ≤ 2 ^ 100) (hn : n < 100000)
    (hm : Mild r.dec s0 fs eos B n) (hs : StartState r.dec s0) (hv : Lively r.dec.g)
    (hw : ∀ g, ∀ a ∈ r.dec.g.arcs g, a.olabel ≠ 0 → ∃ v, word? r.syms a.olabel = some v)
    (hfu : 2 ^ 62 * (N + 1) ^ k ≤ r.fuel) (fill : Nat → UInt8) : ∀ (rows : List (List F32)) {gs : List (List F32)}
    {bs : List Bool} {cs : List (Option (Cutoffs F32 F64))} {b : Stt.Back F32}, gs ++ rows <+: fs →
    (∀ f ∈ rows, f.length = width) → Run r.dec gs bs cs b.dec → Sane r.dec P b.dec →
    ∃ b' bs' cs', rows.foldlM (Stt.decodeRow r fill) b = .ok b' ∧ Run r.dec (gs ++ rows) bs' cs' b'.dec ∧ Sane r.dec P b'.dec
  | [], gs, bs, cs, b, _, _, hr, hd => ⟨b, bs, cs, rfl, by rw [List.append_nil]; exact hr, hd⟩
  | f :: rows, gs, bs, cs, b, hg, hl, hr, hd => by
    rw [show gs ++ f :: rows = (gs ++ [f]) ++ rows by simp] at hg ⊢
    have hg' : gs ++ [f] <+: fs := (List.prefix_append _ rows).trans hg
    obtain ⟨x, c, d, h1, h2, h3⟩ := run_step h he hB hT (by omega) hm hs hv hfu hg' (hl f List.mem_cons_self) hr hd
    rw [List.foldlM_cons]
    have key : ∃ b1, Stt.decodeRow r fill b f = .ok b1 ∧ b1.dec = d := by
      unfold Stt.decodeRow
      rw [h1, ok_bind]
      simp only
      split
      · exact storeHyp_ok h he hB hT hn hm hs hw hg' h2 h3 fill (b := { b with dec := d }) (x := d.eos) rfl
      · exact ⟨_, rfl, rfl⟩
    obtain ⟨b1, k1, k2⟩ := key
    rw [k1, ok_bind]
    exact decodeRow_all h he hB hT hn hm hs hv hw hfu fill rows hg (fun f' hf => hl f' (List.mem_cons_of_mem _ hf))
      (k2 ▸ h2) (k2 ▸ h3)

/-- All rows are decoded. -/
theorem decodeRows_all (h : Sturdy r.dec P width N k) (he : r.dec.ar = machine) (hB : 16 ≤ B) (hT : B ≤ 2 ^ 100) (hn : n < 100000)
    (hm : Mild r.dec s0 fs eos B n) (hs : StartState r.dec s0) (hv : Lively r.dec.g)
    (hfu : 2 ^ 62 * (N + 1) ^ k ≤ r.fuel) : ∀ (rows : List (List F32)) {gs : List (List F32)}
    {bs : List Bool} {cs : List (Option (Cutoffs F32 F64))} {d : Dec F32}, gs ++ rows <+: fs →
    (∀ f ∈ rows, f.length = width) → Run r.dec gs bs cs d → Sane r.dec P d →
    ∃ d' bs' cs', Stt.decodeRows r rows d = .ok d' ∧ Run r.dec (gs ++ rows) bs' cs' d' ∧ Sane r.dec P d'
  | [], gs, bs, cs, d, _, _, hr, hd => ⟨d, bs, cs, rfl, by rw [List.append_nil]; exact hr, hd⟩
  | f :: rows, gs, bs, cs, d, hg, hl, hr, hd => by
    rw [show gs ++ f :: rows = (gs ++ [f]) ++ rows by simp] at hg ⊢
    have hg' : gs ++ [f] <+: fs := (List.prefix_append _ rows).trans hg
    obtain ⟨x, c, d1, h1, h2, h3⟩ := run_step h he hB hT (by omega) hm hs hv hfu hg' (hl f List.mem_cons_self) hr hd
    obtain ⟨d', bs', cs', k1, k2, k3⟩ := decodeRows_all h he hB hT hn hm hs hv hfu rows hg
      (fun f' hf => hl f' (List.mem_cons_of_mem _ hf)) h2 h3
    refine ⟨d', bs', cs', ?_, k2, k3⟩
    unfold Stt.decodeRows at k1 ⊢
    rw [List.foldlM_cons, h1]
    exact k1

end rows

/-! ## The scores -/

/-- The scores the acoustic model yields are those of the audio. -/
theorem scores_unique {F D : Type} {r : Stt.Rec F D} {vm : List F → List (List F) → List F} {b : Nat} {data : List UInt8}
    {xs ys : List (List F)} (h1 : Scores r vm b data xs) (h2 : Scores r vm b data ys) : xs = ys := by
  obtain ⟨f1, a1, a2, a3⟩ := h1
  obtain ⟨f2, b1, b2, b3⟩ := h2
  obtain rfl : f1 = f2 := Except.ok.inj (a1.symm.trans b1)
  refine List.ext_getElem? fun t => ?_
  by_cases ht : t < xs.length
  · rw [a3 t ht, b3 t (by omega)]
  · rw [List.getElem?_eq_none (by omega), List.getElem?_eq_none (by omega)]

/-- The acoustic model yields the scores. -/
theorem utterance_ok {F D : Type} {r : Stt.Rec F D} {vm : List F → List (List F) → List F} {e L R c w : Nat}
    (S : Stt.Sound r vm e L R c w) {b : Nat} {data : List UInt8} {rows : List (List F)} (h : Scores r vm b data rows) :
    ∃ feats rows1 rows2 i1 i2,
      (Fbank.Spec.frames ((Pcm.Spec.samples b data).map r.conv)).mapM (Fbank.Spec.row r.fb) = .ok feats ∧
      Am.feed r.nn r.am Am.Inst.new (feats.map fun f => ([], f)) = .ok (rows1, i1) ∧
      Am.endOfStream r.nn r.am i1 [] = .ok (rows2, i2) ∧ rows = rows1 ++ rows2 := by
  obtain ⟨feats, g1, g2, g3⟩ := h
  have hfl : feats.length = rows.length := by
    have : ∀ {xs : List (List F)} {ys : List (List F)}, xs.mapM (Fbank.Spec.row r.fb) = .ok ys → ys.length = xs.length := by
      intro xs
      induction xs with
      | nil => intro ys hy; cases hy; rfl
      | cons x xs ih =>
        intro ys hy
        rw [List.mapM_cons] at hy
        obtain ⟨y, _, hy⟩ := bind_ok hy
        obtain ⟨zs, hz, hy⟩ := bind_ok hy
        cases hy
        rw [List.length_cons, List.length_cons, ih hz]
    rw [this g1, g2]
    unfold Fbank.Spec.frames
    rw [List.length_map, List.length_range]
  have hu : ∃ i, Am.utterance r.nn r.am (feats.map fun f => ([], f)) = .ok (rows, i) := by
    by_cases hz : feats = []
    · subst hz
      have : rows = [] := List.eq_nil_of_length_eq_zero hfl.symm
      subst this
      exact ⟨_, Am.C28_no_frames _ _⟩
    · obtain ⟨rows', inst', q1, q2, q3⟩ := Am.C28_scores S.hvm r.am S.hb S.hprior S.hleft S.hright S.hchunk S.hc
        S.hsize S.hbig (feats.map fun f => (([] : List (List F)), f)) (by simpa using hz)
        (by
          intro f hf
          obtain ⟨g, hg, rfl⟩ := List.mem_map.mp hf
          exact Stt.rows_length S.tables g1 g hg)
      rw [List.length_map] at q2 q3
      have hm : (feats.map fun f => (([] : List (List F)), f)).map Prod.snd = feats := by
        rw [List.map_map]; exact List.map_id feats
      rw [hm] at q3
      have : rows' = rows := by
        refine List.ext_getElem? fun t => ?_
        by_cases ht : t < rows.length
        · rw [q3 t (by omega), g3 t ht]
        · rw [List.getElem?_eq_none (by omega), List.getElem?_eq_none (by omega)]
      exact ⟨inst', this ▸ q1⟩
  obtain ⟨i2, hu⟩ := hu
  unfold Am.utterance at hu
  obtain ⟨⟨rows1, i1⟩, h1, hu⟩ := bind_ok hu
  obtain ⟨⟨rows2, i2'⟩, h2, hu⟩ := bind_ok hu
  cases hu
  exact ⟨feats, rows1, rows2, i1, _, g1, h1, h2, rfl⟩

/-- A network turns vectors of one size into vectors of another. -/
theorem series_size {F : Type} {o : Nnet.Ops F} {vm : List F → List (List F) → List F} (hvm : Nnet.Spec.RowWise o vm)
    {ls : List (Nnet.Layer F)} {d e L R w : Nat} (hb : Nnet.Spec.Built ls d e L R w) :
    ∀ {x : Int → List F}, (∀ t, (x t).length = d) → ∀ t, (Nnet.Spec.series o vm ls x t).length = e := by
  induction hb with
  | nil h1 h2 => exact fun hx t => hx t
  | row h1 h2 h hs ih =>
    intro x hx t
    rename_i l ls d e f L R w
    have e1 : Nnet.Spec.layerOn o vm x l = fun t => Nnet.Spec.pointwise o vm (x t) l := by cases h <;> rfl
    unfold Nnet.Spec.series
    refine ih (x := Nnet.Spec.layerOn o vm x l) (fun t => ?_) t
    rw [e1]
    exact Nnet.pointwise_size hvm h (hx t)
  | context h1 h2 h0 hl' hr' hl'' hr'' hs ih =>
    intro x hx t
    rename_i idx l r ls d f L R w
    unfold Nnet.Spec.series Nnet.Spec.series
    refine ih (fun t => ?_) t
    show (idx.flatMap fun c => x (t + c)).length = _
    rw [List.length_flatMap, List.map_congr_left (g := fun _ => d) (fun c _ => hx _), List.map_const', List.sum_replicate]
    rfl

/-- There is a score for every transition group. -/
theorem scores_width {F D : Type} {r : Stt.Rec F D} {vm : List F → List (List F) → List F} {e L R c w : Nat}
    (S : Stt.Sound r vm e L R c w) {b : Nat} {data : List UInt8} {rows : List (List F)} (h : Scores r vm b data rows) :
    ∀ f ∈ rows, f.length = e := by
  obtain ⟨feats, g1, g2, g3⟩ := h
  intro f hf
  obtain ⟨t, ht, rfl⟩ := List.mem_iff_getElem.1 hf
  have hne : feats ≠ [] := by
    rintro rfl
    have hm : ∀ {xs : List (List F)} {ys : List (List F)}, xs.mapM (Fbank.Spec.row r.fb) = .ok ys → ys = [] → xs = [] := by
      intro xs ys hy h0
      cases xs with
      | nil => rfl
      | cons x xs =>
        rw [List.mapM_cons] at hy
        obtain ⟨y, _, hy⟩ := bind_ok hy
        obtain ⟨zs, hz, hy⟩ := bind_ok hy
        cases hy
        cases h0
    have h0 := congrArg List.length (hm g1 rfl)
    unfold Fbank.Spec.frames at h0
    rw [List.length_map, List.length_range, List.length_nil] at h0
    omega
  have h1 := g3 t ht
  rw [List.getElem?_eq_getElem ht] at h1
  rw [Option.some.inj h1, List.length_zipWith, series_size S.hvm S.hb fun t =>
    Stt.rows_length S.tables g1 _ (edge_mem hne t), S.hprior, Nat.min_self]

/-! ## An utterance -/

/-- An utterance is recognised to its end. -/
theorem recognise_all {r : Stt.Rec F32 F64} {vm : List F32 → List (List F32) → List F32} {e' L R c wd : Nat}
    (S : Stt.Sound r vm e' L R c wd) {P : Int → Prop} {width N k n : Nat} {B : Rat} {s0 : State} {eos : Bool}
    (h : Sturdy r.dec P width N k) (he : r.dec.ar = machine) (hB : 16 ≤ B) (hT : B ≤ 2 ^ 100) (hn : n < 100000)
    {b : Nat} {data : List UInt8} {rows : List (List F32)} (hsc : Scores r vm b data rows)
    (hm : Mild r.dec s0 rows eos B n) (hs : StartState r.dec s0) (hv : Lively r.dec.g)
    (hw : ∀ g, ∀ a ∈ r.dec.g.arcs g, a.olabel ≠ 0 → ∃ v, word? r.syms a.olabel = some v)
    (hfu : 2 ^ 62 * (N + 1) ^ k ≤ r.fuel) (hl : ∀ f ∈ rows, f.length = width)
    {fmt : Pcm.Format} (hfmt : Pcm.Reader.new.setFormat fmt = .ok ⟨true, fmt, []⟩) (hb : Pcm.Width fmt.bits b)
    (fill : Nat → UInt8) (cs : List (Stt.Mem F32 × List UInt8))
    (hcs : ∀ p ∈ cs, p.2 ≠ [] ∧ p.2.length < 536870500) (hd : (cs.map Prod.snd).flatten = data) :
    ∃ u, Stt.recognise r fmt fill cs = .ok (.ready r u, .none) := by
  obtain ⟨d0, i1, i2⟩ := initDecoder_ok h hfu
  obtain ⟨feats, rows1, rows2, a1, a2, g1, g2, g3, rfl⟩ := utterance_ok S hsc
  obtain ⟨b1, bs1, cs1, j1, j2, j3⟩ := decodeRow_all h he hB hT hn hm hs hv hw hfu Stt.zeros rows1 (gs := []) (bs := [])
    (cs := []) (b := ⟨Am.Inst.new, d0, [0], r.zero⟩) (by rw [List.nil_append]; exact List.prefix_append _ _)
    (fun f hf => hl f (List.mem_append_left _ hf)) (.init i1) i2
  have hback : feats.foldlM (Stt.backStep r) ⟨Am.Inst.new, d0, [0], r.zero⟩ = .ok { b1 with am := a1 } := by
    rw [Stt.backSteps_rows (b := ⟨Am.Inst.new, d0, [0], r.zero⟩) g2, j1, ok_bind]
  rw [List.nil_append] at j2
  obtain ⟨d2, bs2, cs2, k1, k2, k3⟩ := decodeRows_all h he hB hT hn hm hs hv hfu rows2 (List.prefix_refl _)
    (fun f hf => hl f (List.mem_append_right _ hf)) j2 j3
  obtain ⟨b3, l1, l2⟩ := storeHyp_ok h he hB hT hn hm hs hw (List.prefix_refl _) k2 k3 fill
    (b := { b1 with am := a2, dec := Decoder.endOfStream d2 }) (x := true) rfl
  have hfin : Stt.finish r fill ⟨⟨true, fmt, []⟩, [], { b1 with am := a1 }⟩ =
      .ok ⟨⟨true, fmt, []⟩, [], b3⟩ := by
    unfold Stt.finish
    rw [g3, ok_bind]
    simp only
    unfold Stt.decodeRows at k1
    rw [k1, ok_bind, l1]
    rfl
  subst hd
  obtain ⟨u, hu, _⟩ := Stt.recognise_ok S hfmt hb fill cs hcs i1 g1 hback hfin
  exact ⟨u, hu⟩

/-- The bound on the loops of a recogniser is that of its machine. -/
theorem recogniser_fuel {G F D : Type} {mach : Machine G F D} {s : App.Self G} {r : Stt.Rec F D}
    (h : mach.recogniser s = some r) : r.fuel = mach.fuel := by
  unfold Machine.recogniser at h
  split at h
  · cases h; rfl
  · cases h

/-- One answer per frame. -/
theorem run_bools {F D : Type} {e : Env F D} {fs : List (List F)} {bs : List Bool} {cs : List (Option (Cutoffs F D))} {d : Dec F}
    (h : Run e fs bs cs d) : bs.length = fs.length := by
  induction h with
  | init _ => rfl
  | frame _ _ ih => rw [List.length_append, List.length_append, ih]; rfl

end Verif.Ieee
