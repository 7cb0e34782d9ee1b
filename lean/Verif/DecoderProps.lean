import Verif.DecoderSample
import Verif.DecoderOptimal
import Verif.DecoderReinit
import Verif.DecoderExamples

/-!
# Properties of the beam search: C17 - C24, C52, C54
-/

namespace Verif.Decoder

open Verif Verif.Fst

variable {F D : Type}

/-! ## C17 -/

/-- C17.  After initialisation and after every frame, whatever `Process` returned: the active tokens have
pairwise distinct states and the state index maps exactly the active states to their tokens. -/
theorem C17_one_token_per_state {e : Env F D} {fs : List (List F)} {bs : List Bool}
    {cs : List (Option (Cutoffs F D))} {d : Dec F} (h : Run e fs bs cs d) :
    (d.toks.map (·.state)).Nodup ∧ IndexExact d := by
  have hx := h.inv.exact
  refine ⟨?_, hx⟩
  rw [List.nodup_iff_getElem?_ne_getElem?]
  intro i j hij hj heq
  rw [List.length_map] at hj
  rw [List.getElem?_map, List.getElem?_map, List.getElem?_eq_getElem (by omega : i < d.toks.length),
    List.getElem?_eq_getElem hj] at heq
  have := indexExact_nodup hx (List.getElem?_eq_getElem (by omega : i < d.toks.length))
    (List.getElem?_eq_getElem hj) (by simpa using heq)
  omega

/-- The state of the demo decoder after two frames. -/
def demoEnd : Dec Q :=
  ⟨[⟨(2, 0), some 4, [8]⟩, ⟨(1, 0), some 16, []⟩, ⟨(3, 0), some 5, [9, 8]⟩], [],
    [((3, 0), 2), ((1, 0), 1), ((2, 0), 0)], 2, false, 4⟩

/-- The cutoffs of these two frames. -/
def demoCuts : List (Option (Cutoffs Q Q)) := [some ⟨some 16, some 17⟩, some ⟨some 17, some 20⟩]

theorem demo_run : Run demo demoFrames [true, true] demoCuts demoEnd := by
  have h : initDecoder demo 50 fresh =
      .ok ⟨[⟨(0, 0), some 0, []⟩, ⟨(1, 0), some 1, []⟩], [], [((1, 0), 1), ((0, 0), 0)], 0, false, 2⟩ := by
    decide +kernel
  have h2 : feed demo 50 demoFrames
      ⟨[⟨(0, 0), some 0, []⟩, ⟨(1, 0), some 1, []⟩], [], [((1, 0), 1), ((0, 0), 0)], 0, false, 2⟩ =
      .ok ([true, true], demoCuts, demoEnd) := by decide +kernel
  exact feed_run (.init h) h2

theorem demo_start : StartState demo (0, 0) := ⟨rfl, .inl ⟨rfl, rfl⟩⟩

-- three tokens, three states
example : (demoEnd.toks.map (·.state)).Nodup ∧ IndexExact demoEnd := C17_one_token_per_state demo_run

/-! ## C18 -/

/-- C18, tokens.  Every active token stands for a path of the composed graph from the start state that
consumes exactly the frames fed so far; its cost is the path's and its history is the path's words. -/
theorem C18_tokens_are_paths {e : Env F D} {fs : List (List F)} {bs : List Bool}
    {cs : List (Option (Cutoffs F D))} {d : Dec F} (h : Run e fs bs cs d) {s0 : State} (hs : StartState e s0)
    {t : Token F} (ht : t ∈ d.toks) :
    ∃ p, PathTo e s0 fs p t.state t.cost ∧ emitted p = fs.length ∧ t.hist.reverse = wordsOf p := by
  obtain ⟨p, h1, h2, h3⟩ := h.inv.paths s0 hs t ht
  exact ⟨p, h1, h2, by rw [h3, List.reverse_reverse]⟩

example : ∃ p, PathTo demo (0, 0) demoFrames p (3, 0) (some 5) ∧ emitted p = 2 ∧ [8, 9] = wordsOf p :=
  C18_tokens_are_paths demo_run demo_start (t := ⟨(3, 0), some 5, [9, 8]⟩) (by decide +kernel)

/-- C18, result.  A non-empty answer of `BestPath`, before or after the end of the stream, is the word
sequence of such a path (latest word first, as returned). -/
theorem C18_best_path_is_a_path {e : Env F D} {fs : List (List F)} {bs : List Bool}
    {cs : List (Option (Cutoffs F D))} {d : Dec F} (h : Run e fs bs cs d) {s0 : State} (hs : StartState e s0)
    {eos : Bool} {ws : List Int} {w : F} (hb : bestPath e { d with eos := eos } = .ok (ws, w)) (hne : ws ≠ []) :
    ∃ p s c, PathTo e s0 fs p s c ∧ emitted p = fs.length ∧ ws.reverse = wordsOf p := by
  rcases bestPath_cases hb with ⟨_, _, h1, _⟩ | ⟨t, c, h1, rfl, _⟩
  · exact absurd h1 hne
  · rcases bestLoop_mem h1 with h2 | ⟨u, hu, h2, _⟩
    · cases h2
    · cases h2
      obtain ⟨p, h3, h4, h5⟩ := C18_tokens_are_paths h hs hu
      exact ⟨p, _, _, h3, h4, h5⟩

theorem demo_best : bestPath demo (endOfStream demoEnd) = .ok ([9, 8], some 11) := by decide +kernel

example : ∃ p s c, PathTo demo (0, 0) demoFrames p s c ∧ emitted p = 2 ∧ [8, 9] = wordsOf p :=
  C18_best_path_is_a_path demo_run demo_start demo_best (by decide)

/-! ## C19 -/

/-- C19.  `BestPath` returns the history of a token whose cost (with final costs once the stream has
ended) no other active token undercuts; if every cost is infinite or not a number it returns no words and
weight zero. -/
theorem C19_best_path_minimal {e : Env F D} (ho : DOrder e.ar) {d : Dec F} {ws : List Int} {w : F}
    (h : bestPath e d = .ok (ws, w)) :
    (∃ t ∈ d.toks, ∃ c, EndCost e d.eos t c ∧ ws = t.hist ∧ e.ar.dlt c e.ar.inf = true ∧
      ∀ u ∈ d.toks, ∀ c', EndCost e d.eos u c' → e.ar.dlt c' c = false) ∨
    (ws = [] ∧ w = e.ar.zero ∧ ∀ u ∈ d.toks, ∀ c', EndCost e d.eos u c' → e.ar.dlt c' e.ar.inf = false) := by
  rcases bestPath_cases h with ⟨c, h1, rfl, rfl⟩ | ⟨t, c, h1, rfl, _⟩
  · obtain ⟨_, h2, h3⟩ := bestLoop_spec ho h1
    rcases h3 with ⟨_, rfl⟩ | ⟨_, _, h3, _⟩
    · exact .inr ⟨rfl, rfl, h2⟩
    · cases h3
  · obtain ⟨_, h2, h3⟩ := bestLoop_spec ho h1
    rcases h3 with ⟨h3, _⟩ | ⟨u, hu, h3, h4, _, h6⟩
    · cases h3
    · cases h3
      exact .inl ⟨t, hu, c, h4, rfl, h6, h2⟩

/-- C19, the answer exists: as long as the language model can tell its final weights and no history is
100000 words long. -/
theorem C19_best_path_answers {e : Env F D} {d : Dec F} (hf : ∀ t ∈ d.toks, ∃ c, EndCost e d.eos t c)
    (hl : ∀ t ∈ d.toks, t.hist.length < 100000) : ∃ r, bestPath e d = .ok r := by
  have key : ∀ (l : List (Token F)) b c, (∀ t ∈ l, ∃ c, EndCost e d.eos t c) → ∃ r, bestLoop e d.eos l b c = .ok r := by
    intro l
    induction l with
    | nil => intro b c _; exact ⟨_, rfl⟩
    | cons t l ih =>
      intro b c h
      obtain ⟨x, hx⟩ := h t (by simp)
      unfold bestLoop
      rw [pathCost_iff.2 hx, ok_bind]
      split <;> exact ih _ _ fun u hu => h u (by simp [hu])
  obtain ⟨⟨b, c⟩, h1⟩ := key d.toks none e.ar.inf hf
  unfold bestPath
  rw [h1, ok_bind]
  cases b with
  | none => exact ⟨_, rfl⟩
  | some t =>
    rcases bestLoop_mem h1 with h2 | ⟨u, hu, h2, _⟩
    · cases h2
    · cases h2
      have : decide (t.hist.length < 100000) = true := by simpa using hl t hu
      simp only [this, cassert_true, ok_bind]
      exact ⟨_, rfl⟩

example : (∃ t ∈ (endOfStream demoEnd).toks, ∃ c, EndCost demo true t c ∧ [9, 8] = t.hist ∧ qlt c none = true ∧
      ∀ u ∈ (endOfStream demoEnd).toks, ∀ c', EndCost demo true u c' → qlt c' c = false) ∨
    (([9, 8] : List Int) = [] ∧ (some 11 : Q) = some 0 ∧
      ∀ u ∈ (endOfStream demoEnd).toks, ∀ c', EndCost demo true u c' → qlt c' none = false) :=
  C19_best_path_minimal qar_dorder demo_best

-- a beam whose only token has infinite cost
example : bestPath demo ⟨[⟨(1, 0), some 0, [5]⟩], [], [((1, 0), 0)], 1, true, 1⟩ = .ok ([], some 0) := by
  decide +kernel

/-! ## C20 -/

/-- C20 as intended: at the end of the stream the reported weight is the accumulated cost of the chosen
path plus its final costs once. -/
def WeightCountsFinalOnce (e : Env F D) (d : Dec F) (ws : List Int) (w : F) : Prop :=
  ws ≠ [] → ∃ t ∈ d.toks, ∃ c, EndCost e true t c ∧ ws = t.hist ∧ w = e.ar.toF c

/-- C20 fails: in the demo run the chosen path costs 5 and its state has final weight 3, yet 11 is
reported. -/
theorem C20_final_cost_counted_twice :
    Run demo demoFrames [true, true] demoCuts demoEnd ∧
    bestPath demo (endOfStream demoEnd) = .ok ([9, 8], some 11) ∧
    ¬ WeightCountsFinalOnce demo (endOfStream demoEnd) [9, 8] (some 11) := by
  refine ⟨demo_run, demo_best, fun h => ?_⟩
  obtain ⟨t, ht, c, hc, hw, h11⟩ := h (by decide)
  have ht' : t ∈ demoEnd.toks := ht
  simp only [demoEnd, List.mem_cons, List.not_mem_nil, or_false] at ht'
  rcases ht' with rfl | rfl | rfl
  · cases hw
  · cases hw
  · rcases hc with ⟨h, _⟩ | ⟨_, _, rfl⟩ | ⟨_, _, _, h, _⟩
    · cases h
    · exact absurd h11 (by decide +kernel)
    · cases h

/-- C20, what holds: the weight is the compared cost, rounded, plus the graph's final weight once more
(even before the end of the stream).  Missing: that the second addition is not there; the claim as intended
follows only when that final weight changes nothing. -/
theorem C20_weight_partial {e : Env F D} {d : Dec F} {ws : List Int} {w : F} (h : bestPath e d = .ok (ws, w))
    (hne : ws ≠ []) :
    ∃ t ∈ d.toks, ∃ c, EndCost e d.eos t c ∧ ws = t.hist ∧ w = e.ar.fadd (e.ar.toF c) (e.g.final t.state.1) ∧
      (d.eos = true → (∀ x, e.ar.fadd x (e.g.final t.state.1) = x) → WeightCountsFinalOnce e d ws w) := by
  rcases bestPath_cases h with ⟨_, _, h1, _⟩ | ⟨t, c, h1, rfl, hw⟩
  · exact absurd h1 hne
  · rcases bestLoop_mem h1 with h2 | ⟨u, hu, h2, h3⟩
    · cases h2
    · cases h2
      refine ⟨t, hu, c, h3, rfl, hw, fun heos hz _ => ⟨t, hu, c, ?_, rfl, ?_⟩⟩
      · rw [heos] at h3; exact h3
      · rw [hw, hz]

example : ∃ t ∈ (endOfStream demoEnd).toks, ∃ c, EndCost demo true t c ∧ [9, 8] = t.hist ∧
    some 11 = qadd c (demoGraph.final t.state.1) := by
  obtain ⟨t, h1, c, h2, h3, h4, _⟩ := C20_weight_partial demo_best (by decide)
  exact ⟨t, h1, c, h2, h3, h4⟩

/-! ## C21 -/

/-- C21.  When the best cost is finite, the cutoff of a frame is not below the cost of the best token, the
best token is in the beam, and no token is cheaper; so the best token is always expanded. -/
theorem C21_best_token_not_pruned {ar : Arith F D} (ho : DOrder ar) (hr : RoundLaws ar) {l : List (Token F)}
    {cut : D} {ab : F} {best : Token F} (h : getCutoff ar l = .ok (cut, ab, best))
    (hfin : ∃ t ∈ l, ar.dlt (ar.toD t.cost) ar.inf = true) :
    best ∈ l ∧ (∀ t ∈ l, ar.dlt (ar.toD t.cost) (ar.toD best.cost) = false) ∧
      (ar.finite (ar.toD best.cost) = true → ar.flt (ar.toF cut) best.cost = false) := by
  obtain ⟨t0, cs, bc, h0, h1, h2⟩ := getCutoff_cases h
  obtain ⟨_, h3, h4, h5⟩ := cutoffLoop_spec ho h1
  have h4' : best ∈ l ∧ bc = ar.toD best.cost := by
    rcases h4 with ⟨rfl, rfl⟩ | ⟨h, h', _⟩
    · obtain ⟨t, ht, hlt⟩ := hfin
      rw [h3 t ht] at hlt; cases hlt
    · exact ⟨h, h'⟩
  obtain ⟨hb, rfl⟩ := h4'
  refine ⟨hb, h3, fun hf => ?_⟩
  rcases h2 with ⟨hn, _⟩ | ⟨_, m, hm, hc⟩
  · rw [hf] at hn; cases hn
  · apply hr.toF_ge
    unfold chooseCutoff at hc
    cases m with
    | none => cases hc; exact hr.beam_pos _
    | some m =>
      simp only at hc
      split at hc
      · cases hc
        rcases h5 m (maxActive_mem hm) with h | ⟨u, hu, rfl⟩
        · simp at h
        · exact h3 u hu
      · cases hc; exact hr.beam_pos _

example : ∀ t ∈ demoEnd.toks, qlt t.cost (some 4) = false :=
  (C21_best_token_not_pruned qar_dorder qar_round (l := demoEnd.toks) (cut := some 20) (ab := some 16)
    (best := ⟨(2, 0), some 4, [8]⟩) (by decide +kernel) ⟨⟨(2, 0), some 4, [8]⟩, by decide +kernel⟩).2.1

/-! ## C22 -/

/-- C22.  With more than 30000 active tokens, and no more than a `size_t` counts, the random sample is not empty and the
chosen index is inside it, whatever the costs are. -/
theorem C22_sample_index_in_range {ar : Arith F D} (hf : FracLaw ar) {l : List (Token F)} (hn : 30000 < l.length)
    (hs : l.length < 2 ^ 64) {cs : List F} {c0 c : D} {t0 t : Token F} (h : cutoffLoop ar l.length l 802 [] c0 t0 = (cs, c, t)) :
    cs ≠ [] ∧ cs.length * 30000 / l.length < cs.length := by
  have := sample_nonempty hf hn hs h
  exact ⟨this, cutoff_index_lt (List.length_pos_iff.2 this) hn⟩

/-- C22, consequence: `GetCutoff` succeeds on every non-empty beam, of whatever size, whose costs can be put in order. -/
theorem C22_cutoff_always_computed {ar : Arith F D} (hf : FracLaw ar) {l : List (Token F)} (hl : l ≠ [])
    (hs : l.length < 2 ^ 64) (hc : Comparable ar (l.map (·.cost))) : ∃ r, getCutoff ar l = .ok r :=
  getCutoff_total hf hl hs hc

-- a beam of almost any size above the limit, for instance one of n + 30001 equal tokens
example (n : Nat) (hs : n < 2 ^ 63) (c : Q) (t : Token Q) :
    (cutoffLoop qar (n + 30001) (List.replicate (n + 30001) ⟨(0, 0), c, []⟩) 802 [] none t).1 ≠ [] := by
  have hl : (List.replicate (n + 30001) (⟨(0, 0), c, []⟩ : Token Q)).length = n + 30001 := List.length_replicate
  have := (C22_sample_index_in_range qar_frac (l := List.replicate (n + 30001) ⟨(0, 0), c, []⟩) (c0 := none)
    (t0 := t) (by rw [hl]; omega) (by rw [hl]; omega) rfl).1
  rw [hl] at this
  exact this

example : ∃ r, getCutoff qar demoEnd.toks = .ok r := C22_cutoff_always_computed qar_frac (by decide +kernel)
  (by decide +kernel)
  (qar_mono.comparable fun _ _ => rfl)

/-! ## C23 -/

/-- A graph whose start state has no arcs. -/
def deadEnd : Env Q Q := ⟨qar, ⟨0, fun _ => [], fun _ => none⟩, none, [0], some 1⟩

/-- C23 fails: whenever the beam is empty the next frame is undefined behaviour, and a beam does become
empty: on a graph whose start state is a dead end `Process` returns false and the following call reads
`prev_toks_[0]` of an empty vector. -/
theorem C23_frame_after_dead_beam_undefined :
    (∀ (F D : Type) (e : Env F D) (fuel : Nat) (f : List F) (d : Dec F), d.toks = [] →
      process e fuel f d = .error .ub) ∧
    ∃ cs d, Run deadEnd [[some 0]] [false] cs d ∧ ∀ fuel f, process deadEnd fuel f d = .error .ub := by
  refine ⟨fun F D e fuel f d h => process_nil h, ?_⟩
  have h1 : initDecoder deadEnd 5 fresh = .ok ⟨[⟨(0, 0), some 0, []⟩], [], [((0, 0), 0)], 0, false, 1⟩ := by
    decide +kernel
  have h2 : process deadEnd 5 [some 0] ⟨[⟨(0, 0), some 0, []⟩], [], [((0, 0), 0)], 0, false, 1⟩ =
      .ok (false, some ⟨some 16, none⟩, ⟨[], [], [], 0, false, 0⟩) := by decide +kernel
  exact ⟨_, _, .frame (.init h1) h2, fun fuel f => process_nil rfl⟩

/-- C23, what holds: as long as every frame so far was reported as processed, the next one is free of
undefined behaviour (it may still stop at an assertion, or the fuel of the model), provided that transition ids and
pdf numbers are not negative, the language model answers, the costs can be put in order (none is NaN) and the active tokens
are no more than a `size_t` counts.  Missing: the
frames after a `false`. -/
theorem C23_live_beam_safe_partial {e : Env F D} {P : Int → Prop} (hT : Tame e P) (hf : FracLaw e.ar)
    {fs : List (List F)} {bs : List Bool} {cs : List (Option (Cutoffs F D))} {d : Dec F} (h : Run e fs bs cs d)
    (hb : ∀ b ∈ bs, b = true) (hs : d.toks.length < 2 ^ 64) (hc : Comparable e.ar (d.toks.map (·.cost))) (fuel : Nat)
    (f : List F) : process e fuel f d ≠ .error .ub := by
  obtain ⟨h1, h2⟩ := h.inv.alive hb
  exact process_noUb hT hf h2 h1 hs hc (hT.run h)

theorem demo_labels (s : Int) : ∀ a ∈ demoGraph.arcs s, 0 ≤ a.ilabel := by
  unfold demoGraph
  simp only
  split
  · decide
  · split
    · decide
    · split
      · decide
      · simp

example (f : List Q) : process demo 50 f demoEnd ≠ .error .ub :=
  C23_live_beam_safe_partial (P := fun _ => True)
    ⟨fun s a ha => demo_labels s a ha, by decide, fun _ _ h => (by cases h), fun _ h => (by cases h)⟩
    qar_frac demo_run (by decide) (by decide +kernel) (qar_mono.comparable fun _ _ => rfl) 50 f

/-- … and with the language model. -/
example : Tame demoWithLm (fun s => s = 4 ∨ s = 5) := by
  refine ⟨fun s a ha => demo_labels s a ha, by decide, fun lm s h h1 => ?_, fun lm h s _ g a _ _ => ?_⟩
  · cases h; cases h1; exact .inl rfl
  · cases h
    simp only [demoLm]
    split
    · exact ⟨by simp, fun b hb => by cases hb; exact .inr rfl⟩
    · exact ⟨by simp, fun b hb => by cases hb⟩

/-- A graph with one arc, with a negative transition id. -/
def badLabel : Env Q Q := ⟨qar, ⟨0, fun _ => [⟨-1, 0, some 0, 0⟩], fun _ => none⟩, none, [0], some 1⟩

/-- A transition map with a negative pdf number. -/
def badPdf : Env Q Q := ⟨qar, ⟨0, fun _ => [⟨1, 0, some 0, 0⟩], fun _ => none⟩, none, [0, -1], some 1⟩

/-- The condition on labels is needed: only the upper bounds are asserted, so a negative transition id, or a negative
entry in the transition map, makes the decoder read in front of a table; and this happens in the very first frame of a
graph with such an arc. -/
theorem C23_negative_ids_undefined :
    (∀ (F D : Type) (e : Env F D) (f : List F) (t : Int),
      (t < 0 → logLikelihood e f t = .error .ub) ∧
      (∀ p : Int, 0 ≤ t → e.pdf[t.toNat]? = some p → p < 0 → logLikelihood e f t = .error .ub)) ∧
    ∀ e ∈ [badLabel, badPdf], ∃ d, Run e [] [] [] d ∧ process e 5 [some 0] d = .error .ub := by
  refine ⟨fun F D e f t => ?_, ?_⟩
  rotate_left
  · have h1 : initDecoder badLabel 5 fresh = .ok ⟨[⟨(0, 0), some 0, []⟩], [], [((0, 0), 0)], 0, false, 1⟩ := by
      decide +kernel
    have h2 : initDecoder badPdf 5 fresh = .ok ⟨[⟨(0, 0), some 0, []⟩], [], [((0, 0), 0)], 0, false, 1⟩ := by
      decide +kernel
    intro e he
    rcases List.mem_cons.1 he with rfl | he
    · exact ⟨_, .init h1, by decide +kernel⟩
    · rcases List.mem_singleton.1 he with rfl
      exact ⟨_, .init h2, by decide +kernel⟩
  have neg : ∀ {α : Type} (v : List α) (i : Int), i < 0 → vget v i = .error .ub := by
    intro α v i hi
    unfold vget
    rw [decide_eq_true (by omega), cassert_true, ok_bind, aget, if_pos hi]
  refine ⟨fun h => ?_, fun p h0 h1 h2 => ?_⟩
  · unfold logLikelihood
    rw [neg _ _ h]; rfl
  · unfold logLikelihood
    rw [vget_iff.2 ⟨t.toNat, by omega, h1⟩, ok_bind, neg _ _ h2]; rfl

/-! ## C24 -/

/-- C24 fails: a decoder cannot be initialised twice.  `Initialize` does not clear the state index, finds
the start state in it and reads a token that is not there. -/
theorem C24_second_initialize_undefined {e : Env F D} {fuel : Nat} {d : Dec F}
    (h : initDecoder e fuel fresh = .ok d) (fuel' : Nat) : initDecoder e fuel' d = .error .ub := by
  have hQ : EpsClosed e (fun _ => True) := fun _ _ _ _ _ _ _ _ => trivial
  obtain ⟨hx, _, _, _, _, _, s, hs, t, ht, hts⟩ := initDecoder_inv hQ (fun _ _ => trivial) h
  obtain ⟨hst, _⟩ := initDecoder_cases h
  obtain ⟨i, hi⟩ := List.getElem?_of_mem ht
  have hl := (hx s i).2 ⟨t, hi, hts⟩
  have hls : lmStart e = .ok s.2 := by
    unfold lmStart
    rcases hs.2 with ⟨hn, h2⟩ | ⟨lm, hm, h2⟩
    · rw [hn, h2]
    · rw [hm]; exact h2
  have hs1 : (e.g.start, s.2) = s := by rw [← hs.1]
  unfold initDecoder
  have hc : decide (0 ≤ e.g.start) = true := by simpa using hst
  rw [hc, cassert_true, ok_bind, hls, ok_bind, hs1]
  simp [insertTok, hl]

example : ∃ d, initDecoder demo 50 fresh = .ok d ∧ initDecoder demo 50 d = .error .ub :=
  ⟨⟨[⟨(0, 0), some 0, []⟩, ⟨(1, 0), some 1, []⟩], [], [((1, 0), 1), ((0, 0), 0)], 0, false, 2⟩,
    by decide +kernel, C24_second_initialize_undefined (fuel := 50) (by decide +kernel) 50⟩

/-- C24, what holds: when the state index is empty (a new decoder, or one whose beam died), `Initialize`
gives the state of a new decoder except for the end-of-stream flag and the number of allocated tokens.
Missing: decoders with a non-empty index, and resetting the flag. -/
theorem C24_reinitialize_partial (e : Env F D) (fuel : Nat) (d : Dec F) (h : d.idx = []) :
    initDecoder e fuel d = emap (fun x => { x with eos := d.eos, live := x.live + d.live })
      (initDecoder e fuel fresh) := initDecoder_shift e fuel d h

example : initDecoder demo 50 ⟨[], [⟨(1, 0), none, [3]⟩], [], 7, true, 1⟩ =
    .ok ⟨[⟨(0, 0), some 0, []⟩, ⟨(1, 0), some 1, []⟩], [], [((1, 0), 1), ((0, 0), 0)], 0, true, 3⟩ := by
  rw [C24_reinitialize_partial _ _ _ rfl]
  decide +kernel

/-! ## C52 -/

/-- Integers as both `float` and `double`, with 1000000 for infinity. -/
def iar : Arith Int Int where
  fadd := (· + ·)
  fmul := (· * ·)
  fneg := (- ·)
  zero := 0
  flt a b := decide (a < b)
  fdiv a b := a / b
  toD := id
  toF := id
  dadd := (· + ·)
  dsub := (· - ·)
  dlt a b := decide (a < b)
  finite x := decide (x < 1000000)
  inf := 1000000
  isInf x := decide (1000000 ≤ x)
  beam := 16
  beamDelta := 1

/-- A graph with two parallel self loops, the better one second. -/
def twoLoops : Env Int Int :=
  ⟨iar, ⟨0, fun _ => [⟨1, 0, 5, 0⟩, ⟨1, 0, 0, 0⟩], fun _ => 0⟩, none, [0, 0], 1⟩

/-- The state of its decoder after `n` frames. -/
def loopState (n : Nat) : Dec Int := ⟨[⟨(0, 0), 0, []⟩], [], [((0, 0), 0)], n, false, 1 + (n : Int)⟩

theorem loop_step (n : Nat) (m : Int) :
    process twoLoops 5 [0] ⟨[⟨(0, 0), 0, []⟩], [], [((0, 0), 0)], n, false, m⟩ =
      .ok (true, some ⟨16, 16⟩, ⟨[⟨(0, 0), 0, []⟩], [], [((0, 0), 0)], n + 1, false, m + 1 + 1 - 1⟩) := by
  with_unfolding_all rfl

/-- C52 fails: the number of allocated tokens that are not active grows without bound; one token is lost
per frame on a graph with two parallel arcs. -/
theorem C52_tokens_leak (n : Nat) : ∃ fs bs cs d, fs.length = n ∧ (∀ b ∈ bs, b = true) ∧
    Run twoLoops fs bs cs d ∧ d.live = d.toks.length + n := by
  suffices ∃ fs bs cs, fs.length = n ∧ (∀ b ∈ bs, b = true) ∧ Run twoLoops fs bs cs (loopState n) by
    obtain ⟨fs, bs, cs, h1, h2, h3⟩ := this
    exact ⟨fs, bs, cs, _, h1, h2, h3, by simp [loopState]⟩
  induction n with
  | zero => exact ⟨[], [], [], rfl, by simp, .init (fuel := 5) (by decide +kernel)⟩
  | succ n ih =>
    obtain ⟨fs, bs, cs, h1, h2, h3⟩ := ih
    have hstep : process twoLoops 5 [0] (loopState n) = .ok (true, some ⟨16, 16⟩, loopState (n + 1)) := by
      have := loop_step n (1 + (n : Int))
      rw [loopState, this]
      simp only [loopState]
      congr 4
      push_cast
      omega
    refine ⟨fs ++ [[0]], bs ++ [true], cs ++ [some ⟨16, 16⟩], by simp [h1], ?_, .frame h3 hstep⟩
    intro b hb
    rcases List.mem_append.1 hb with h | h
    · exact h2 b h
    · simpa using h

/-- C52, what holds: active tokens are always allocated, so nothing in use is handed out again.  Missing:
the converse, that nothing else is allocated. -/
theorem C52_active_tokens_allocated_partial {e : Env F D} {fs : List (List F)} {bs : List Bool}
    {cs : List (Option (Cutoffs F D))} {d : Dec F} (h : Run e fs bs cs d) : (d.toks.length : Int) ≤ d.live := by
  have := h.inv.live
  omega

example : ((3 : Nat) : Int) ≤ demoEnd.live := C52_active_tokens_allocated_partial demo_run

/-! ## C54 -/

/-- C54.  If none of the arcs of a path is above the cutoff that governed its frame, the token of the path's end state
has a cost, which is a number, and no more than the path's: for every arithmetic whose addition and conversions are
monotone and whose numbers are ordered, as those of IEEE 754 are, as long as no path has a cost that is not a number. -/
theorem C54_surviving_path_not_better {e : Env F D} {fn : F → Bool} {dn : D → Bool} (hl : NanLaws e.ar fn dn)
    (hm : MonoLaws e.ar fn dn) {fs : List (List F)} {bs : List Bool}
    {cs : List (Option (Cutoffs F D))} {d : Dec F} (h : Run e fs bs cs d) (hb : ∀ b ∈ bs, b = true) {s0 : State}
    (hs : StartState e s0) (hnn : NoNan e fn s0 fs) {p : List (GArc F)} {s : State} {c : F}
    (hp : Survives e s0 fs cs p s c) (hn : emitted p = fs.length) :
    ∃ t ∈ d.toks, t.state = s ∧ fn t.cost = false ∧ e.ar.flt c t.cost = false :=
  h.optimal hl hm hb hs hnn hp hn

-- the path 0 -(1:7)-> 2 -(2:0)-> 2 survives with cost 6; the token of state 2 costs 4
example : ∃ t ∈ demoEnd.toks, t.state = (2, 0) ∧ qlt (some 6) t.cost = false := by
  have h0 : Survives demo (0, 0) demoFrames demoCuts [] (0, 0) (some 0) := .nil
  have h1 := Survives.emit (a := ⟨1, 7, some 2, 2⟩) (v := some (-1)) (l := 0) (k := id) (f := [some (-1), some (-2)])
    (cut := ⟨some 16, some 17⟩) h0 (by decide) (by decide) rfl ⟨1, 0, some (-1), rfl, rfl, rfl, by decide +kernel⟩
    (.off rfl) rfl (by decide +kernel) (by decide +kernel)
  have h2 := Survives.emit (a := ⟨2, 0, some 0, 2⟩) (v := some (-3)) (l := 0) (k := id) (f := [some 0, some (-3)])
    (cut := ⟨some 17, some 20⟩) h1 (by decide) (by decide) rfl ⟨2, 1, some (-3), rfl, rfl, rfl, by decide +kernel⟩
    (.off rfl) rfl (by decide +kernel) (by decide +kernel)
  obtain ⟨t, ht, hs, _, this⟩ := C54_surviving_path_not_better qar_nan qar_mono demo_run (by decide) demo_start
    (fun _ _ _ _ => rfl) h2 rfl
  refine ⟨t, ht, hs, ?_⟩
  have hc : stepCost demo (stepCost demo (some 0) (some 2) (qar.fneg (some (-1))) id) (some 0)
      (qar.fneg (some (-3))) id = some 6 := by decide +kernel
  rw [← hc]
  exact this

end Verif.Decoder
