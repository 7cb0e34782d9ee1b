import Verif.DecoderModel
import Verif.NanWide
import Verif.DecoderProps

/-!
# C85: scores that are not numbers
-/

namespace Verif.Decoder

open Verif Verif.Fst

variable {F D : Type} {fn : F → Bool} {dn : D → Bool}

/-- C85, the answer.  Whatever the scores are: the words of a non-empty answer, before or after the end of the stream,
are those of a path over all the frames that uses numbers only. -/
theorem C85_answer_rests_on_numbers {e : Env F D} (ho : DOrder e.ar) (hl : NanLaws e.ar fn dn) {fs : List (List F)}
    {bs : List Bool} {cs : List (Option (Cutoffs F D))} {d : Dec F} (h : Run e fs bs cs d) {s0 : State}
    (hs : StartState e s0) {eos : Bool} {ws : List Int} {w : F} (hb : bestPath e { d with eos := eos } = .ok (ws, w))
    (hne : ws ≠ []) :
    ∃ p s c, NumPath e fn s0 fs p s c ∧ emitted p = fs.length ∧ ws.reverse = wordsOf p := by
  rcases bestPath_cases hb with ⟨_, _, h1, _⟩ | ⟨t, c, h1, rfl, _⟩
  · exact absurd h1 hne
  · obtain ⟨_, h2, h3⟩ := bestLoop_spec ho h1
    rcases h3 with ⟨h3, _⟩ | ⟨u, hu, h3, h4, _, h6⟩
    · cases h3
    · cases h3
      have hc : dn c = false := by
        cases hn : dn c with
        | false => rfl
        | true => rw [hl.dltl _ hn] at h6; cases h6
      obtain ⟨p, h7, h8, h9⟩ := h.inv.paths s0 hs t hu
      exact ⟨p, _, _, h7.num hl (endCost_num hl h4 hc), h8, by rw [h9, List.reverse_reverse]⟩

-- one frame, two of whose scores are numbers
example : ∃ p s c, NumPath three isNan (0, 0) [[nan, num 0, num (-5)]] p s c ∧ emitted p = 1 ∧ [9] = wordsOf p :=
  C85_answer_rests_on_numbers nar_dorder nar_nan three_run three_start (eos := true) three_answer (by decide)

/-- C85, a frame without a single number.  The decoder reports it, but what was said so far is gone: every token has a
cost that is not a number, and the answer is empty.  Moreover the decoder is left in a state in which of the next two
frames, whatever they hold, one is undefined behaviour. -/
theorem C85_frame_without_numbers {e : Env F D} (hl : NanLaws e.ar fn dn) {fs : List (List F)} {bs : List Bool}
    {cs : List (Option (Cutoffs F D))} {d : Dec F} (h : Run e fs bs cs d) {f : List F} (hf : ∀ x ∈ f, fn x = true)
    {fuel : Nat} {b : Bool} {c : Option (Cutoffs F D)} {d1 : Dec F} (h1 : process e fuel f d = .ok (b, c, d1)) :
    b = false ∧ (∀ t ∈ d1.toks, fn t.cost = true) ∧
      (∀ eos r, bestPath e { d1 with eos := eos } = .ok r → r = ([], e.ar.zero)) ∧
      ∀ fuel2 f2, process e fuel2 f2 d1 = .error .ub ∨
        ∃ d2, process e fuel2 f2 d1 = .ok (false, none, d2) ∧ ∀ fuel3 f3, process e fuel3 f3 d2 = .error .ub := by
  obtain ⟨h2, h3, h4⟩ := process_lost hl.lost hf h.inv.prev h1
  refine ⟨h2, h3, fun eos r hr => bestPath_lost hl.lost (d := { d1 with eos := eos }) h3 hr, fun fuel2 f2 => ?_⟩
  by_cases hn : d1.toks = []
  · exact .inl (process_nil hn)
  · obtain ⟨⟨b2, c2, d2⟩, hp⟩ := process_after_lost_ok hl.lost h3 hn fuel2 f2
    obtain ⟨rfl, rfl, h5⟩ := process_after_lost hl.lost h3 h4 hp
    exact .inr ⟨d2, hp, fun _ _ => process_nil h5⟩

-- the second frame of three has no number: the word heard in the first is forgotten, and the fourth frame is undefined
example : ∃ d d1 d2, Run three [[num (-5), num 0, num (-5)]] [true] [some ⟨num 16, num 16⟩] d ∧
    bestPath three d = .ok ([8], num 0) ∧ process three 50 [nan, nan, nan] d = .ok (false, some ⟨num 16, some none⟩, d1) ∧
    bestPath three d1 = .ok ([], num 0) ∧ process three 50 [num 0, num 0, num 0] d1 = .ok (false, none, d2) ∧
    process three 50 [num 0, num 0, num 0] d2 = .error .ub := by
  obtain ⟨h1, h2, h3, h4⟩ := C85_frame_without_numbers nar_nan three_good_run (f := [nan, nan, nan])
    (by decide) (fuel := 50) three_nan_frame
  rcases h4 50 [num 0, num 0, num 0] with h | ⟨d2, h, g⟩
  · exact absurd h (by decide +kernel)
  · refine ⟨_, _, d2, three_good_run, by decide +kernel, three_nan_frame, ?_, h, g _ _⟩
    cases hb : bestPath three threeLost with
    | error x => exact absurd hb (by intro hb; revert hb; cases x <;> decide +kernel)
    | ok r => rw [h3 false r hb]; rfl

/-- C85, false of the code: a score that is not a number can decide the answer unnoticed.  On a graph with three words
and one frame whose score for the first is not a number, `Process` reports success and the answer is the third word,
though the second is better: the token of the first word holds the state that the second leads to, and a cost that is
not a number is never undercut. -/
theorem C85_nan_score_unnoticed : ∃ (e : Env N N) (f : List N) (cs : List (Option (Cutoffs N N))) (d : Dec N) (w : N),
    NanLaws e.ar isNan isNan ∧ MonoLaws e.ar isNan isNan ∧ Run e [f] [true] cs d ∧
    bestPath e { d with eos := true } = .ok ([9], w) ∧ ¬ BestOfNumbers e isNan [f] cs [9] ∧
    ∃ d' w', Run e [f.map fun x => if isNan x then num (-1000) else x] [true] cs d' ∧
      bestPath e { d' with eos := true } = .ok ([8], w') := by
  refine ⟨three, [nan, num 0, num (-5)], _, _, _, nar_nan, nar_mono, three_run, three_answer, three_not_best, ?_⟩
  exact ⟨_, _, three_low_run, three_low_answer⟩

/-- C85, false of the code: in a beam of more than 30000 tokens of which the sample holds two different numbers and a
cost that is not one, `std::nth_element` is called with a comparison that is no ordering. -/
theorem C85_sample_with_nan_undefined {e : Env F D} (hl : NanLaws e.ar fn dn) {d : Dec F} (hn : 30000 < d.toks.length)
    {t0 : Token F} (h0 : d.toks.head? = some t0) {cs : List F} {best : D} {t : Token F}
    (hc : cutoffLoop e.ar d.toks.length d.toks 802 [] e.ar.inf t0 = (cs, best, t)) (hf : e.ar.finite best = true)
    {a b x : F} (ha : a ∈ cs) (hb : b ∈ cs) (hx : x ∈ cs) (hab : e.ar.flt a b = true) (hnx : fn x = true)
    (fuel : Nat) (f : List F) : process e fuel f d = .error .ub :=
  process_ub (getCutoff_ub hn h0 hc hf (not_comparable hl ha hb hx hab hnx))

/-- C85, such beams are reached, and from frames that were reported as processed: one frame with one score that is not
a number suffices when the start state has more than 30000 arcs. -/
theorem C85_nan_sample_reached (n : Nat) (hn : 30000 < n) (hn' : n < 60000) :
    ∃ cs d, Run (wide n) [wideFrame] [true] cs d ∧ ∀ fuel f, process (wide n) fuel f d = .error .ub :=
  have ⟨h1, h2, _, _, _, h3, h4, h5, h6, h7⟩ := wide_sample hn hn'
  ⟨_, _, wide_run (by omega), C85_sample_with_nan_undefined (e := wide n) nar_nan (by rw [h1]; exact hn) h2 h3 h4 h5 h6 h7
    (show nlt (num 0) (num 1) = true by decide +kernel) rfl⟩

-- there are such start states
example : ∃ cs d, Run (wide 40000) [wideFrame] [true] cs d ∧ ∀ fuel f, process (wide 40000) fuel f d = .error .ub :=
  C85_nan_sample_reached 40000 (by decide) (by decide)

/-! ## C54 in an arithmetic with NaN -/

/-- In the example arithmetic, paths over numbers cost numbers. -/
theorem three_numbers {fs : List (List N)} (hf : ∀ f ∈ fs, ∀ x ∈ f, isNan x = false) : NoNan three isNan (0, 0) fs := by
  have moves : ∀ {s w l : Int} {k : N → N}, LmMove three s w l k → k = id := by
    intro s w l k h
    cases h with
    | off _ => rfl
    | silent h => cases h
    | word h => cases h
    | unknown h => cases h
  have weights : ∀ (s : Int) (a : GArc N), a ∈ three.g.arcs s → a.weight = num 0 := by
    intro s a ha
    change a ∈ threeWords.arcs s at ha
    unfold threeWords at ha
    simp only at ha
    split at ha
    · revert ha a; decide
    · split at ha
      · revert ha a; decide
      · split at ha
        · revert ha a; decide
        · cases ha
  intro p s c h
  induction h with
  | nil => rfl
  | @eps _ _ c a _ k _ ha _ hk ih =>
    rw [moves hk, weights _ _ ha]
    cases c with
    | none => cases ih
    | some c => rfl
  | @emit _ _ c v a _ k f _ ha _ hfr hv hk ih =>
    rw [moves hk, weights _ _ ha]
    obtain ⟨_, _, lp, _, _, h3, rfl⟩ := hv
    have hlp := hf f (List.mem_of_getElem? hfr) lp (List.mem_of_getElem? h3)
    cases c with
    | none => cases ih
    | some c =>
      cases lp with
      | none => cases hlp
      | some lp => rfl

-- C54 with an arithmetic that has NaN: after a frame of numbers the token of the state of words 7 and 8 costs no more than
-- word 7, which survives with cost 5
example : ∃ t ∈ (threeEnd 8 (num 0) 3).toks, t.state = (1, 0) ∧ isNan t.cost = false ∧ nlt (num 5) t.cost = false := by
  have h := Survives.emit (frames := [[num (-5), num 0, num (-5)]]) (cs := threeCuts) (a := ⟨1, 7, num 0, 1⟩) (v := num (-5))
    (l := 0) (k := id) (cut := ⟨num 16, num 16⟩) (Survives.nil (e := three) (s0 := (0, 0))) (by decide) (by decide) rfl
    ⟨1, 0, num (-5), rfl, rfl, rfl, by decide +kernel⟩ (.off rfl) rfl (by decide +kernel) (by decide +kernel)
  have hc : stepCost three three.ar.zero (num 0) (three.ar.fneg (num (-5))) id = num 5 := by decide +kernel
  have := C54_surviving_path_not_better nar_nan nar_mono three_good_run (by decide) three_start
    (three_numbers (by decide)) h rfl
  rwa [hc] at this

end Verif.Decoder
