import Verif.SttModel
import Verif.OverflowReal
import Verif.OverflowExample

/-!
# C86: a frame for which the acoustic model overflows
-/

namespace Verif.Stt

open Verif Verif.Nnet.Spec Verif.Fbank.Spec Verif.Decoder

variable {F D : Type} {sl cl : F → Bool} {dl : D → Bool}

/-- C86, false of the code, in the decoder.  A frame none of whose scores leaves hope (NaN or minus infinity) is reported,
but the answer is empty from then on, and of the next two frames, whatever they hold, one is undefined behaviour. -/
theorem C86_lost_frame_in_decoder {e : Env F D} (hl : LostLaws e sl cl dl) {fs : List (List F)} {bs : List Bool}
    {cs : List (Option (Cutoffs F D))} {d : Dec F} (h : Run e fs bs cs d) {f : List F} (hf : ∀ x ∈ f, sl x = true)
    {fuel : Nat} {b : Bool} {c : Option (Cutoffs F D)} {d1 : Dec F} (h1 : process e fuel f d = .ok (b, c, d1)) :
    b = false ∧ (∀ eos r, bestPath e { d1 with eos := eos } = .ok r → r = ([], e.ar.zero)) ∧
      ∀ fuel2 f2, process e fuel2 f2 d1 = .error .ub ∨
        ∃ d2, process e fuel2 f2 d1 = .ok (false, none, d2) ∧ ∀ fuel3 f3, process e fuel3 f3 d2 = .error .ub := by
  obtain ⟨h2, h3, h4⟩ := process_lost hl hf h.inv.prev h1
  refine ⟨h2, fun eos r hr => bestPath_lost hl (d := { d1 with eos := eos }) h3 hr, fun fuel2 f2 => ?_⟩
  by_cases hn : d1.toks = []
  · exact .inl (process_nil hn)
  · obtain ⟨⟨b2, c2, d2⟩, hp⟩ := process_after_lost_ok hl h3 hn fuel2 f2
    obtain ⟨rfl, rfl, h5⟩ := process_after_lost hl h3 h4 hp
    exact .inr ⟨d2, hp, fun _ _ => process_nil h5⟩

-- a frame with scores of minus infinity at the very beginning
example : ∃ d d1, Run xrec.dec [] [] [] d ∧ process xrec.dec 10 [.ninf] d = .ok (false, some ⟨.num 16, .pinf⟩, d1) ∧
    ∀ f2, process xrec.dec 10 f2 d1 = .error .ub ∨
      ∃ d2, process xrec.dec 10 f2 d1 = .ok (false, none, d2) ∧ ∀ f3, process xrec.dec 10 f3 d2 = .error .ub := by
  have h0 : initDecoder xrec.dec 10 fresh = .ok ⟨[⟨(0, 0), .num 0, []⟩], [], [((0, 0), 0)], 0, false, 1⟩ := by
    decide +kernel
  have h1 : process xrec.dec 10 [.ninf] ⟨[⟨(0, 0), .num 0, []⟩], [], [((0, 0), 0)], 0, false, 1⟩ =
      .ok (false, some ⟨.num 16, .pinf⟩, ⟨[⟨(1, 0), .pinf, [1]⟩], [], [((1, 0), 0)], 0, false, 1⟩) := by decide +kernel
  obtain ⟨_, _, h⟩ := C86_lost_frame_in_decoder xrec_lost (.init h0) (f := [.ninf]) (by decide) h1
  refine ⟨_, _, .init h0, h1, fun f2 => ?_⟩
  rcases h 10 f2 with h | ⟨d2, h, g⟩
  · exact .inl h
  · exact .inr ⟨d2, h, g 10⟩

/-- C86, false of the code, through the interface.  An utterance is recognised without a fault although one of its frames
has no score that leaves hope: then this was its last frame or the last but one, and the text is empty. -/
theorem C86_lost_frame {r : Rec F D} {vm : List F → List (List F) → List F} {e L R c w : Nat}
    (S : Sound r vm e L R c w) (hl : LostLaws r.dec sl cl dl) (fmt : Pcm.Format) (b : Nat) (hb : fmt.bits = 8 * b)
    (fill : Nat → UInt8) (cs : List (Mem F × List UInt8)) (hcs : ∀ p ∈ cs, p.2 ≠ [] ∧ p.2.length < 536870500)
    {feats : List (List F)} {n : Nat}
    (hfeats : (frames ((Pcm.Spec.samples b (cs.map Prod.snd).flatten).map r.conv)).mapM (row r.fb) = .ok feats)
    (hn : n = numFrames ((Pcm.Spec.samples b (cs.map Prod.snd).flatten).map r.conv).length) {t : Nat} (ht : t < n)
    (hlost : ∀ x ∈ scoreRow r.nn vm r.am.layers r.am.logPrior feats t, sl x = true) {h : Handle F D} {msg : Msg}
    (hr : recognise r fmt fill cs = .ok (h, msg)) :
    n ≤ t + 2 ∧ ∃ u, h = .ready r u ∧ u.back.hyp = [0] := by
  obtain ⟨feats', rows, d0, d, u, words, weight, h1, h2, h3, h4, h5, h6, _, _, h7, h8⟩ :=
    C29_end_to_end_partial S fmt b hb fill cs hcs h msg hr
  have hff : feats' = feats := Except.ok.inj (h1.symm.trans hfeats)
  subst hff
  obtain ⟨h9, h10⟩ := lost_rows hl (h3 t (by rw [h2, ← hn]; exact ht)) hlost h4 h5
  refine ⟨by rw [hn, ← h2]; exact h9, u, h6, ?_⟩
  have := h10 true _ h7
  cases this
  exact (Except.ok.inj h8).symm

-- the last of four frames is loud: the word of the first three is forgotten
example : ∃ u, recognise xrec toyFormat (fun _ => 1) xlate = .ok (.ready xrec u, .none) ∧ u.back.hyp = [0] := by
  obtain ⟨u, hu⟩ := xlate_run
  have hn : (4 : Nat) = numFrames ((Pcm.Spec.samples 1 (xlate.map Prod.snd).flatten).map xrec.conv).length := by
    rw [samples_one]; decide +kernel
  obtain ⟨_, v, h1, h2⟩ := C86_lost_frame xrec_sound xrec_lost toyFormat 1 rfl (fun _ => 1) xlate (by decide +kernel)
    xlate_feats hn (t := 3) (by decide) (by decide +kernel) hu
  cases h1
  exact ⟨_, hu, h2⟩

/-- C86, false of the code: with two more frames behind it there is no answer at all. -/
theorem C86_no_answer {r : Rec F D} {vm : List F → List (List F) → List F} {e L R c w : Nat}
    (S : Sound r vm e L R c w) (hl : LostLaws r.dec sl cl dl) (fmt : Pcm.Format) (b : Nat) (hb : fmt.bits = 8 * b)
    (fill : Nat → UInt8) (cs : List (Mem F × List UInt8)) (hcs : ∀ p ∈ cs, p.2 ≠ [] ∧ p.2.length < 536870500)
    {feats : List (List F)}
    (hfeats : (frames ((Pcm.Spec.samples b (cs.map Prod.snd).flatten).map r.conv)).mapM (row r.fb) = .ok feats) {t : Nat}
    (ht : t + 2 < numFrames ((Pcm.Spec.samples b (cs.map Prod.snd).flatten).map r.conv).length)
    (hlost : ∀ x ∈ scoreRow r.nn vm r.am.layers r.am.logPrior feats t, sl x = true) (x : Handle F D × Msg) :
    recognise r fmt fill cs ≠ .ok x := by
  intro hr
  obtain ⟨h, _⟩ := C86_lost_frame S hl fmt b hb fill cs hcs hfeats rfl (by omega) hlost hr
  omega

/-- C86, false of the code: the log-softmax layer at the end of the network is what makes such frames, as it does not take
out the largest entry before it takes exponentials.  One entry whose exponential overflows, in one frame that is not among
the last two, and there is no answer. -/
theorem C86_overflow_no_answer {r : Rec F D} {vm : List F → List (List F) → List F} {e L R c w : Nat}
    (S : Sound r vm e L R c w) (hl : LostLaws r.dec sl cl dl) {num pos big : F → Prop} {pinf : F}
    (ho : OverflowLaws r.nn num pos big (fun x => sl x = true) pinf) {ls : List (Nnet.Layer F)}
    (hls : r.am.layers = ls ++ [.logSoftmax]) (fmt : Pcm.Format) (b : Nat) (hb : fmt.bits = 8 * b)
    (fill : Nat → UInt8) (cs : List (Mem F × List UInt8)) (hcs : ∀ p ∈ cs, p.2 ≠ [] ∧ p.2.length < 536870500)
    {feats : List (List F)}
    (hfeats : (frames ((Pcm.Spec.samples b (cs.map Prod.snd).flatten).map r.conv)).mapM (row r.fb) = .ok feats) {t : Nat}
    (ht : t + 2 < numFrames ((Pcm.Spec.samples b (cs.map Prod.snd).flatten).map r.conv).length)
    (hnum : ∀ v ∈ series r.nn vm ls (edge feats) t, num v) (hbig : ∃ v ∈ series r.nn vm ls (edge feats) t, big v)
    (x : Handle F D × Msg) : recognise r fmt fill cs ≠ .ok x := by
  refine C86_no_answer S hl fmt b hb fill cs hcs hfeats ht ?_ x
  rw [hls]
  exact scoreRow_lost ho hnum hbig

-- the second of four frames is loud
example (x : Handle X X × Msg) : recognise xrec toyFormat (fun _ => 1) (xcut 10) ≠ .ok x := by
  refine C86_overflow_no_answer xrec_sound xrec_lost xrec_overflow (ls := []) rfl toyFormat 1 rfl _ _ xcut_pieces xcut_feats
    (t := 1) ?_ ?_ ⟨.num 500, by decide, 500, by decide, rfl⟩ x
  · rw [samples_one]; decide +kernel
  · intro v hv
    have : v ∈ [X.num 500, X.num 600] := by revert hv v; decide
    rcases List.mem_cons.mp this with rfl | h
    · exact ⟨_, rfl⟩
    · exact ⟨_, List.mem_singleton.mp h⟩

-- without the loud sample the same recogniser gives an answer
example : ∃ u, recognise xrec toyFormat (fun _ => 1) (xcut 0) = .ok (.ready xrec u, .none) ∧ u.back.hyp = [104, 105, 0] :=
  xcut_quiet

/-- C86 with real numbers: an activation of 89 or more in front of the last layer is enough. -/
theorem C86_eighty_nine {r : Rec Nnet.Big Nnet.Big} {vm : List Nnet.Big → List (List Nnet.Big) → List Nnet.Big}
    {e L R c w : Nat} (S : Sound r vm e L R c w) (g : List (List Nnet.Big) → List (List Nnet.Big) → List (List Nnet.Big))
    (hnn : r.nn = Nnet.bigOps g) (har : r.dec.ar = Nnet.bigArith) {a : ℝ} (ha : 0 < a) (hs : r.dec.amScale = .num a)
    {ls : List (Nnet.Layer Nnet.Big)} (hls : r.am.layers = ls ++ [.logSoftmax]) (fmt : Pcm.Format) (b : Nat)
    (hb : fmt.bits = 8 * b) (fill : Nat → UInt8) (cs : List (Mem Nnet.Big × List UInt8))
    (hcs : ∀ p ∈ cs, p.2 ≠ [] ∧ p.2.length < 536870500) {feats : List (List Nnet.Big)}
    (hfeats : (frames ((Pcm.Spec.samples b (cs.map Prod.snd).flatten).map r.conv)).mapM (row r.fb) = .ok feats) {t : Nat}
    (ht : t + 2 < numFrames ((Pcm.Spec.samples b (cs.map Prod.snd).flatten).map r.conv).length) {acts : List ℝ}
    (hacts : series r.nn vm ls (edge feats) t = acts.map .num) (hbig : ∃ v ∈ acts, 89 ≤ v)
    (x : Handle Nnet.Big Nnet.Big × Msg) : recognise r fmt fill cs ≠ .ok x := by
  obtain ⟨v, hv, h89⟩ := hbig
  refine C86_overflow_no_answer S (Nnet.big_lostLaws r.dec har ha hs)
    (num := fun x => ∃ a : ℝ, x = .num a) (pos := fun x => ∃ a : ℝ, 0 ≤ a ∧ x = .num a)
    (big := fun x => ∃ a : ℝ, 89 ≤ a ∧ x = .num a) (pinf := .inf false) (by rw [hnn]; exact Nnet.big_overflowLaws g) hls fmt b hb
    fill cs hcs hfeats ht ?_ ?_ x
  · intro u hu
    rw [hacts] at hu
    obtain ⟨a, _, rfl⟩ := List.mem_map.mp hu
    exact ⟨a, rfl⟩
  · rw [hacts]
    exact ⟨_, List.mem_map_of_mem hv, v, h89, rfl⟩

-- a network that always gives 90: four frames of anything have no answer
example (c : UInt8) (mem : Mem Nnet.Big) (x : Handle Nnet.Big Nnet.Big × Msg) :
    recognise Nnet.bigRec toyFormat (fun _ => 1) [(mem, List.replicate 880 c)] ≠ .ok x := by
  refine C86_eighty_nine Nnet.bigRec_sound _ rfl rfl (a := 1 / 10) (by norm_num) rfl rfl toyFormat 1 rfl _ _ ?_
    (Nnet.bigFb_rows _) (t := 1) ?_ (acts := [90]) (Nnet.bigRec_ninety _ _) ⟨90, by simp, by norm_num⟩ x
  · intro p hp
    rw [List.mem_singleton.mp hp]
    refine ⟨?_, ?_⟩
    · rw [List.replicate_succ]; exact List.cons_ne_nil _ _
    · show (List.replicate 880 c).length < _
      rw [List.length_replicate]; decide
  · rw [samples_one, List.length_map, List.length_map]
    show 3 < numFrames (List.replicate 880 c ++ []).length
    rw [List.append_nil, List.length_replicate]
    decide

end Verif.Stt
