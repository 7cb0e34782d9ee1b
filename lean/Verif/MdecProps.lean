import Verif.MdecRun
import Verif.DecoderUnique
import Verif.DecoderProps
import Mathlib.Data.List.Perm.Subperm

/-!
# Properties of the decoder with its memory: C71
-/

namespace Verif.Mdec

open Verif Verif.Fst Verif.Decoder
open Verif.Pool (Addr ArenaInv)

variable {F D : Type}

/-! ## Few tokens -/

/-- If the states that can be reached are among `S`, and `S` is short, no frame leaves too many tokens. -/
theorem C71_few_tokens {e : Env F D} (fs : List (List F)) (S : List State) (hS : S.length ≤ 46338) {s0 : State}
    (hs : StartState e s0) (h0 : s0 ∈ S)
    (hstep : ∀ s ∈ S, ∀ a ∈ e.g.arcs s.1, ∀ l k, LmMove e s.2 a.olabel l k → (a.next, l) ∈ S) :
    FewTokens e fs := by
  intro n bs cs d hr
  have hpath : ∀ p s c, PathTo e s0 (fs.take n) p s c → s ∈ S := by
    intro p s c hp
    induction hp with
    | nil => exact h0
    | eps _ ha _ hl ih => exact hstep _ ih _ ha _ _ hl
    | emit _ ha _ _ _ hl ih => exact hstep _ ih _ ha _ _ hl
  have hsub : d.toks.map (·.state) ⊆ S := by
    intro s hs'
    obtain ⟨t, ht, rfl⟩ := List.mem_map.mp hs'
    obtain ⟨p, hp, _⟩ := C18_tokens_are_paths hr hs ht
    exact hpath _ _ _ hp
  have := ((C17_one_token_per_state hr).1.subperm hsub).length_le
  rw [List.length_map] at this
  omega

instance (x : Int) : Decidable (InRange x) := inferInstanceAs (Decidable (_ ∧ _))

theorem lmMove_off {e : Env F D} (h : e.lm = none) {s l s' : Int} {k : D → D} (hm : LmMove e s l s' k) : s' = s := by
  cases hm with
  | off => rfl
  | silent h' => rfl
  | word h' => rw [h] at h'; cases h'
  | unknown h' => rfl

theorem demo_labels : LmLabels demo := fun lm h => nomatch h

theorem demo_small : Small demo where
  start := by decide
  arcs s a ha := by
    unfold demo demoGraph at ha
    simp only at ha
    split at ha
    · simp only [List.mem_cons, List.not_mem_nil, or_false] at ha
      rcases ha with rfl | rfl <;> decide
    · split at ha
      · simp only [List.mem_cons, List.not_mem_nil, or_false] at ha
        rcases ha with rfl | rfl <;> decide
      · split at ha
        · simp only [List.mem_cons, List.not_mem_nil, or_false] at ha
          rcases ha with rfl | rfl <;> decide
        · cases ha
  lmStart lm h := nomatch h
  lmArcs lm h := nomatch h

theorem demo_few (fs : List (List Q)) : FewTokens demo fs := by
  refine C71_few_tokens fs [(0, 0), (1, 0), (2, 0), (3, 0)] (by decide) demo_start (by decide) ?_
  intro s hs a ha l k hl
  obtain rfl := lmMove_off rfl hl
  clear hl k
  simp only [List.mem_cons, List.not_mem_nil, or_false] at hs
  rcases hs with rfl | rfl | rfl | rfl <;> revert a <;> decide +kernel

/-! ## C71 -/

/-- C71, answers.  As long as no collection starts with a stale mark, the decoder with its memory (tokens from the
pool, states in the hash table, words in the collected tree, language model arcs through the cache) does what the
decoder with values does: each `Process` returns the same, the active tokens have the same states, costs and words,
`BestPath` returns the same words and weight, and the tokens allocated and not yet freed are as many.
Missing: collections that start with a stale mark (see `C71_words_lost`). -/
theorem C71_same_answers_partial {e : Env F D} (hl : LmLabels e) {fs : List (List F)} {bs : List Bool}
    {cs : List (Option (Cutoffs F D))} {m : Mem F} (h : MRun e NoStale fs bs cs m) :
    ∃ d, Run e fs bs cs d ∧ SameTokens m d ∧
      (∀ eos x, bestPath e { m with eos := eos } = .ok x ↔ Decoder.bestPath e { d with eos := eos } = .ok x) ∧
      InUse m d.live := by
  obtain ⟨h, d, r, v, hr⟩ := mrun_fwd hl h
  exact ⟨d, hr, sameTokens_of r v, fun eos x => bestPath_same r v eos x, inUse_of r v⟩

/-- C71, completion.  If the decoder with values gets through the frames with at most 46338 active tokens and all
numbers are small enough for the hash functions, the decoder with its memory gets through them, with the same
returned values and active tokens, unless a collection starts with a stale mark. -/
theorem C71_completes_partial {e : Env F D} (hl : LmLabels e) (hs : Small e) {fs : List (List F)} {bs : List Bool}
    {cs : List (Option (Cutoffs F D))} {d : Dec F} (h : Run e fs bs cs d) (hf : FewTokens e fs)
    (hn : fs.length ≤ 2147483647) : Stale e fs ∨ ∃ m, MRun e NoStale fs bs cs m ∧ SameTokens m d ∧ InUse m d.live := by
  rcases mrun_bwd hl hs h hf hn with h | ⟨m, h, r, v, hm⟩
  · exact .inl h
  · exact .inr ⟨m, hm, sameTokens_of r v, inUse_of r v⟩

/-- C71, where it holds outright.  Over at most `20 * (j + 1)` frames, if no active token has a word at any of the
first `j` collections, no collection starts with a stale mark.  In particular (`j = 0`) none does in the first twenty
frames. -/
theorem C71_no_stale_mark {e : Env F D} (hl : LmLabels e) (j : Nat) {fs : List (List F)}
    (hn : fs.length ≤ 20 * (j + 1)) (hs : Silent e fs (20 * j)) :
    ¬ Stale e fs ∧ ∀ {bs : List Bool} {cs : List (Option (Cutoffs F D))} {m : Mem F},
      MRun e (fun _ => True) fs bs cs m → MRun e NoStale fs bs cs m := by
  refine ⟨?_, fun h => (mrun_silent hl h hn hs).1⟩
  rintro ⟨pre, f, post, bs, cs, m, fuel, c, m1, rfl, hm, hp, hst⟩
  refine hst ?_
  obtain ⟨h, d, r, v, hr⟩ := mrun_fwd hl hm
  have hs' : Silent e pre (20 * j) := by
    intro i bs cs d hr
    by_cases hi : i ≤ pre.length
    · refine hs i bs cs d ?_
      rw [List.take_append_of_le_length hi]
      exact hr
    · refine hs pre.length bs cs d ?_
      rw [List.take_append_of_le_length (Nat.le_refl _), List.take_length]
      rw [List.take_of_length_le (by omega)] at hr
      exact hr
  have hweak : ∀ {bs cs m}, MRun e NoStale pre bs cs m → MRun e (fun _ => True) pre bs cs m := by
    intro bs cs m h
    clear hr hs' hn hs hm
    induction h with
    | init h0 h1 => exact .init h0 h1
    | frame _ hp _ ih => exact .frame ih hp fun _ _ => trivial
  simp only [List.length_append, List.length_cons] at hn
  obtain ⟨_, h, d, r, v, hr, hmarks⟩ := mrun_silent hl (hweak hm) (j := j) (by omega) hs'
  obtain ⟨⟨b2, c2, h1⟩, q1, e1, e2, r1⟩ := (propagate_sim hl fuel f r False.elim).fwd _ hp
  obtain ⟨⟨b3, c3, d1⟩, q2, e3, e4, v1⟩ := (propagate_both fuel f v).fwd _ q1
  simp only at e1 e2 e3 e4 r1 v1
  subst e1 e2 e3 e4
  rw [noStale_iff r1]
  intro hz
  have hd : ∃ c, Decoder.process e fuel f d = .ok (true, c, { d1 with frames := d1.frames + 1 }) := by
    rw [process_eq, q2]; exact ⟨_, rfl⟩
  obtain ⟨c', hd⟩ := hd
  have k1 := (Run.frame hr hd).inv.frames
  have k2 := hr.inv.frames
  have k3 := run_frames hr
  simp only [List.filter_append, List.length_append, List.filter_cons, List.filter_nil, id, if_true,
    List.length_cons, List.length_nil] at k1
  have k4 : h.frames = d.frames := v.frames
  have k5 : h1.frames = d1.frames := v1.frames
  exact fresh_of_noMarks (propagate_noMarks (hmarks (by omega)) q1)

/-- C71, the words.  A non-empty answer of `BestPath` of the decoder with its memory is the word sequence of a path of
the composed graph that consumes exactly the frames fed so far. -/
theorem C71_answer_is_a_path_partial {e : Env F D} (hl : LmLabels e) {fs : List (List F)} {bs : List Bool}
    {cs : List (Option (Cutoffs F D))} {m : Mem F} (h : MRun e NoStale fs bs cs m) {s0 : State}
    (hs : StartState e s0) {eos : Bool} {ws : List Int} {w : F}
    (hb : bestPath e { m with eos := eos } = .ok (ws, w)) (hne : ws ≠ []) :
    ∃ p s c, PathTo e s0 fs p s c ∧ emitted p = fs.length ∧ ws.reverse = wordsOf p := by
  obtain ⟨d, hr, _, h2, _⟩ := C71_same_answers_partial hl h
  exact C18_best_path_is_a_path hr hs ((h2 eos _).mp hb) hne

/-- The language model a recogniser gives its decoder returns arcs with the label asked for. -/
theorem C71_recogniser_labels {e : Env F D} {o : FloatOps F} {v : List F} {f : Fst F} {b : List (Option (Arc F))}
    {fuel : Nat} {bos eos : Int} (h : e.lm = some (delta o v (lmFst o f b fuel) bos eos)) : LmLabels e := by
  intro lm hl s l a ha
  rw [h] at hl
  cases hl
  exact delta_label (fun s l a h => lmGetArc_label fuel s l a h) s l a ha

theorem demo_silent : Silent demo demoFrames 0 := by
  intro i bs cs d hr h0 h1
  omega

/-- The demo decoder runs with its memory. -/
theorem demo_mrun : ∃ m, MRun demo NoStale demoFrames [true, true] demoCuts m ∧ SameTokens m demoEnd ∧
    InUse m 4 :=
  (C71_completes_partial demo_labels demo_small demo_run (demo_few _) (by decide)).resolve_left
    (C71_no_stale_mark demo_labels 0 (by decide) demo_silent).1

example : ∃ m d, MRun demo NoStale demoFrames [true, true] demoCuts m ∧ Run demo demoFrames [true, true] demoCuts d ∧
    SameTokens m d := by
  obtain ⟨m, hm, _⟩ := demo_mrun
  obtain ⟨d, h1, h2, _⟩ := C71_same_answers_partial demo_labels hm
  exact ⟨m, d, hm, h1, h2⟩

-- the words of the demo, read from its memory
example : ∃ m, MRun demo NoStale demoFrames [true, true] demoCuts m ∧
    ∃ p s c, PathTo demo (0, 0) demoFrames p s c ∧ emitted p = 2 ∧ [8, 9] = wordsOf p := by
  obtain ⟨m, hm, _⟩ := demo_mrun
  obtain ⟨d, h1, h2, h3, _⟩ := C71_same_answers_partial demo_labels hm
  obtain ⟨_, _, rfl⟩ := run_unique demo_run h1
  exact ⟨m, hm, C71_answer_is_a_path_partial demo_labels hm demo_start ((h3 true _).mpr demo_best) (by decide)⟩

theorem demoWithLm_labels : LmLabels demoWithLm := by
  intro lm h s l a ha
  cases h
  unfold demoLm at ha
  simp only at ha
  split at ha
  · rename_i hc
    cases ha
    exact hc.2.symm
  · cases ha

theorem demoWithLm_small : Small demoWithLm where
  start := by decide
  arcs := demo_small.arcs
  lmStart lm h s hs := by
    cases h
    cases hs
    decide
  lmArcs lm h s l a ha := by
    cases h
    unfold demoLm at ha
    simp only at ha
    split at ha
    · cases ha
      decide
    · cases ha

theorem demoWithLm_few (fs : List (List Q)) : FewTokens demoWithLm fs := by
  refine C71_few_tokens fs [(0, 4), (1, 4), (2, 4), (3, 4), (0, 5), (1, 5), (2, 5), (3, 5)] (by decide)
    ⟨rfl, .inr ⟨demoLm, rfl, rfl⟩⟩ (s0 := (0, 4)) (by decide) ?_
  intro s hs a ha l k hl
  have hl' : l = s.2 ∨ l = 5 := by
    generalize hlab : a.olabel = lab at hl
    generalize hst : s.2 = st at hl
    cases hl with
    | off => exact .inl rfl
    | silent h => exact .inl rfl
    | word h h' ha =>
      cases h
      unfold demoLm at ha
      simp only at ha
      split at ha
      · cases ha
        exact .inr rfl
      · cases ha
    | unknown h => exact .inl rfl
  clear hl k
  simp only [List.mem_cons, List.not_mem_nil, or_false] at hs
  rcases hs with rfl | rfl | rfl | rfl | rfl | rfl | rfl | rfl <;> rcases hl' with rfl | rfl <;> revert a <;>
    decide +kernel

-- with a language model, whose arcs come through the cache
example : ∃ bs cs m d, MRun demoWithLm NoStale demoFrames bs cs m ∧ Run demoWithLm demoFrames bs cs d ∧
    SameTokens m d := by
  have h : (do let d ← Decoder.initDecoder demoWithLm 50 Decoder.fresh; feed demoWithLm 50 demoFrames d).isOk = true := by
    decide +kernel
  cases h1 : Decoder.initDecoder demoWithLm 50 Decoder.fresh with
  | error f => rw [h1] at h; cases h
  | ok d0 =>
    rw [h1, ok_bind] at h
    cases h2 : feed demoWithLm 50 demoFrames d0 with
    | error f => rw [h2] at h; cases h
    | ok r =>
      have hr := feed_run (.init h1) (bs := r.1) (cs := r.2.1) (d' := r.2.2) h2
      simp only [List.nil_append] at hr
      rcases C71_completes_partial demoWithLm_labels demoWithLm_small hr (demoWithLm_few _) (by decide) with h | ⟨m, h, h3, _⟩
      · exact absurd h (C71_no_stale_mark demoWithLm_labels 0 (by decide) (fun i bs cs d _ h0 h1 => by omega)).1
      · exact ⟨_, _, m, _, h, hr, h3⟩

/-! ## C71 fails -/

/-- Two words on epsilon arcs, then a loop that takes all frames. -/
def twoWords : Env Int Int :=
  ⟨iar, ⟨0, fun s => if s = 0 then [⟨0, 1, 0, 1⟩] else if s = 1 then [⟨0, 2, 0, 2⟩] else if s = 2 then [⟨1, 0, 0, 2⟩] else [],
    fun _ => 0⟩, none, [0, 0], 1⟩

theorem twoWords_labels : LmLabels twoWords := fun lm h => nomatch h

theorem twoWords_small : Small twoWords where
  start := by decide
  arcs s a ha := by
    unfold twoWords at ha
    simp only at ha
    split at ha
    · rw [List.mem_singleton] at ha; subst ha; decide
    · split at ha
      · rw [List.mem_singleton] at ha; subst ha; decide
      · split at ha
        · rw [List.mem_singleton] at ha; subst ha; decide
        · cases ha
  lmStart lm h := nomatch h
  lmArcs lm h := nomatch h

theorem twoWords_few (fs : List (List Int)) : FewTokens twoWords fs := by
  refine C71_few_tokens fs [(0, 0), (1, 0), (2, 0)] (by decide) ⟨rfl, .inl ⟨rfl, rfl⟩⟩ (s0 := (0, 0)) (by decide) ?_
  intro s hs a ha l k hl
  obtain rfl := lmMove_off rfl hl
  clear hl k
  simp only [List.mem_cons, List.not_mem_nil, or_false] at hs
  rcases hs with rfl | rfl | rfl <;> revert a <;> decide +kernel

/-- Feed `n` frames to the half-way decoder. -/
def midFeed : Nat → Mid.Half Int → Exec (Mid.Half Int)
  | 0, h => .ok h
  | n + 1, h => do
    let (b, _, h) ← Mid.process twoWords 9 [0] h
    if b = true ∧ h.idx.length ≤ 46338 ∧ h.frames ≤ 2147483647 then midFeed n h else .error .fuel

theorem midFeed_mrun : ∀ (n : Nat) {fs bs cs m h h'}, MRun twoWords (fun _ => True) fs bs cs m →
    Full twoWords True m h → Fits h → midFeed n h = .ok h' →
    ∃ cs' m', MRun twoWords (fun _ => True) (fs ++ List.replicate n [0]) (bs ++ List.replicate n true) cs' m' ∧
      Full twoWords True m' h'
  | 0, fs, bs, cs, m, h, h', hm, r, hF, hh => by
    cases hh
    exact ⟨cs, m, by simpa using hm, r⟩
  | n + 1, fs, bs, cs, m, h, h', hm, r, hF, hh => by
    unfold midFeed at hh
    obtain ⟨⟨b, c, h1⟩, g1, hh⟩ := bind_ok hh
    simp only at hh
    split at hh
    · rename_i hc
      obtain ⟨rfl, h2, h3⟩ := hc
      have hsim := process_sim twoWords_labels 9 [0] r (fun _ => hF)
      obtain ⟨⟨b', c', m1⟩, g2⟩ := hsim.bwd trivial _ g1 ⟨h2, h3⟩
      obtain ⟨x, g3, e1, e2, r1⟩ := hsim.fwd _ g2
      rw [g1] at g3
      cases g3
      simp only at e1 e2 r1
      subst e1 e2
      obtain ⟨cs', m', k1, k2⟩ := midFeed_mrun n (.frame hm g2 fun _ _ => trivial) r1 h2 hh
      refine ⟨cs', m', ?_, k2⟩
      simpa [List.replicate_succ, List.append_assoc] using k1
    · cases hh

/-- Feed `n` frames to the decoder with values. -/
def valFeed : Nat → Dec Int → Exec (Dec Int)
  | 0, d => .ok d
  | n + 1, d => do
    let (b, _, d) ← Decoder.process twoWords 9 [0] d
    if b = true then valFeed n d else .error .fuel

theorem valFeed_run : ∀ (n : Nat) {fs bs cs d d'}, Run twoWords fs bs cs d → valFeed n d = .ok d' →
    ∃ cs', Run twoWords (fs ++ List.replicate n [0]) (bs ++ List.replicate n true) cs' d'
  | 0, fs, bs, cs, d, d', hr, h => by
    cases h
    exact ⟨cs, by simpa using hr⟩
  | n + 1, fs, bs, cs, d, d', hr, h => by
    unfold valFeed at h
    obtain ⟨⟨b, c, d1⟩, g1, h⟩ := bind_ok h
    simp only at h
    split at h
    · rename_i hb
      subst hb
      obtain ⟨cs', k⟩ := valFeed_run n (.frame hr g1) h
      refine ⟨cs', ?_⟩
      simpa [List.replicate_succ, List.append_assoc] using k
    · cases h

/-- What the half-way decoder answers after `n` frames. -/
def midAnswer (n : Nat) : Exec (List Int × Int) := do
  let h ← Mid.initDecoder twoWords 9 Mid.fresh
  if h.idx.length ≤ 46338 then do
    let h ← midFeed n h
    Mid.bestPath twoWords h
  else .error .fuel

/-- What the decoder with values answers after `n` frames. -/
def valAnswer (n : Nat) : Exec (List Int × Int) := do
  let d ← Decoder.initDecoder twoWords 9 Decoder.fresh
  let d ← valFeed n d
  Decoder.bestPath twoWords d

theorem midAnswer_20 : midAnswer 20 = .ok ([2, 1], 0) := by decide +kernel
theorem midAnswer_21 : midAnswer 21 = .error .ub := by decide +kernel
theorem valAnswer_21 : valAnswer 21 = .ok ([2, 1], 0) := by decide +kernel

/-- C71 fails: after 21 frames, `BestPath` of the decoder with its memory reads a word history that was collected,
though the decoder with values answers with the two words. -/
theorem C71_words_lost : ∃ (e : Env Int Int) (fs : List (List Int)) (bs : List Bool) (cs : List _) (m : Mem Int),
    LmLabels e ∧ Small e ∧ FewTokens e fs ∧ fs.length = 21 ∧ (∀ b ∈ bs, b = true) ∧
      MRun e (fun _ => True) fs bs cs m ∧ bestPath e m = .error .ub ∧ (∃ cs' d, Run e fs bs cs' d) ∧
      ∀ bs' cs' d, Run e fs bs' cs' d → Decoder.bestPath e d = .ok ([2, 1], 0) := by
  have h1 := valAnswer_21
  unfold valAnswer at h1
  obtain ⟨d0, g1, h1⟩ := bind_ok h1
  obtain ⟨d, g2, g3⟩ := bind_ok h1
  obtain ⟨cs, hr⟩ := valFeed_run 21 (.init g1) g2
  have h2 := midAnswer_21
  unfold midAnswer at h2
  cases k1 : Mid.initDecoder twoWords 9 Mid.fresh with
  | error f =>
    have h3 := midAnswer_20
    unfold midAnswer at h3
    rw [k1] at h3
    cases h3
  | ok h0 =>
    rw [k1, ok_bind] at h2
    split at h2
    · rename_i hF
      cases k2 : midFeed 21 h0 with
      | error f =>
        exfalso
        have h3 : (do let h ← Mid.initDecoder twoWords 9 Mid.fresh; midFeed 21 h).isOk = true := by decide +kernel
        rw [k1, ok_bind, k2] at h3
        cases h3
      | ok h =>
        rw [k2, ok_bind] at h2
        obtain ⟨m0, n1, n2⟩ := new_full twoWords True (fun _ => twoWords_small)
        have hm : m0.toks = [] ∧ m0.prev = [] := by
          unfold new at n1
          obtain ⟨t, _, n1⟩ := bind_ok n1
          cases n1
          exact ⟨rfl, rfl⟩
        have hsim := initDecoder_sim twoWords_labels 9 n2 hm
        obtain ⟨m1, n3⟩ := hsim.bwd trivial h0 k1 hF
        obtain ⟨h0', n4, n5⟩ := hsim.fwd m1 n3
        rw [k1] at n4
        cases n4
        obtain ⟨cs', m, n6, n7⟩ := midFeed_mrun 21 (.init n1 n3) n5 hF k2
        refine ⟨twoWords, _, _, cs', m, twoWords_labels, twoWords_small, twoWords_few _, by simp, by decide, n6,
          by rw [bestPath_eq n7, h2], ⟨cs, d, hr⟩, ?_⟩
        intro bs2 cs2 d2 hr2
        obtain ⟨_, _, rfl⟩ := run_unique hr hr2
        exact g3
    · cases h2

/-! ## C52 in memory -/

theorem twoLoops_labels : LmLabels twoLoops := fun lm h => nomatch h

theorem twoLoops_small : Small twoLoops where
  start := by decide
  arcs s a ha := by
    simp only [twoLoops, List.mem_cons, List.not_mem_nil, or_false] at ha
    rcases ha with rfl | rfl <;> decide
  lmStart lm h := nomatch h
  lmArcs lm h := nomatch h

theorem twoLoops_few (fs : List (List Int)) : FewTokens twoLoops fs := by
  refine C71_few_tokens fs [(0, 0)] (by decide) ⟨rfl, .inl ⟨rfl, rfl⟩⟩ (s0 := (0, 0)) (by decide) ?_
  intro s hs a ha l k hl
  obtain rfl := lmMove_off rfl hl
  clear hl k
  rw [List.mem_singleton] at hs
  subst hs
  revert a
  decide +kernel

theorem twoLoops_silent (fs : List (List Int)) (n : Nat) : Silent twoLoops fs n := by
  intro i bs cs d hr _ _ t ht
  obtain ⟨p, hp, he, hw⟩ := C18_tokens_are_paths hr (s0 := (0, 0)) ⟨rfl, .inl ⟨rfl, rfl⟩⟩ ht
  have : ∀ a ∈ p, a.olabel = 0 := by
    clear hw ht he
    generalize t.state = s at hp
    generalize t.cost = c at hp
    induction hp with
    | nil => simp
    | eps _ ha _ _ ih =>
      intro x hx
      rcases List.mem_append.mp hx with hx | hx
      · exact ih x hx
      · rw [List.mem_singleton] at hx
        subst hx
        simp only [twoLoops, List.mem_cons, List.not_mem_nil, or_false] at ha
        rcases ha with rfl | rfl <;> rfl
    | emit _ ha _ _ _ _ ih =>
      intro x hx
      rcases List.mem_append.mp hx with hx | hx
      · exact ih x hx
      · rw [List.mem_singleton] at hx
        subst hx
        simp only [twoLoops, List.mem_cons, List.not_mem_nil, or_false] at ha
        rcases ha with rfl | rfl <;> rfl
  have hnil : wordsOf p = [] := by
    unfold wordsOf
    rw [List.filter_eq_nil_iff]
    intro x hx
    obtain ⟨a, ha, rfl⟩ := List.mem_map.mp hx
    simp [this a ha]
  rw [hnil] at hw
  simpa using hw

-- a hundred frames, five collections
example : ¬ Stale twoLoops (List.replicate 100 [0]) :=
  (C71_no_stale_mark twoLoops_labels 4 (by simp) (twoLoops_silent _ _)).1

/-- C52 fails in memory too: one more token is in use after each frame, though one is active. -/
theorem C52_memory_leak (n : Nat) (hn : n ≤ 2147483647) : ∃ fs bs cs m, fs.length = n ∧ (∀ b ∈ bs, b = true) ∧
    MRun twoLoops NoStale fs bs cs m ∧ InUse m (m.toks.length + n) := by
  obtain ⟨fs, bs, cs, d, h1, h2, h3, h4⟩ := C52_tokens_leak n
  rcases C71_completes_partial twoLoops_labels twoLoops_small h3 (twoLoops_few _) (by omega) with h | ⟨m, h5, h6, h7⟩
  · exact absurd h (C71_no_stale_mark twoLoops_labels n (by omega) (twoLoops_silent _ _)).1
  · refine ⟨fs, bs, cs, m, h1, h2, h5, ?_⟩
    rw [h4, ← h6.length_eq] at h7
    exact h7

example : ∃ fs bs cs m, fs.length = 1000 ∧ (∀ b ∈ bs, b = true) ∧ MRun twoLoops NoStale fs bs cs m ∧
    InUse m (m.toks.length + 1000) := C52_memory_leak 1000 (by decide)

end Verif.Mdec
