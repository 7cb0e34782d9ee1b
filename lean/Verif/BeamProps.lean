import Verif.BeamLemmas

/-!
# C95: the cheapest path is found if it never leaves the beam
-/

namespace Verif.Decoder.Beam

open Verif Verif.Fst

variable {F D : Type}

/-- C95, the tokens.  A path that never leaves the beam, told from the graph and the frames alone, is never dropped: after
all frames the token of its end state costs no more than it does. -/
theorem C95_kept {e : Env F D} (ho : DOrder e.ar) {fn : F → Bool} {dn : D → Bool} (hl : NanLaws e.ar fn dn)
    (hm : MonoLaws e.ar fn dn) {fs : List (List F)} {bs : List Bool} {cs : List (Option (Cutoffs F D))} {d : Dec F}
    (h : Run e fs bs cs d) (hb : ∀ b ∈ bs, b = true) {s0 : State} (hs : StartState e s0) (hfew : Few e fs)
    (hnn : NoNan e fn s0 fs) {p : List (GArc F)} {s : State} {c : F} (hp : InBeam e s0 fs p s c)
    (hn : emitted p = fs.length) : ∃ t ∈ d.toks, t.state = s ∧ e.ar.flt c t.cost = false := by
  obtain ⟨t, h1, h2, _, h3⟩ := C54_surviving_path_not_better hl hm h hb hs hnn (hp.survives ho hl h hb hs hfew) hn
  exact ⟨t, h1, h2, h3⟩

/-- C95, the answer.  The words the decoder returns are those of a path over all frames that costs no more than any path
that never left the beam and costs less than infinity. -/
theorem C95_answer {e : Env F D} (ho : DOrder e.ar) {fn : F → Bool} {dn : D → Bool} (hl : NanLaws e.ar fn dn)
    (hm : MonoLaws e.ar fn dn) {fs : List (List F)} {bs : List Bool} {cs : List (Option (Cutoffs F D))} {d : Dec F}
    (h : Run e fs bs cs d) (hb : ∀ b ∈ bs, b = true) {s0 : State} (hs : StartState e s0) (hfew : Few e fs)
    (hnn : NoNan e fn s0 fs) {eos : Bool} (hne : NoNanEnd e dn s0 fs eos) {ws : List Int} {w : F}
    (ha : bestPath e { d with eos := eos } = .ok (ws, w)) {p : List (GArc F)} {x : D} (hp : Kept e s0 fs eos p x)
    (hx : e.ar.dlt x e.ar.inf = true) :
    ∃ q y, Whole e s0 fs eos q y ∧ ws.reverse = wordsOf q ∧ e.ar.dlt y e.ar.inf = true ∧
      ∀ p' x', Kept e s0 fs eos p' x' → e.ar.dlt x' y = false := by
  have key : ∀ p' x', Kept e s0 fs eos p' x' → ∃ t ∈ d.toks, ∃ y, EndCost e eos t y ∧ dn y = false ∧
      e.ar.dlt x' y = false := by
    rintro p' x' ⟨s, c, h1, h2, h3⟩
    obtain ⟨t, ht, g1, g2⟩ := C95_kept ho hl hm h hb hs hfew hnn h1 h2
    obtain ⟨y, hy, hxy⟩ := endCost_mono hm (u := ⟨s, c, []⟩) g1 g2 h3
    obtain ⟨q, q1, q2, _⟩ := C18_tokens_are_paths h hs ht
    exact ⟨t, ht, y, hy, hne q y ⟨_, _, q1, q2, hy⟩, hxy⟩
  rcases C19_best_path_minimal ho ha with ⟨t, ht, y, hy, rfl, hi, hmin⟩ | ⟨_, _, hmin⟩
  · obtain ⟨q, q1, q2, q3⟩ := C18_tokens_are_paths h hs ht
    refine ⟨q, y, ⟨_, _, q1, q2, hy⟩, q3, hi, fun p' x' hp' => ?_⟩
    obtain ⟨u, hu, z, hz, hzn, hxz⟩ := key p' x' hp'
    exact hm.dle hzn (hmin u hu z hz) hxz
  · obtain ⟨u, hu, z, hz, hzn, hxz⟩ := key p x hp
    have := hm.dle hzn (hmin u hu z hz) hxz
    rw [this] at hx; cases hx

/-- C95, what holds of `Optimal`.  If some cheapest path never leaves the beam then the answer is the words of a cheapest
path.  Missing: cheapest paths that leave the beam (`C95_search_error`), and frames with more than 30000 active tokens. -/
theorem C95_cheapest_partial {e : Env F D} (ho : DOrder e.ar) {fn : F → Bool} {dn : D → Bool} (hl : NanLaws e.ar fn dn)
    (hm : MonoLaws e.ar fn dn) {fs : List (List F)} {bs : List Bool} {cs : List (Option (Cutoffs F D))} {d : Dec F}
    (h : Run e fs bs cs d) (hb : ∀ b ∈ bs, b = true) {s0 : State} (hs : StartState e s0) (hfew : Few e fs)
    (hnn : NoNan e fn s0 fs) {eos : Bool} (hne : NoNanEnd e dn s0 fs eos) {ws : List Int} {w : F}
    (ha : bestPath e { d with eos := eos } = .ok (ws, w)) {p : List (GArc F)} {x : D} (hp : Kept e s0 fs eos p x)
    (hx : e.ar.dlt x e.ar.inf = true) (hc : ∀ q y, Whole e s0 fs eos q y → e.ar.dlt y x = false) :
    ∃ q, Cheapest e s0 fs eos q ∧ ws.reverse = wordsOf q := by
  obtain ⟨q, y, h1, h2, h3, h4⟩ := C95_answer ho hl hm h hb hs hfew hnn hne ha hp hx
  refine ⟨q, ⟨y, h1, h3, fun q' y' hq' => ?_⟩, h2⟩
  obtain ⟨s, c, g1, g2, g3⟩ := hp
  exact hm.dle (hne p x ⟨s, c, g1.path, g2, g3⟩) (h4 p x ⟨s, c, g1, g2, g3⟩) (hc q' y' hq')

/-- C95, small graphs.  Where all paths together lead to no more than 30000 states there are never more tokens. -/
theorem C95_few {e : Env F D} {fs : List (List F)} {s0 : State} (hs : StartState e s0) (S : List State)
    (hS : S.length ≤ 30000) (hr : ∀ p s c, PathTo e s0 fs p s c → s ∈ S) : Few e fs := by
  intro gs bs cs d hg h
  have h1 := (C17_one_token_per_state h).1
  have h2 : d.toks.map (·.state) ⊆ S := by
    intro s hs'
    obtain ⟨t, ht, rfl⟩ := List.mem_map.1 hs'
    obtain ⟨p, g1, _⟩ := C18_tokens_are_paths h hs ht
    exact hr _ _ _ (PathTo.more g1 hg)
  have := (List.subperm_of_subset h1 h2).length_le
  rw [List.length_map] at this
  omega

/-! ## A fork -/

/-- Two ways over two frames: one of cost 0 and then 30 with the word 5, one of cost `w` and then 0 with the word 6. -/
def fork (w : Int) : Env Q Q :=
  ⟨qar, ⟨0, fun s => if s = 0 then [⟨1, 5, some 0, 1⟩, ⟨1, 6, some w, 2⟩] else if s = 1 then [⟨1, 0, some 30, 3⟩] else
    if s = 2 then [⟨1, 0, some 0, 3⟩] else [], fun s => if s = 3 then some 0 else none⟩, none, [0, 0], some 1⟩

/-- Two frames that cost nothing. -/
def still : List (List Q) := [[some 0], [some 0]]

/-- The paths of the fork over the two frames: nothing, one arc of either way, all of either way. -/
theorem fork_paths {w : Int} {p : List (GArc Q)} {s : State} {c : Q} (h : PathTo (fork w) (0, 0) still p s c) :
    (p = [] ∧ s = (0, 0) ∧ c = some 0) ∨
    (p = [⟨1, 5, some 0, 1⟩] ∧ s = (1, 0) ∧ c = some 0) ∨
    (p = [⟨1, 6, some w, 2⟩] ∧ s = (2, 0) ∧ c = some (w : Rat)) ∨
    (p = [⟨1, 5, some 0, 1⟩, ⟨1, 0, some 30, 3⟩] ∧ s = (3, 0) ∧ c = some 30) ∨
    (p = [⟨1, 6, some w, 2⟩, ⟨1, 0, some 0, 3⟩] ∧ s = (3, 0) ∧ c = some (w : Rat)) := by
  have noLm : ∀ {s l s' : Int} {k : Q → Q}, LmMove (fork w) s l s' k → s' = s ∧ k = id := by
    intro s l s' k h
    cases h with
    | off => exact ⟨rfl, rfl⟩
    | silent h => cases h
    | word h => cases h
    | unknown h => cases h
  have score : ∀ {n : Nat} {f : List Q} {v : Q}, still[n]? = some f → IsScore (fork w) f 1 v → v = some 0 := by
    rintro n f v hf ⟨ti, pi, lp, h1, h2, h3, rfl⟩
    have : ti = 1 := by omega
    subst this
    have : pi = 0 := by
      have : some (0 : Int) = some (pi : Int) := h2
      injection this with this
      omega
    subst this
    have hf' : f = [some 0] := by
      match n, hf with
      | 0, hf => exact (Option.some.inj hf).symm
      | 1, hf => exact (Option.some.inj hf).symm
      | n + 2, hf => simp [still] at hf
    subst hf'
    cases Option.some.inj h3
    exact show qmul (some 1) (some 0) = some 0 by decide +kernel
  induction h with
  | nil => exact .inl ⟨rfl, rfl, rfl⟩
  | @eps p s c a l k _ h2 h3 h4 ih =>
    exfalso
    rcases ih with ⟨_, rfl, _⟩ | ⟨_, rfl, _⟩ | ⟨_, rfl, _⟩ | ⟨_, rfl, _⟩ | ⟨_, rfl, _⟩ <;>
      simp [fork] at h2
    · rcases h2 with rfl | rfl <;> cases h3
    · subst h2; cases h3
    · subst h2; cases h3
  | @emit p s c v a l k f _ h2 h3 h4 h5 h6 ih =>
    obtain ⟨rfl, rfl⟩ := noLm h6
    rcases ih with ⟨rfl, rfl, rfl⟩ | ⟨rfl, rfl, rfl⟩ | ⟨rfl, rfl, rfl⟩ | ⟨_, rfl, _⟩ | ⟨_, rfl, _⟩ <;>
      simp [fork] at h2
    · rcases h2 with rfl | rfl
      · cases score h4 h5
        exact .inr (.inl ⟨rfl, rfl, by simp [stepCost, fork, qar, qadd]⟩)
      · cases score h4 h5
        exact .inr (.inr (.inl ⟨rfl, rfl, by simp [stepCost, fork, qar, qadd]⟩))
    · subst h2
      cases score h4 h5
      exact .inr (.inr (.inr (.inl ⟨rfl, rfl, by simp [stepCost, fork, qar, qadd]⟩)))
    · subst h2
      cases score h4 h5
      exact .inr (.inr (.inr (.inr ⟨rfl, rfl, by simp [stepCost, fork, qar, qadd]⟩)))

theorem fork_start (w : Int) : StartState (fork w) (0, 0) := ⟨rfl, .inl ⟨rfl, rfl⟩⟩

theorem fork_few (w : Int) : Few (fork w) still :=
  C95_few (fork_start w) [(0, 0), (1, 0), (2, 0), (3, 0)] (by decide) fun p s c h => by
    rcases fork_paths h with ⟨_, rfl, _⟩ | ⟨_, rfl, _⟩ | ⟨_, rfl, _⟩ | ⟨_, rfl, _⟩ | ⟨_, rfl, _⟩ <;> decide

/-- The whole paths of the fork. -/
theorem fork_whole {w : Int} {p : List (GArc Q)} {x : Q} (h : Whole (fork w) (0, 0) still true p x) :
    (p = [⟨1, 5, some 0, 1⟩, ⟨1, 0, some 30, 3⟩] ∧ x = some 30) ∨
    (p = [⟨1, 6, some w, 2⟩, ⟨1, 0, some 0, 3⟩] ∧ x = some (w : Rat)) := by
  obtain ⟨s, c, h1, h2, h3⟩ := h
  rcases fork_paths h1 with ⟨rfl, _, _⟩ | ⟨rfl, _, _⟩ | ⟨rfl, _, _⟩ | ⟨rfl, rfl, rfl⟩ | ⟨rfl, rfl, rfl⟩
  · cases h2
  · cases h2
  · cases h2
  · rcases h3 with ⟨h3, _⟩ | ⟨_, _, rfl⟩ | ⟨_, _, _, h3, _⟩
    · cases h3
    · exact .inl ⟨rfl, by simp [fork, qar, qadd]⟩
    · cases h3
  · rcases h3 with ⟨h3, _⟩ | ⟨_, _, rfl⟩ | ⟨_, _, _, h3, _⟩
    · cases h3
    · exact .inr ⟨rfl, by simp [fork, qar, qadd]⟩
    · cases h3

theorem fork_score (w : Int) : IsScore (fork w) [some 0] 1 (some 0) :=
  ⟨1, 0, some 0, rfl, rfl, rfl, show some 0 = qmul (some 1) (some 0) by decide +kernel⟩

/-- The second way, and its cost. -/
theorem fork_second (w : Int) : Whole (fork w) (0, 0) still true [⟨1, 6, some w, 2⟩, ⟨1, 0, some 0, 3⟩] (some (w : Rat)) := by
  have h0 : PathTo (fork w) (0, 0) still [] (0, 0) (some 0) := .nil
  have h1 := PathTo.emit (e := fork w) (s := (0, 0)) (v := some 0) (a := ⟨1, 6, some w, 2⟩) (l := 0) (k := id) h0 (List.mem_cons_of_mem _ (List.mem_singleton_self _))
    Int.one_ne_zero rfl (fork_score w) (.off rfl)
  have h2 := PathTo.emit (e := fork w) (s := (2, 0)) (v := some 0) (a := ⟨1, 0, some 0, 3⟩) (l := 0) (k := id) h1 (List.mem_singleton_self _) Int.one_ne_zero rfl
    (fork_score w) (.off rfl)
  exact ⟨_, _, h2, rfl, .inr (.inl ⟨rfl, rfl, by simp [stepCost, fork, qar, qadd]⟩)⟩

/-- C95 fails in general: the decoder loses the cheapest path (cost 20, the word 6) because after the first frame it is 20
above another one, and answers with a path of cost 30 and the word 5. -/
theorem C95_search_error : ¬ Optimal (fork 20) := by
  intro h
  have h0 : initDecoder (fork 20) 5 fresh = .ok ⟨[⟨(0, 0), some 0, []⟩], [], [((0, 0), 0)], 0, false, 1⟩ := by
    decide +kernel
  obtain ⟨bs, cs, d, h1, h2, h3⟩ : ∃ bs cs d, feed (fork 20) 5 still
      ⟨[⟨(0, 0), some 0, []⟩], [], [((0, 0), 0)], 0, false, 1⟩ = .ok (bs, cs, d) ∧ bs = [true, true] ∧
      bestPath (fork 20) { d with eos := true } = .ok ([5], some 30) :=
    ⟨[true, true], [some ⟨some 16, some 16⟩, some ⟨some 16, some 46⟩],
      ⟨[⟨(3, 0), some 30, [5]⟩], [], [((3, 0), 0)], 2, false, 1⟩, by decide +kernel, rfl, by decide +kernel⟩
  subst h2
  obtain ⟨q, ⟨x, hq, _, hmin⟩, hw⟩ := h (0, 0) _ _ _ d true [5] (some 30) (fork_start 20)
    (feed_run (.init h0) h1) (by decide) h3
    ⟨_, some (20 : Int), fork_second 20, rfl, fun q y hy => by
      rcases fork_whole hy with ⟨_, rfl⟩ | ⟨_, rfl⟩ <;> decide +kernel⟩
  have := hmin _ _ (fork_second 20)
  rcases fork_whole hq with ⟨_, rfl⟩ | ⟨rfl, _⟩
  · revert this; decide +kernel
  · revert hw; decide +kernel

/-- With a first cost of 10 the second way never leaves the beam. -/
theorem fork_kept : Kept (fork 10) (0, 0) still true [⟨1, 6, some 10, 2⟩, ⟨1, 0, some 0, 3⟩] (some 10) := by
  have paths : ∀ q t (c' : Q), PathTo (fork 10) (0, 0) still q t c' → ∃ r : Rat, c' = some r ∧ 0 ≤ r := by
    intro q t c' h
    rcases fork_paths h with ⟨_, _, rfl⟩ | ⟨_, _, rfl⟩ | ⟨_, _, rfl⟩ | ⟨_, _, rfl⟩ | ⟨_, _, rfl⟩ <;>
      exact ⟨_, rfl, by norm_num⟩
  have reached : ∀ n o, Reached (fork 10) (0, 0) still n o → ∃ r : Rat, o = some r ∧ 0 ≤ r := by
    rintro n o ⟨p, s, c, a, f, v, h1, rfl, h2, h3, h4, h5, rfl⟩
    exact paths _ _ _ (.emit (l := s.2) (k := id) h1 h2 h3 h4 h5 (.off rfl))
  have above : ∀ (r x : Rat), 0 ≤ r → x ≤ 10 → qlt (qadd (some r) (some 16)) (some x) = false := by
    intro r x h1 h2
    simp only [qadd, qlt, decide_eq_false_iff_not]
    linarith
  have h0 : InBeam (fork 10) (0, 0) still [] (0, 0) (some 0) := .nil
  have h1 := h0.emit (a := ⟨1, 6, some 10, 2⟩) (v := some 0) (l := 0) (k := id) (by decide +kernel) Int.one_ne_zero rfl
    (fork_score 10) (.off rfl)
    (fun q t c' hq _ => by
      obtain ⟨r, rfl, hr⟩ := paths q t c' hq
      exact above r 0 hr (by norm_num))
    (fun o ho => by
      obtain ⟨r, rfl, hr⟩ := reached _ o ho
      have : qadd (qadd (some 0) (some 10)) (Option.map (fun x => -x) (some 0)) = some (10 : Rat) := by decide +kernel
      exact (congrArg _ this).trans (above r 10 hr (by norm_num)))
  have e1 : stepCost (fork 10) (some 0) (some 10) ((fork 10).ar.fneg (some 0)) id = some 10 := by decide +kernel
  simp only [e1] at h1
  have h2 := h1.emit (a := ⟨1, 0, some 0, 3⟩) (v := some 0) (l := 0) (k := id) (by decide +kernel) Int.one_ne_zero rfl
    (fork_score 10) (.off rfl)
    (fun q t c' hq _ => by
      obtain ⟨r, rfl, hr⟩ := paths q t c' hq
      exact above r 10 hr (by norm_num))
    (fun o ho => by
      obtain ⟨r, rfl, hr⟩ := reached _ o ho
      have : qadd (qadd (some 10) (some 0)) (Option.map (fun x => -x) (some 0)) = some (10 : Rat) := by decide +kernel
      exact (congrArg _ this).trans (above r 10 hr (by norm_num)))
  exact ⟨_, _, h2, rfl, .inr (.inl ⟨rfl, rfl, by decide +kernel⟩)⟩

-- it is found
example : ∃ bs cs d ws, Run (fork 10) still bs cs d ∧ bestPath (fork 10) { d with eos := true } = .ok (ws, some 10) ∧
    ∃ q, Cheapest (fork 10) (0, 0) still true q ∧ ws.reverse = wordsOf q := by
  have h0 : initDecoder (fork 10) 5 fresh = .ok ⟨[⟨(0, 0), some 0, []⟩], [], [((0, 0), 0)], 0, false, 1⟩ := by
    decide +kernel
  obtain ⟨bs, cs, d, h1, h2, h3⟩ : ∃ bs cs d, feed (fork 10) 5 still
      ⟨[⟨(0, 0), some 0, []⟩], [], [((0, 0), 0)], 0, false, 1⟩ = .ok (bs, cs, d) ∧ bs = [true, true] ∧
      bestPath (fork 10) { d with eos := true } = .ok ([6], some 10) := by
    refine ⟨[true, true], [some ⟨some 16, some 16⟩, some ⟨some 16, some 26⟩],
      ⟨[⟨(3, 0), some 10, [6]⟩], [], [((3, 0), 0)], 2, false, 2⟩, by decide +kernel, rfl, by decide +kernel⟩
  subst h2
  have hr := feed_run (.init h0) h1
  exact ⟨_, _, d, [6], hr, h3, C95_cheapest_partial qar_dorder qar_nan qar_mono hr (by decide) (fork_start 10)
    (fork_few 10) (fun _ _ _ _ => rfl) (fun _ _ _ => rfl) h3 fork_kept rfl fun q y hy => by
      rcases fork_whole hy with ⟨_, rfl⟩ | ⟨_, rfl⟩ <;> decide +kernel⟩

end Verif.Decoder.Beam
