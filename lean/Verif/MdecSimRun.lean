import Verif.MdecSimFrame

/-!
# The decoder with its memory against the half-way decoder: whole calls
-/

set_option linter.unusedSectionVars false
set_option linter.unusedVariables false

namespace Verif.Mdec

open Verif Verif.Fst Verif.Decoder
open Verif.Pool (Addr ArenaInv)

variable {F D : Type}

/-- The relation between two calls: the tokens of the previous frame that are left are all alive. -/
def Full (e : Env F D) (bd : Prop) (m : Mem F) (h : Mid.Half F) : Prop := Rel e bd m.prev h.prev m h

/-- Nothing in the relation is about the lists of previous tokens in the decoders themselves. -/
theorem rel_prev {e : Env F D} {bd : Prop} {ps ps' : List Addr} {ts ts' : List (Tok F)} {m : Mem F} {h : Mid.Half F}
    (r : Rel e bd ps ts m h) : Rel e bd ps ts { m with prev := ps' } { h with prev := ts' } :=
  ⟨r.live, r.nodup, r.toks, r.prevs, r.findable, r.stores, r.size, r.strong, r.words, r.cache, r.frames, r.eos,
    r.small, r.states⟩

theorem insertTok_prev {e : Env F D} {m : Mem F} {st : State} {label : Int} {o : Option Addr} {cost : F}
    {r : Bool × Mem F} (hr : insertTok e m st label o cost = .ok r) : r.2.prev = m.prev := by
  unfold insertTok at hr
  obtain ⟨i, _, hr⟩ := bind_ok hr
  obtain ⟨⟨w, x⟩, _, hr⟩ := bind_ok hr
  simp only at hr
  split at hr
  · obtain ⟨⟨p, a⟩, _, hr⟩ := bind_ok hr
    obtain ⟨t, _, hr⟩ := bind_ok hr
    cases hr; rfl
  · obtain ⟨a, _, hr⟩ := bind_ok hr
    obtain ⟨old, _, hr⟩ := bind_ok hr
    split at hr
    · obtain ⟨⟨p, a'⟩, _, hr⟩ := bind_ok hr
      obtain ⟨t, _, hr⟩ := bind_ok hr
      cases hr; rfl
    · cases hr; rfl

theorem insertTok_prev' {e : Env F D} {h : Mid.Half F} {st : State} {label : Int} {o : Option Addr} {cost : F}
    {r : Bool × Mid.Half F} (hr : Mid.insertTok e h st label o cost = .ok r) : r.2.prev = h.prev := by
  unfold Mid.insertTok at hr
  obtain ⟨⟨w, x⟩, _, hr⟩ := bind_ok hr
  simp only at hr
  split at hr
  · cases hr; rfl
  · split at hr
    · cases hr
    · split at hr <;> cases hr <;> rfl

theorem foldlM_keep {α γ δ : Type} {g : α → γ → Exec α} {P : α → δ} : ∀ (l : List γ),
    (∀ a x a', x ∈ l → g a x = .ok a' → P a' = P a) → ∀ a a', l.foldlM g a = .ok a' → P a' = P a
  | [], _, a, a', h => by cases (by simpa [pure, Except.pure] using h : a = a'); rfl
  | x :: l, hs, a, a', h => by
    rw [List.foldlM_cons] at h
    obtain ⟨a1, h1, h⟩ := bind_ok h
    rw [foldlM_keep l (fun a y a' hy => hs a y a' (by simp [hy])) _ _ h, hs a x a1 (by simp) h1]

theorem nonemitArc_prev {e : Env F D} {i : Int} {cutoff : D} {acc r : Mem F × List State} {arc : GArc F}
    (h : nonemitArc e i cutoff acc arc = .ok r) : r.1.prev = acc.1.prev := by
  obtain ⟨d, stack⟩ := acc
  unfold nonemitArc at h
  simp only at h
  split at h
  · cases h; rfl
  · obtain ⟨a, _, h⟩ := bind_ok h
    obtain ⟨tok, _, h⟩ := bind_ok h
    obtain ⟨⟨l, t, c⟩, _, h⟩ := bind_ok h
    simp only at h
    split at h
    · cases h; rfl
    · obtain ⟨⟨ins, d'⟩, h1, h⟩ := bind_ok h
      cases h
      exact insertTok_prev h1

theorem nonemitArc_prev' {e : Env F D} {i : Nat} {cutoff : D} {acc r : Mid.Half F × List State} {arc : GArc F}
    (h : Mid.nonemitArc e i cutoff acc arc = .ok r) : r.1.prev = acc.1.prev := by
  obtain ⟨d, stack⟩ := acc
  unfold Mid.nonemitArc at h
  simp only at h
  split at h
  · cases h; rfl
  · split at h
    · cases h
    · obtain ⟨⟨l, t⟩, _, h⟩ := bind_ok h
      simp only at h
      split at h
      · cases h; rfl
      · obtain ⟨⟨ins, d'⟩, h1, h⟩ := bind_ok h
        cases h
        exact insertTok_prev' h1

theorem nonemitLoop_prev {e : Env F D} {cutoff : D} : ∀ (fuel : Nat) {h h' : Mem F} {stack : List State},
    nonemitLoop e cutoff fuel h stack = .ok h' → h'.prev = h.prev
  | 0, h, h', [], hh => by unfold nonemitLoop at hh; cases hh; rfl
  | 0, h, h', _ :: _, hh => by unfold nonemitLoop at hh; cases hh
  | fuel + 1, h, h', [], hh => by unfold nonemitLoop at hh; cases hh; rfl
  | fuel + 1, h, h', st :: stack, hh => by
    unfold nonemitLoop at hh
    obtain ⟨i, _, hh⟩ := bind_ok hh
    obtain ⟨_, _, hh⟩ := bind_ok hh
    obtain ⟨⟨h1, s1⟩, g1, hh⟩ := bind_ok hh
    rw [nonemitLoop_prev fuel hh]
    exact foldlM_keep (P := fun a : Mem F × List State => a.1.prev) _ (fun a x a' _ hx => nonemitArc_prev hx) _ _ g1

theorem nonemitLoop_prev' {e : Env F D} {cutoff : D} : ∀ (fuel : Nat) {h h' : Mid.Half F} {stack : List State},
    Mid.nonemitLoop e cutoff fuel h stack = .ok h' → h'.prev = h.prev
  | 0, h, h', [], hh => by unfold Mid.nonemitLoop at hh; cases hh; rfl
  | 0, h, h', _ :: _, hh => by unfold Mid.nonemitLoop at hh; cases hh
  | fuel + 1, h, h', [], hh => by unfold Mid.nonemitLoop at hh; cases hh; rfl
  | fuel + 1, h, h', st :: stack, hh => by
    unfold Mid.nonemitLoop at hh
    split at hh
    · cases hh
    · obtain ⟨⟨h1, s1⟩, g1, hh⟩ := bind_ok hh
      rw [nonemitLoop_prev' fuel hh]
      exact foldlM_keep (P := fun a : Mid.Half F × List State => a.1.prev) _
        (fun a x a' _ hx => nonemitArc_prev' hx) _ _ g1

theorem processNonemitting_prev {e : Env F D} {cutoff : D} {fuel : Nat} {h h' : Mem F}
    (hh : processNonemitting e cutoff fuel h = .ok h') : h'.prev = h.prev := by
  unfold processNonemitting at hh
  obtain ⟨_, _, hh⟩ := bind_ok hh
  obtain ⟨_, _, hh⟩ := bind_ok hh
  exact nonemitLoop_prev fuel hh

theorem processNonemitting_prev' {e : Env F D} {cutoff : D} {fuel : Nat} {h h' : Mid.Half F}
    (hh : Mid.processNonemitting e cutoff fuel h = .ok h') : h'.prev = h.prev := by
  unfold Mid.processNonemitting at hh
  obtain ⟨_, _, hh⟩ := bind_ok hh
  exact nonemitLoop_prev' fuel hh

/-- `processNonemitting_sim` for the whole relation. -/
theorem processNonemitting_full {e : Env F D} (hlab : LmLabels e) {bd : Prop} (cutoff : D) (fuel : Nat) {m : Mem F}
    {h : Mid.Half F} (r : Full e bd m h) :
    Sim bd Fits (Full e bd) (processNonemitting e cutoff fuel m) (Mid.processNonemitting e cutoff fuel h) := by
  have hs := processNonemitting_sim hlab cutoff fuel r
  refine ⟨fun b hb => ?_, hs.bwd⟩
  obtain ⟨a, h1, h2⟩ := hs.fwd b hb
  refine ⟨a, h1, ?_⟩
  unfold Full
  rw [processNonemitting_prev hb, processNonemitting_prev' h1]
  exact h2

/-- The start of a frame: the table is emptied and the two lists of tokens change places. -/
theorem rel_swap {e : Env F D} {bd : Prop} {m : Mem F} {h : Mid.Half F} (r : Full e bd m h) (hF : bd → Fits h) :
    Full e bd { m with table := HashTable.clear m.table, toks := m.prev, prev := m.toks }
      { h with idx := [], toks := h.prev, prev := h.toks } := by
  unfold Full at r ⊢
  obtain ⟨live, l1, l2, l3⟩ := r.live
  refine ⟨⟨live, l1, l2, fun a ha => l3 a ha.symm⟩, ?_, r.prevs, r.toks, HashTable.clear_findable, ?_, ?_, ?_, r.words,
    r.cache, r.frames, r.eos, r.small, fun hbd t ht => r.states hbd t ht.symm⟩
  · have := List.nodup_append.mp r.nodup
    exact List.nodup_append.mpr ⟨this.2.1, this.1, fun a ha b hb e => this.2.2 b hb a ha e.symm⟩
  · exact HashTable.stores_congr HashTable.clear_stores (by funext k; rfl)
  · rfl
  · intro hbd _
    exact (r.strong hbd (hF hbd)).clear

theorem processEmitting_sim {e : Env F D} (hlab : LmLabels e) {bd : Prop} (frame : List F) {m : Mem F}
    {h : Mid.Half F} (r : Full e bd m h) (hF : bd → Fits h) :
    Sim bd (fun a => Fits a.2) (fun b a => b.1 = a.1 ∧ Full e bd b.2 a.2) (processEmitting e frame m)
      (Mid.processEmitting e frame h) := by
  have r' := rel_swap r hF
  have hread : ({ m with table := HashTable.clear m.table, toks := m.prev, prev := m.toks } : Mem F).readAll m.toks =
    .ok h.toks := readAll_points r'.prevs
  unfold processEmitting Mid.processEmitting
  simp only
  rw [hread, ok_bind]
  refine (Sim.same (Bd := fun _ => True) _).bind ?_ (fun _ _ _ _ => trivial)
  rintro ⟨cut, ab, best⟩ _ rfl
  simp only
  split
  · exact Sim.ok ⟨rfl, r'⟩
  · refine (Sim.same (Bd := fun _ => True) _).bind ?_ (fun _ _ _ _ => trivial)
    rintro nwc _ rfl
    refine (emitToks_sim hlab frame _ _ _ _ r' nwc).bind ?_ ?_
    · rintro ⟨n1, m1⟩ ⟨n2, h1⟩ ⟨f1, f2⟩
      simp only at f1 f2
      subst f1
      exact Sim.ok ⟨rfl, rel_prev f2⟩
    · rintro ⟨n1, h1⟩ c hc hB
      cases hc
      exact hB

theorem propagate_sim {e : Env F D} (hlab : LmLabels e) {bd : Prop} (fuel : Nat) (frame : List F) {m : Mem F}
    {h : Mid.Half F} (r : Full e bd m h) (hF : bd → Fits h) :
    Sim bd (fun a => Fits a.2.2) (fun b a => b.1 = a.1 ∧ b.2.1 = a.2.1 ∧ Full e bd b.2.2 a.2.2)
      (propagate e fuel frame m) (Mid.propagate e fuel frame h) := by
  unfold propagate Mid.propagate
  refine (processEmitting_sim hlab frame r hF).bind ?_ ?_
  · rintro ⟨c, m1⟩ ⟨c', h1⟩ ⟨f1, f2⟩
    simp only at f1 f2
    subst f1
    cases c with
    | none => exact Sim.ok ⟨rfl, rfl, f2⟩
    | some c =>
      simp only
      split
      · exact Sim.ok ⟨rfl, rfl, f2⟩
      · refine (processNonemitting_full hlab _ fuel f2).bind ?_ ?_
        · intro m2 h2 f3
          have : (m2.toks = []) ↔ (h2.toks = []) := by
            have := f3.toks.length_eq
            rw [← List.length_eq_zero_iff, ← List.length_eq_zero_iff, this]
          by_cases hz : h2.toks = []
          · rw [if_pos (this.mpr hz), if_pos hz]
            exact Sim.ok ⟨rfl, rfl, f3⟩
          · rw [if_neg (fun h => hz (this.mp h)), if_neg hz]
            exact Sim.ok ⟨rfl, rfl, f3⟩
        · intro h2 c hc hB
          split at hc <;> cases hc <;> exact hB
  · rintro ⟨c, h1⟩ x hx hB
    cases c with
    | none => cases hx; exact hB
    | some c =>
      simp only at hx
      split at hx
      · cases hx; exact hB
      · obtain ⟨h2, g1, hx⟩ := bind_ok hx
        have := processNonemitting_mono g1
        split at hx <;> cases hx <;> exact Nat.le_trans this hB

theorem rel_words {e : Env F D} {bd : Prop} {ps : List Addr} {ts : List (Tok F)} {m : Mem F} {h : Mid.Half F}
    (r : Rel e bd ps ts m h) (w : Gc.GPool) : Rel e bd ps ts { m with words := w } { h with words := w } :=
  ⟨r.live, r.nodup, r.toks, r.prevs, r.findable, r.stores, r.size, r.strong, rfl, r.cache, r.frames, r.eos,
    r.small, r.states⟩

theorem tidy_frames {h h' : Mid.Half F} (hh : Mid.tidy h = .ok h') : h'.frames = h.frames ∧ h'.idx = h.idx := by
  unfold Mid.tidy at hh
  split at hh
  · obtain ⟨w, _, hh⟩ := bind_ok hh
    cases hh; exact ⟨rfl, rfl⟩
  · cases hh; exact ⟨rfl, rfl⟩

theorem tidy_sim {e : Env F D} {bd : Prop} {m : Mem F} {h : Mid.Half F} (r : Full e bd m h) :
    Sim bd (fun _ => True) (Full e bd) (tidy m) (Mid.tidy h) := by
  unfold tidy Mid.tidy
  have hfr := r.frames
  have : m.frames.tmod 20 = 0 ↔ h.frames % 20 = 0 := by
    rw [hfr, Int.tmod_eq_emod_of_nonneg (by omega)]
    omega
  by_cases hz : h.frames % 20 = 0
  · rw [if_pos (this.mpr hz), if_pos hz, readAll_points r.toks, ok_bind, r.words]
    refine (Sim.same (Bd := fun _ => True) _).bind ?_ (fun _ _ _ _ => trivial)
    rintro w _ rfl
    exact Sim.ok (rel_words r w)
  · rw [if_neg (fun h => hz (this.mp h)), if_neg hz]
    exact Sim.ok r

/-- The frame counter has not overflowed. -/
def Counts (h : Mid.Half F) : Prop := h.frames ≤ 2147483647

theorem finish_sim {e : Env F D} {bd : Prop} {m : Mem F} {h : Mid.Half F} (r : Full e bd m h) :
    Sim bd Counts (Full e bd) (finish m) (Mid.finish h) := by
  unfold finish Mid.finish
  refine (tidy_sim r).bind ?_ (fun _ _ _ _ => trivial)
  intro m1 h1 r1
  have hfr := r1.frames
  constructor
  · intro b hb
    obtain ⟨n, hn, hb⟩ := bind_ok hb
    obtain ⟨hn1, hn2⟩ := i32_ok hn
    cases hb
    refine ⟨_, rfl, ⟨r1.live, r1.nodup, r1.toks, r1.prevs, r1.findable, r1.stores, r1.size, r1.strong, r1.words,
      r1.cache, ?_, r1.eos, r1.small, r1.states⟩⟩
    simp only
    push_cast
    omega
  · intro hbd a ha hB
    cases ha
    unfold Counts at hB
    simp only at hB
    rw [i32_of (by constructor <;> omega), ok_bind]
    exact ⟨_, rfl⟩

theorem process_sim {e : Env F D} (hlab : LmLabels e) {bd : Prop} (fuel : Nat) (frame : List F) {m : Mem F}
    {h : Mid.Half F} (r : Full e bd m h) (hF : bd → Fits h) :
    Sim bd (fun a => Fits a.2.2 ∧ Counts a.2.2) (fun b a => b.1 = a.1 ∧ b.2.1 = a.2.1 ∧ Full e bd b.2.2 a.2.2)
      (process e fuel frame m) (Mid.process e fuel frame h) := by
  unfold process Mid.process
  refine (propagate_sim hlab fuel frame r hF).bind ?_ ?_
  · rintro ⟨b1, c1, m1⟩ ⟨b2, c2, h1⟩ ⟨f1, f2, f3⟩
    simp only at f1 f2 f3
    subst f1 f2
    cases b1 with
    | false => exact Sim.ok ⟨rfl, rfl, f3⟩
    | true =>
      simp only [if_true]
      refine (finish_sim f3).bind ?_ ?_
      · intro m2 h2 f4
        exact Sim.ok ⟨rfl, rfl, f4⟩
      · intro h2 x hx hB
        cases hx
        exact hB.2
  · rintro ⟨b, c, h1⟩ x hx hB
    cases b with
    | false => cases hx; exact hB.1
    | true =>
      simp only [if_true] at hx
      obtain ⟨h2, g1, hx⟩ := bind_ok hx
      unfold Mid.finish at g1
      obtain ⟨h3, g2, g1⟩ := bind_ok g1
      cases g1
      cases hx
      have := (tidy_frames g2).2
      have hb := hB.1
      unfold Fits at hb ⊢
      simp only [this] at hb
      exact hb

theorem newCache_ok (e : Env F D) : CacheOk e (newCache 1000000) := by
  have hn : (0 : Nat) < 1000000 := by decide
  generalize 1000000 = n at hn ⊢
  intro lm _
  refine ⟨newCache_inv lm n, ?_⟩
  intro h
  have := congrArg List.length h
  simp only [newCache, List.length_replicate, List.length_nil] at this
  omega

theorem new_full (e : Env F D) (bd : Prop) (hS : bd → Small e) :
    ∃ m : Mem F, new = .ok m ∧ Full e bd m Mid.fresh := by
  obtain ⟨t, h1, h2, h3⟩ := tableOk_new
  unfold new
  rw [h1, ok_bind]
  refine ⟨_, rfl, ?_⟩
  have hst : HashTable.Stores t.slots (fun _ => (none : Option Int)) :=
    (HashTable.new_rel (hash := HashTable.hashState) h1).2
  refine ⟨⟨[], Pool.arena_init_inv, rfl, by simp⟩, by simp, .nil, .nil, h2.wf.findable, hst, h3, fun _ _ => h2, rfl,
    newCache_ok e, rfl, rfl, hS, by simp [Mid.fresh]⟩

theorem initDecoder_sim {e : Env F D} (hlab : LmLabels e) {bd : Prop} (fuel : Nat) {m : Mem F}
    (r : Full e bd m Mid.fresh) (hm : m.toks = [] ∧ m.prev = []) :
    Sim bd Fits (Full e bd) (initDecoder e fuel m) (Mid.initDecoder e fuel Mid.fresh) := by
  unfold initDecoder Mid.initDecoder
  refine (Sim.same (Bd := fun _ => True) _).bind ?_ (fun _ _ _ _ => trivial)
  intro _ _ _
  cases hls : lmStart e with
  | error f => exact Sim.error
  | ok ls =>
    rw [ok_bind, ok_bind]
    have hr : Rel e bd [] [] ({ m with toks := [], prev := [] } : Mem F) ({ (Mid.fresh : Mid.Half F) with toks := [], prev := [] }) := by
      have : ({ m with toks := [], prev := [] } : Mem F) = m := by
        obtain ⟨h1, h2⟩ := hm
        cases m
        simp only at h1 h2
        subst h1 h2
        rfl
      rw [this]
      have r' := r
      unfold Full at r'
      rw [hm.2] at r'
      exact r'
    have hs := insertTok_sim hr (e.g.start, ls) 0 none e.ar.zero (fun hbd => ⟨(hr.small hbd).start, by
      unfold lmStart at hls
      split at hls
      · rename_i lm hlm
        exact (hr.small hbd).lmStart lm hlm ls hls
      · cases hls; exact ⟨by omega, by omega⟩⟩)
    have hs' : Sim bd (fun a : Bool × Mid.Half F => Fits a.2)
        (fun (b : Bool × Mem F) a => b.1 = a.1 ∧ Full e bd b.2 a.2)
        (insertTok e { m with toks := [], prev := [] } (e.g.start, ls) 0 none e.ar.zero)
        (Mid.insertTok e { (Mid.fresh : Mid.Half F) with toks := [], prev := [] } (e.g.start, ls) 0 none e.ar.zero) := by
      refine ⟨fun b hb => ?_, hs.bwd⟩
      obtain ⟨a, g1, g2, g3⟩ := hs.fwd b hb
      refine ⟨a, g1, g2, ?_⟩
      unfold Full
      rw [insertTok_prev hb, insertTok_prev' g1]
      exact g3
    refine hs'.bind ?_ ?_
    · rintro ⟨b1, m1⟩ ⟨b2, h1⟩ ⟨f1, f2⟩
      refine processNonemitting_full hlab _ fuel ?_
      exact ⟨f2.live, f2.nodup, f2.toks, f2.prevs, f2.findable, f2.stores, f2.size, f2.strong, f2.words,
        f2.cache, rfl, f2.eos, f2.small, f2.states⟩
    · rintro ⟨b, h1⟩ c hc hB
      exact Nat.le_trans (processNonemitting_mono (h := { h1 with frames := 0 }) hc) hB

theorem endOfStream_full {e : Env F D} {bd : Prop} {m : Mem F} {h : Mid.Half F} (r : Full e bd m h) :
    Full e bd (endOfStream m) (Mid.endOfStream h) :=
  ⟨r.live, r.nodup, r.toks, r.prevs, r.findable, r.stores, r.size, r.strong, r.words, r.cache, r.frames, rfl,
    r.small, r.states⟩

/-- The best token as pointer and as value. -/
def Same (m : Mem F) : Option Addr × D → Option (Tok F) × D → Prop
  | (none, c), (none, c') => c = c'
  | (some a, c), (some t, c') => c = c' ∧ m.pool.cells a = some t
  | _, _ => False

theorem bestLoop_same {e : Env F D} {m : Mem F} : ∀ {as : List Addr} {ts : List (Tok F)}, Points m as ts →
    ∀ (best : Option Addr) (best' : Option (Tok F)) (cost : D), Same m (best, cost) (best', cost) →
      (∃ f, bestLoop e m as best cost = .error f ∧ Mid.bestLoop e m.eos ts best' cost = .error f) ∨
      ∃ x y, bestLoop e m as best cost = .ok x ∧ Mid.bestLoop e m.eos ts best' cost = .ok y ∧ Same m x y
  | _, _, .nil, best, best', cost, h => .inr ⟨_, _, rfl, rfl, h⟩
  | _, _, .cons (a := a) (b := t) h0 hs, best, best', cost, h => by
    unfold bestLoop Mid.bestLoop
    rw [tok_of h0, ok_bind]
    cases hc : pathCost e m.eos t.view with
    | error f => exact .inl ⟨f, rfl, rfl⟩
    | ok c =>
      rw [ok_bind, ok_bind]
      split
      · exact bestLoop_same hs (some a) (some t) c ⟨rfl, h0⟩
      · exact bestLoop_same hs best best' cost h

/-- The best path is the same. -/
theorem bestPath_eq {e : Env F D} {bd : Prop} {m : Mem F} {h : Mid.Half F} (r : Full e bd m h) :
    bestPath e m = Mid.bestPath e h := by
  unfold bestPath Mid.bestPath
  rw [← r.eos]
  rcases bestLoop_same r.toks none none e.ar.inf rfl with ⟨f, h1, h2⟩ | ⟨⟨b, c⟩, ⟨b', c'⟩, h1, h2, hsame⟩
  · rw [h1, h2]; rfl
  · rw [h1, h2, ok_bind, ok_bind]
    cases b with
    | none =>
      cases b' with
      | none => rfl
      | some t => exact absurd hsame (by simp [Same])
    | some a =>
      cases b' with
      | none => exact absurd hsame (by simp [Same])
      | some t =>
        obtain ⟨rfl, hc⟩ := hsame
        simp only
        rw [tok_of hc, ok_bind, r.words]

end Verif.Mdec
