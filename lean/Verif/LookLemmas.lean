import Verif.LookSpec

/-!
# Lookups that stay inside
-/

namespace Verif.Look

open Verif Verif.Fst Verif.Decoder Verif.Look.Spec

variable {F D : Type} {P : Int → Prop} {l : LGraph F} {e : Env F D}

theorem foldlM_same {α β : Type} {I : β → Prop} {f g : β → α → Exec β} : ∀ (as : List α) (b : β), I b →
    (∀ b a, a ∈ as → I b → f b a = g b a) → (∀ b a b', a ∈ as → I b → g b a = .ok b' → I b') →
    as.foldlM f b = as.foldlM g b
  | [], _, _, _, _ => rfl
  | a :: as, b, hb, h1, h2 => by
    rw [List.foldlM_cons, List.foldlM_cons, h1 b a (List.mem_cons_self ..) hb]
    cases hg : g b a with
    | error x => rfl
    | ok b' =>
      simp only [ok_bind]
      exact foldlM_same as b' (h2 b a b' (List.mem_cons_self ..) hb hg) (fun b a ha => h1 b a (List.mem_cons_of_mem _ ha))
        (fun b a b' ha => h2 b a b' (List.mem_cons_of_mem _ ha))

theorem foldlM_keep {α β : Type} {I : β → Prop} {g : β → α → Exec β} : ∀ (as : List α) (b b' : β), I b →
    (∀ b a b', a ∈ as → I b → g b a = .ok b' → I b') → as.foldlM g b = .ok b' → I b'
  | [], b, b', hb, _, h => by
    injection h with h
    rw [← h]
    exact hb
  | a :: as, b, b', hb, h2, h => by
    rw [List.foldlM_cons] at h
    obtain ⟨b1, h3, h4⟩ := bind_ok h
    exact foldlM_keep as b1 b' (h2 b a b1 (List.mem_cons_self ..) hb h3) (fun b a b' ha => h2 b a b' (List.mem_cons_of_mem _ ha)) h4

/-- The tokens are at states in `P`. -/
def In (P : Int → Prop) (ts : List (Token F)) : Prop := ∀ t ∈ ts, P t.state.1

theorem insert_in {d d' : Dec F} {st : State} {label : Int} {hist : List Int} {cost : F} {b : Bool}
    (h : insertTok e d st label hist cost = .ok (b, d')) (hd : In P d.toks) (hs : P st.1) :
    In P d'.toks ∧ d'.prev = d.prev ∧ d'.eos = d.eos := by
  unfold insertTok at h
  dsimp only at h
  split at h
  · injection h with h
    injection h with h1 h2
    subst h2
    refine ⟨?_, rfl, rfl⟩
    intro t ht
    rcases List.mem_append.1 ht with ht | ht
    · exact hd t ht
    · rw [List.mem_singleton.1 ht]
      exact hs
  · split at h
    · cases h
    · split at h
      · injection h with h
        injection h with h1 h2
        subst h2
        refine ⟨?_, rfl, rfl⟩
        intro t ht
        rcases List.mem_or_eq_of_mem_set ht with ht | ht
        · exact hd t ht
        · rw [ht]
          exact hs
      · injection h with h
        injection h with h1 h2
        subst h2
        exact ⟨hd, rfl, rfl⟩

theorem nonemitArc_in {i : Nat} {cutoff : D} {x x' : Dec F × List State} {a : GArc F} (ha : P a.next)
    (h : nonemitArc e i cutoff x a = .ok x') (h1 : In P x.1.toks) (h2 : ∀ s ∈ x.2, P s.1) :
    In P x'.1.toks ∧ (∀ s ∈ x'.2, P s.1) ∧ x'.1.prev = x.1.prev := by
  obtain ⟨d, stack⟩ := x
  unfold nonemitArc at h
  dsimp only at h h1 h2
  split at h
  · injection h with h
    subst h
    exact ⟨h1, h2, rfl⟩
  · split at h
    · cases h
    · rename_i tok _
      obtain ⟨⟨lm', total⟩, _, h⟩ := bind_ok h
      dsimp only at h
      split at h
      · injection h with h
        subst h
        exact ⟨h1, h2, rfl⟩
      · obtain ⟨⟨ins, d1⟩, h3, h⟩ := bind_ok h
        injection h with h
        subst h
        obtain ⟨k1, k2, _⟩ := insert_in h3 h1 (show P (a.next, lm').1 from ha)
        refine ⟨k1, ?_, k2⟩
        dsimp only
        intro s hs
        split at hs
        · rcases List.mem_cons.1 hs with rfl | hs
          · exact ha
          · exact h2 s hs
        · exact h2 s hs

theorem nonemitLoop_same (hc : Covers P l e.g) (cutoff : D) : ∀ (fuel : Nat) (d : Dec F) (stack : List State), In P d.toks →
    (∀ s ∈ stack, P s.1) → nonemitLoop e l cutoff fuel d stack = Decoder.nonemitLoop e cutoff fuel d stack
  | fuel, d, [], _, _ => by cases fuel <;> rfl
  | 0, _, _ :: _, _, _ => rfl
  | fuel + 1, d, st :: stack, h1, h2 => by
    have hst := h2 st (List.mem_cons_self ..)
    rw [nonemitLoop, Decoder.nonemitLoop]
    cases d.idx.lookup st with
    | none => rfl
    | some i =>
      dsimp only
      rw [hc.arcs _ hst]
      simp only [ok_bind]
      cases hr : (e.g.arcs st.1).foldlM (nonemitArc e i cutoff) (d, stack) with
      | error x => rfl
      | ok r =>
        simp only [ok_bind]
        have hk := foldlM_keep (I := fun x : Dec F × List State => In P x.1.toks ∧ ∀ s ∈ x.2, P s.1) _ _ _
          ⟨h1, fun s hs => h2 s (List.mem_cons_of_mem _ hs)⟩ (fun b a b' ha hb hf => by
            obtain ⟨k1, k2, _⟩ := nonemitArc_in (hc.next _ hst a ha) hf hb.1 hb.2
            exact ⟨k1, k2⟩) hr
        exact nonemitLoop_same hc cutoff fuel r.1 r.2 hk.1 hk.2

theorem nonemitLoop_in (hc : Covers P l e.g) (cutoff : D) : ∀ (fuel : Nat) (d : Dec F) (stack : List State) (d' : Dec F),
    In P d.toks → (∀ s ∈ stack, P s.1) → Decoder.nonemitLoop e cutoff fuel d stack = .ok d' →
    In P d'.toks ∧ d'.prev = d.prev
  | fuel, d, [], d', h, _, hr => by
    have : d' = d := by cases fuel <;> (injection hr with hr; exact hr.symm)
    subst this
    exact ⟨h, rfl⟩
  | 0, _, _ :: _, _, _, _, hr => by cases hr
  | fuel + 1, d, st :: stack, d', h1, h2, hr => by
    have hst := h2 st (List.mem_cons_self ..)
    rw [Decoder.nonemitLoop] at hr
    cases hl : d.idx.lookup st with
    | none =>
      rw [hl] at hr
      cases hr
    | some i =>
      rw [hl] at hr
      obtain ⟨r, hf, hr⟩ := bind_ok hr
      have hk := foldlM_keep (I := fun x : Dec F × List State => In P x.1.toks ∧ (∀ s ∈ x.2, P s.1) ∧ x.1.prev = d.prev) _ _ _
        ⟨h1, fun s hs => h2 s (List.mem_cons_of_mem _ hs), rfl⟩ (fun b a b' ha hb hf => by
          obtain ⟨k1, k2, k3⟩ := nonemitArc_in (hc.next _ hst a ha) hf hb.1 hb.2.1
          exact ⟨k1, k2, k3.trans hb.2.2⟩) hf
      obtain ⟨m1, m2⟩ := nonemitLoop_in hc cutoff fuel r.1 r.2 d' hk.1 hk.2.1 hr
      exact ⟨m1, m2.trans hk.2.2⟩

theorem stack_in {d : Dec F} (h : In P d.toks) : ∀ s ∈ (d.toks.map (·.state)).reverse, P s.1 := by
  intro s hs
  obtain ⟨t, ht, rfl⟩ := List.mem_map.1 (List.mem_reverse.1 hs)
  exact h t ht

theorem processNonemitting_same (hc : Covers P l e.g) (cutoff : D) (fuel : Nat) {d : Dec F} (h : In P d.toks) :
    processNonemitting e l cutoff fuel d = Decoder.processNonemitting e cutoff fuel d := by
  unfold processNonemitting Decoder.processNonemitting
  rw [nonemitLoop_same hc cutoff fuel d _ h (stack_in h)]

theorem processNonemitting_in (hc : Covers P l e.g) {cutoff : D} {fuel : Nat} {d d' : Dec F} (h : In P d.toks)
    (hr : Decoder.processNonemitting e cutoff fuel d = .ok d') : In P d'.toks ∧ d'.prev = d.prev := by
  unfold Decoder.processNonemitting at hr
  obtain ⟨_, _, hr⟩ := bind_ok hr
  exact nonemitLoop_in hc cutoff fuel d _ d' h (stack_in h) hr

theorem emitArc_in {frame : List F} {ab : F} {tok : Token F} {x x' : D × Dec F} {a : GArc F} (ha : P a.next)
    (h : emitArc e frame ab tok x a = .ok x') (h1 : In P x.2.toks) : In P x'.2.toks ∧ x'.2.prev = x.2.prev := by
  obtain ⟨nwc, d⟩ := x
  unfold emitArc at h
  dsimp only at h h1
  split at h
  · injection h with h
    subst h
    exact ⟨h1, rfl⟩
  · obtain ⟨total, _, h⟩ := bind_ok h
    split at h
    · injection h with h
      subst h
      exact ⟨h1, rfl⟩
    · obtain ⟨⟨lm', total'⟩, _, h⟩ := bind_ok h
      obtain ⟨_, _, h⟩ := bind_ok h
      obtain ⟨⟨b, d1⟩, h3, h⟩ := bind_ok h
      injection h with h
      subst h
      obtain ⟨k1, k2, _⟩ := insert_in h3 h1 (show P (a.next, lm').1 from ha)
      exact ⟨k1, k2⟩

theorem emitTok_same (hc : Covers P l e.g) {frame : List F} {wc ab : F} {x : D × Dec F} {tok : Token F} (ht : P tok.state.1) :
    emitTok e l frame wc ab x tok = Decoder.emitTok e frame wc ab x tok := by
  unfold emitTok Decoder.emitTok
  split
  · rfl
  · rw [hc.arcs _ ht]
    rfl

theorem emitTok_in (hc : Covers P l e.g) {frame : List F} {wc ab : F} {x x' : D × Dec F} {tok : Token F} (ht : P tok.state.1)
    (h : Decoder.emitTok e frame wc ab x tok = .ok x') (h1 : In P x.2.toks) : In P x'.2.toks ∧ x'.2.prev = x.2.prev := by
  unfold Decoder.emitTok at h
  split at h
  · injection h with h
    subst h
    exact ⟨h1, rfl⟩
  · obtain ⟨r, hf, h⟩ := bind_ok h
    injection h with h
    subst h
    exact foldlM_keep (I := fun y : D × Dec F => In P y.2.toks ∧ y.2.prev = x.2.prev) _ _ r ⟨h1, rfl⟩ (fun b a b' ha hb hf => by
      obtain ⟨k1, k2⟩ := emitArc_in (hc.next _ ht a ha) hf hb.1
      exact ⟨k1, k2.trans hb.2⟩) hf

theorem cutoffLoop_mem (ar : Arith F D) (n : Nat) : ∀ (ts : List (Token F)) (x : Nat) (costs : List F) (best : D) (t0 : Token F),
    (cutoffLoop ar n ts x costs best t0).2.2 = t0 ∨ (cutoffLoop ar n ts x costs best t0).2.2 ∈ ts
  | [], _, _, _, _ => .inl rfl
  | t :: ts, x, costs, best, t0 => by
    rw [cutoffLoop]
    split
    · rcases cutoffLoop_mem ar n ts (lcg x) (if sampled ar n (lcg x) then costs ++ [t.cost] else costs) (ar.toD t.cost) t with h | h
      · rw [h]
        exact .inr (List.mem_cons_self ..)
      · exact .inr (List.mem_cons_of_mem _ h)
    · rcases cutoffLoop_mem ar n ts (lcg x) (if sampled ar n (lcg x) then costs ++ [t.cost] else costs) best t0 with h | h
      · exact .inl h
      · exact .inr (List.mem_cons_of_mem _ h)

theorem getCutoff_mem {ar : Arith F D} {prev : List (Token F)} {c : D × F × Token F} (h : getCutoff ar prev = .ok c) :
    c.2.2 ∈ prev := by
  unfold getCutoff at h
  split at h
  · cases h
  · rename_i t0 ts
    have hm := cutoffLoop_mem ar (t0 :: ts).length (t0 :: ts) 802 [] ar.inf t0
    generalize cutoffLoop ar (t0 :: ts).length (t0 :: ts) 802 [] ar.inf t0 = q at h hm
    obtain ⟨costs, best, bt⟩ := q
    dsimp only at h hm
    have hb : bt ∈ t0 :: ts := by
      rcases hm with rfl | hm
      · exact List.mem_cons_self ..
      · exact hm
    split at h
    · injection h with h
      subst h
      exact hb
    · obtain ⟨m, _, h⟩ := bind_ok h
      injection h with h
      subst h
      exact hb

theorem processEmitting_same (hc : Covers P l e.g) (frame : List F) {d : Dec F} (h : In P d.toks) (h' : In P d.prev) :
    processEmitting e l frame d = Decoder.processEmitting e frame d := by
  unfold processEmitting Decoder.processEmitting
  dsimp only
  cases hg : getCutoff e.ar d.toks with
  | error x => rfl
  | ok c =>
    simp only [ok_bind]
    split
    · rfl
    · rw [hc.arcs _ (h _ (getCutoff_mem hg))]
      simp only [ok_bind]
      cases (e.g.arcs c.2.2.state.1).foldlM (bestArc e frame c.2.1 c.2.2.cost) e.ar.inf with
      | error x => rfl
      | ok nwc =>
        simp only [ok_bind]
        rw [foldlM_same (I := fun x : D × Dec F => In P x.2.toks) d.toks _ h' (fun b a ha _ => emitTok_same hc (h a ha))
          (fun b a b' ha hb hf => (emitTok_in hc (h a ha) hf hb).1)]

theorem processEmitting_in (hc : Covers P l e.g) {frame : List F} {d d' : Dec F} {c : Option (Cutoffs F D)} (h : In P d.toks)
    (h' : In P d.prev) (hr : Decoder.processEmitting e frame d = .ok (c, d')) : In P d'.toks ∧ In P d'.prev := by
  unfold Decoder.processEmitting at hr
  dsimp only at hr
  obtain ⟨⟨cut, ab, bt⟩, hg, hr⟩ := bind_ok hr
  dsimp only at hr
  split at hr
  · injection hr with hr
    injection hr with h1 h2
    subst h2
    exact ⟨h', h⟩
  · obtain ⟨nwc, _, hr⟩ := bind_ok hr
    obtain ⟨r, hf, hr⟩ := bind_ok hr
    injection hr with hr
    injection hr with h1 h2
    subst h2
    refine ⟨?_, fun t ht => by cases ht⟩
    exact foldlM_keep (I := fun x : D × Dec F => In P x.2.toks) d.toks (nwc, _) r h'
      (fun b a b' ha hb hf => (emitTok_in hc (h a ha) hf hb).1) hf

theorem process_same (hc : Covers P l e.g) (fuel : Nat) (frame : List F) {d : Dec F} (h : In P d.toks) (h' : In P d.prev) :
    process e l fuel frame d = (do
      let x ← Decoder.process e fuel frame d
      .ok (x.1, x.2.2)) := by
  unfold process Decoder.process
  rw [processEmitting_same hc frame h h']
  cases hr : Decoder.processEmitting e frame d with
  | error x => rfl
  | ok x =>
    obtain ⟨c, d1⟩ := x
    simp only [ok_bind]
    cases c with
    | none => rfl
    | some c =>
      dsimp only
      obtain ⟨k1, _⟩ := processEmitting_in hc h h' hr
      rw [processNonemitting_same hc _ fuel k1]
      split
      · rfl
      · cases Decoder.processNonemitting e (e.ar.toD (e.ar.toF c.next)) fuel d1 with
        | error x => rfl
        | ok d2 =>
          simp only [ok_bind]
          split <;> rfl

theorem process_in (hc : Covers P l e.g) {fuel : Nat} {frame : List F} {d d' : Dec F} {b : Bool} {c : Option (Cutoffs F D)}
    (h : In P d.toks) (h' : In P d.prev) (hr : Decoder.process e fuel frame d = .ok (b, c, d')) :
    In P d'.toks ∧ In P d'.prev := by
  unfold Decoder.process at hr
  obtain ⟨⟨c1, d1⟩, h1, hr⟩ := bind_ok hr
  obtain ⟨k1, k2⟩ := processEmitting_in hc h h' h1
  cases c1 with
  | none =>
    injection hr with hr
    injection hr with _ hr
    injection hr with _ hr
    subst hr
    exact ⟨k1, k2⟩
  | some c1 =>
    dsimp only at hr
    split at hr
    · injection hr with hr
      injection hr with _ hr
      injection hr with _ hr
      subst hr
      exact ⟨k1, k2⟩
    · obtain ⟨d2, h2, hr⟩ := bind_ok hr
      obtain ⟨m1, m2⟩ := processNonemitting_in hc k1 h2
      split at hr <;>
      · injection hr with hr
        injection hr with _ hr
        injection hr with _ hr
        subst hr
        exact ⟨m1, m2 ▸ k2⟩

theorem initDecoder_same (hc : Covers P l e.g) (fuel : Nat) (d : Dec F) :
    initDecoder e l fuel d = Decoder.initDecoder e fuel d := by
  unfold initDecoder Decoder.initDecoder
  rw [hc.start]
  cases cassert (decide (0 ≤ e.g.start)) with
  | error x => rfl
  | ok u =>
    simp only [ok_bind]
    cases lmStart e with
    | error x => rfl
    | ok ls =>
      simp only [ok_bind]
      cases hi : insertTok e { d with toks := [], prev := [] } (e.g.start, ls) 0 [] e.ar.zero with
      | error x => rfl
      | ok r =>
        obtain ⟨b, d1⟩ := r
        simp only [ok_bind]
        obtain ⟨k1, _⟩ := insert_in (P := P) hi (fun t ht => by cases ht) hc.start_in
        exact processNonemitting_same hc _ fuel k1

theorem initDecoder_in (hc : Covers P l e.g) {fuel : Nat} {d d' : Dec F} (hr : Decoder.initDecoder e fuel d = .ok d') :
    In P d'.toks ∧ In P d'.prev := by
  unfold Decoder.initDecoder at hr
  obtain ⟨_, _, hr⟩ := bind_ok hr
  obtain ⟨ls, _, hr⟩ := bind_ok hr
  obtain ⟨⟨b, d1⟩, hi, hr⟩ := bind_ok hr
  obtain ⟨k1, k2, _⟩ := insert_in (P := P) hi (fun t ht => by cases ht) hc.start_in
  obtain ⟨m1, m2⟩ := processNonemitting_in hc (d := { d1 with frames := 0 }) k1 hr
  refine ⟨m1, ?_⟩
  rw [m2]
  show In P d1.prev
  rw [k2]
  intro t ht
  cases ht

theorem pathCost_same (hc : Covers P l e.g) (eos : Bool) {tok : Token F} (ht : P tok.state.1) :
    pathCost e l eos tok = Decoder.pathCost e eos tok := by
  unfold pathCost Decoder.pathCost
  split
  · rw [hc.final _ ht]
    rfl
  · rfl

theorem bestLoop_same (hc : Covers P l e.g) (eos : Bool) : ∀ (ts : List (Token F)) (best : Option (Token F)) (cost : D), In P ts →
    bestLoop e l eos ts best cost = Decoder.bestLoop e eos ts best cost
  | [], _, _, _ => rfl
  | t :: ts, best, cost, h => by
    rw [bestLoop, Decoder.bestLoop, pathCost_same hc eos (h t (List.mem_cons_self ..))]
    cases Decoder.pathCost e eos t with
    | error x => rfl
    | ok c =>
      simp only [ok_bind]
      rw [bestLoop_same hc eos ts _ _ (fun u hu => h u (List.mem_cons_of_mem _ hu)),
        bestLoop_same hc eos ts _ _ (fun u hu => h u (List.mem_cons_of_mem _ hu))]

theorem bestLoop_in (eos : Bool) : ∀ (ts : List (Token F)) (best : Option (Token F)) (cost : D) (r : Option (Token F) × D),
    In P ts → (∀ t ∈ best, P t.state.1) → Decoder.bestLoop e eos ts best cost = .ok r → ∀ t ∈ r.1, P t.state.1
  | [], best, cost, r, _, hb, h => by
    injection h with h
    subst h
    exact hb
  | t :: ts, best, cost, r, hts, hb, h => by
    rw [Decoder.bestLoop] at h
    obtain ⟨c, _, h⟩ := bind_ok h
    split at h
    · exact bestLoop_in eos ts _ _ r (fun u hu => hts u (List.mem_cons_of_mem _ hu))
        (fun u hu => by injection hu with hu; rw [← hu]; exact hts t (List.mem_cons_self ..)) h
    · exact bestLoop_in eos ts _ _ r (fun u hu => hts u (List.mem_cons_of_mem _ hu)) hb h

theorem bestPath_same (hc : Covers P l e.g) {d : Dec F} (h : In P d.toks) : bestPath e l d = Decoder.bestPath e d := by
  unfold bestPath Decoder.bestPath
  rw [bestLoop_same hc d.eos d.toks none _ h]
  cases hr : Decoder.bestLoop e d.eos d.toks none e.ar.inf with
  | error x => rfl
  | ok r =>
    simp only [ok_bind]
    have hk := bestLoop_in d.eos d.toks none _ r h (fun t ht => by cases ht) hr
    obtain ⟨best, cost⟩ := r
    cases best with
    | none => rfl
    | some t =>
      dsimp only
      rw [hc.final _ (hk t rfl)]
      rfl

theorem step_same (hc : Covers P l e.g) (fuel : Nat) {d : Dec F} (h : In P d.toks) (h' : In P d.prev) (c : Call F) :
    step e l fuel d c = Spec.step e fuel d c := by
  cases c with
  | init =>
    show (do let d ← initDecoder e l fuel d; .ok (Answer.unit, d)) = _
    rw [initDecoder_same hc]
    rfl
  | frame f =>
    show (do let x ← process e l fuel f d; .ok (Answer.bool x.1, x.2)) = _
    rw [process_same hc fuel f h h']
    show _ = (do let x ← Decoder.process e fuel f d; .ok (Answer.bool x.1, x.2.2))
    cases Decoder.process e fuel f d <;> rfl
  | eos => rfl
  | best =>
    show (do let x ← bestPath e l d; .ok (Answer.path x.1 x.2, d)) = _
    rw [bestPath_same hc h]
    rfl

theorem step_in (hc : Covers P l e.g) {fuel : Nat} {d : Dec F} (h : In P d.toks) (h' : In P d.prev) {c : Call F}
    {x : Answer F × Dec F} (hr : Spec.step e fuel d c = .ok x) : In P x.2.toks ∧ In P x.2.prev := by
  cases c with
  | init =>
    obtain ⟨d1, h1, hr⟩ := bind_ok (show (do let d ← Decoder.initDecoder e fuel d; .ok (Answer.unit, d)) = .ok x from hr)
    injection hr with hr
    subst hr
    exact initDecoder_in hc h1
  | frame f =>
    obtain ⟨⟨b, c, d1⟩, h1, hr⟩ := bind_ok
      (show (do let x ← Decoder.process e fuel f d; .ok (Answer.bool x.1, x.2.2)) = .ok x from hr)
    injection hr with hr
    subst hr
    exact process_in hc h h' h1
  | eos =>
    injection hr with hr
    subst hr
    exact ⟨h, h'⟩
  | best =>
    obtain ⟨p, _, hr⟩ := bind_ok (show (do let x ← Decoder.bestPath e d; .ok (Answer.path x.1 x.2, d)) = .ok x from hr)
    injection hr with hr
    subst hr
    exact ⟨h, h'⟩

theorem run_same (hc : Covers P l e.g) (fuel : Nat) : ∀ (calls : List (Call F)) (d : Dec F), In P d.toks → In P d.prev →
    run e l fuel d calls = Spec.run e fuel d calls
  | [], _, _, _ => rfl
  | c :: cs, d, h, h' => by
    rw [run, Spec.run, step_same hc fuel h h' c]
    cases hr : Spec.step e fuel d c with
    | error x => rfl
    | ok x =>
      simp only [ok_bind]
      obtain ⟨k1, k2⟩ := step_in hc h h' hr
      rw [run_same hc fuel cs x.2 k1 k2]

end Verif.Look
