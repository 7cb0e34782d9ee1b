import Verif.MdecSimRun
import Verif.GcRun

/-!
# The half-way decoder against the decoder with values
-/

set_option linter.unusedSectionVars false
set_option linter.unusedVariables false

namespace Verif.Mdec

open Verif Verif.Fst Verif.Decoder
open Verif.Pool (Addr ArenaInv)
open Verif.Gc (GInv GoodH Hist)

variable {F D : Type}

/-- Both computations reach an end or neither does; the results are related. -/
abbrev Both {α β : Type} (R : β → α → Prop) (x : Exec β) (y : Exec α) : Prop := Sim True (fun _ => True) R x y

theorem Both.bind {α β γ δ : Type} {R : β → α → Prop} {R' : δ → γ → Prop} {x : Exec β} {y : Exec α} {f : β → Exec δ}
    {g : α → Exec γ} (h : Both R x y) (hk : ∀ b a, R b a → Both R' (f b) (g a)) : Both R' (x >>= f) (y >>= g) :=
  Sim.bind h hk (fun _ _ _ _ => trivial)

theorem Both.foldlM {α β γ : Type} {R : β → α → Prop} {f : β → γ → Exec β} {g : α → γ → Exec α} (l : List γ)
    (hs : ∀ b a x, x ∈ l → R b a → Both R (f b x) (g a x)) (b : β) (a : α) (h : R b a) :
    Both R (l.foldlM f b) (l.foldlM g a) :=
  Sim.foldlM (fun _ _ _ _ _ => trivial) l hs b a h

/-- A token with its history in memory against one with its history as a list. -/
structure TokRel (w : Gc.GPool) (Good : Addr → Prop) (t : Tok F) (u : Token F) : Prop where
  state : t.state = u.state
  cost : t.cost = u.cost
  good : GoodH Good t.olabel
  hist : Hist w.mem t.olabel u.hist

/-- The half-way decoder `h` stands for the decoder `d`; `ps` and `us` are the tokens of the previous frame still to
be looked at. -/
structure VRel (ps : List (Tok F)) (us : List (Token F)) (h : Mid.Half F) (d : Dec F) : Prop where
  inv : ∃ live Good, GInv blockSize h.words.arena h.words.mem live Good ∧
    List.Forall₂ (TokRel h.words Good) h.toks d.toks ∧ List.Forall₂ (TokRel h.words Good) ps us
  idx : h.idx = d.idx
  frames : h.frames = d.frames
  eos : h.eos = d.eos
  live : h.live = d.live

theorem forall2_mono {α β : Type} {R S : α → β → Prop} {as : List α} {bs : List β} (h : List.Forall₂ R as bs)
    (hi : ∀ a b, R a b → S a b) : List.Forall₂ S as bs := List.Forall₂.imp hi h

theorem forall2_set {α β : Type} {R : α → β → Prop} {a : α} {b : β} (hab : R a b) : ∀ {as : List α} {bs : List β}
    (i : Nat), List.Forall₂ R as bs → List.Forall₂ R (as.set i a) (bs.set i b)
  | _, _, _, .nil => .nil
  | _, _, 0, .cons h0 hs => .cons hab hs
  | _, _, i + 1, .cons h0 hs => .cons h0 (forall2_set hab i hs)

theorem forall2_get {α β : Type} {R : α → β → Prop} : ∀ {as : List α} {bs : List β}, List.Forall₂ R as bs →
    ∀ i : Nat, (as[i]? = none ∧ bs[i]? = none) ∨ ∃ a b, as[i]? = some a ∧ bs[i]? = some b ∧ R a b
  | _, _, .nil, i => .inl ⟨by simp, by simp⟩
  | _, _, .cons h0 hs, 0 => .inr ⟨_, _, rfl, rfl, h0⟩
  | _, _, .cons h0 hs, i + 1 => by
    simp only [List.getElem?_cons_succ]
    exact forall2_get hs i

theorem forall2_map {α β γ : Type} {R : α → β → Prop} {f : α → γ} {g : β → γ} {as : List α} {bs : List β}
    (h : List.Forall₂ R as bs) (hfg : ∀ a b, R a b → f a = g b) : as.map f = bs.map g := by
  induction h with
  | nil => rfl
  | cons h0 _ ih => rw [List.map_cons, List.map_cons, hfg _ _ h0, ih]

theorem insertTok_both {e : Env F D} {ps : List (Tok F)} {us : List (Token F)} {h : Mid.Half F} {d : Dec F}
    (r : VRel ps us h d) (st : State) (label : Int) (cost : F) {o : Option Addr} {ws : List Int}
    (ho : ∀ live Good, GInv blockSize h.words.arena h.words.mem live Good →
      List.Forall₂ (TokRel h.words Good) h.toks d.toks → List.Forall₂ (TokRel h.words Good) ps us →
      GoodH Good o ∧ Hist h.words.mem o ws) :
    Both (fun b a => b.1 = a.1 ∧ VRel ps us b.2 a.2) (Mid.insertTok e h st label o cost)
      (Decoder.insertTok e d st label ws cost) := by
  obtain ⟨live, Good, i1, i2, i3⟩ := r.inv
  obtain ⟨o1, o2⟩ := ho live Good i1 i2 i3
  obtain ⟨w, o', live', Good', e1, e2, e3, e4, e5, e6⟩ := Gc.extend_spec (by decide : 0 < blockSize) i1 label o1 o2
  have keep : ∀ t u, TokRel h.words Good t u → TokRel w Good' t u := fun (t : Tok F) (u : Token F) k =>
    ⟨k.state, k.cost, fun a ha => e4 a (k.good a ha), e6 _ _ k.hist⟩
  have hnew : TokRel w Good' (⟨st, cost, o'⟩ : Tok F) ⟨st, cost, extendHist ws label⟩ := by
    refine ⟨rfl, rfl, e3, ?_⟩
    unfold extendHist
    by_cases hl : label = 0
    · rw [if_pos hl] at e5
      simpa [hl] using e5
    · rw [if_neg hl] at e5
      simpa [hl] using e5
  unfold Mid.insertTok Decoder.insertTok
  rw [e1, ok_bind, r.idx]
  simp only
  cases d.idx.lookup st with
  | none =>
    have hlen : h.toks.length = d.toks.length := i2.length_eq
    exact Sim.ok ⟨rfl, ⟨live', Good', e2, List.rel_append (forall2_mono i2 keep) (.cons hnew .nil), forall2_mono i3 keep⟩,
      by simp only [hlen], r.frames, r.eos, by simp only [r.live]⟩
  | some i =>
    simp only
    rcases forall2_get i2 i with ⟨g1, g2⟩ | ⟨t, u, g1, g2, g3⟩
    · rw [g1, g2]; exact Sim.error
    · rw [g1, g2]
      simp only
      rw [g3.cost]
      split
      · exact Sim.ok ⟨rfl, ⟨live', Good', e2, forall2_set hnew i (forall2_mono i2 keep), forall2_mono i3 keep⟩,
          rfl, r.frames, r.eos, by simp only [r.live]⟩
      · exact Sim.ok ⟨rfl, ⟨live', Good', e2, forall2_mono i2 keep, forall2_mono i3 keep⟩, rfl, r.frames, r.eos,
          r.live⟩

theorem nonemitArc_both {e : Env F D} {ps : List (Tok F)} {us : List (Token F)} {h : Mid.Half F} {d : Dec F}
    (r : VRel ps us h d) (i : Nat) (cutoff : D) (stack : List State) (arc : GArc F) :
    Both (fun b a => b.2 = a.2 ∧ VRel ps us b.1 a.1) (Mid.nonemitArc e i cutoff (h, stack) arc)
      (Decoder.nonemitArc e i cutoff (d, stack) arc) := by
  unfold Mid.nonemitArc Decoder.nonemitArc
  simp only
  split
  · exact Sim.ok ⟨rfl, r⟩
  · obtain ⟨live, Good, i1, i2, i3⟩ := r.inv
    rcases forall2_get i2 i with ⟨g1, g2⟩ | ⟨t, u, g1, g2, g3⟩
    · rw [g1, g2]; exact Sim.error
    · rw [g1, g2]
      simp only
      rw [g3.cost, g3.state]
      refine Both.bind (Sim.same _) ?_
      rintro ⟨l, tot⟩ _ rfl
      simp only
      split
      · exact Sim.ok ⟨rfl, r⟩
      · refine Both.bind (insertTok_both r _ _ _ ?_) ?_
        · intro live' Good' j1 j2 j3
          rcases forall2_get j2 i with ⟨k1, k2⟩ | ⟨t', u', k1, k2, k3⟩
          · rw [g1] at k1; cases k1
          · rw [g1] at k1
            rw [g2] at k2
            cases k1
            cases k2
            exact ⟨k3.good, k3.hist⟩
        · rintro ⟨b1, h1⟩ ⟨b2, d1⟩ ⟨f1, f2⟩
          simp only at f1 f2
          subst f1
          exact Sim.ok ⟨rfl, f2⟩

theorem nonemitLoop_both {e : Env F D} {ps : List (Tok F)} {us : List (Token F)} (cutoff : D) :
    ∀ (fuel : Nat) {h : Mid.Half F} {d : Dec F} {stack : List State}, VRel ps us h d →
    Both (VRel ps us) (Mid.nonemitLoop e cutoff fuel h stack) (Decoder.nonemitLoop e cutoff fuel d stack)
  | 0, h, d, [], r => by unfold Mid.nonemitLoop Decoder.nonemitLoop; exact Sim.ok r
  | 0, h, d, _ :: _, r => by unfold Mid.nonemitLoop Decoder.nonemitLoop; exact Sim.error
  | fuel + 1, h, d, [], r => by unfold Mid.nonemitLoop Decoder.nonemitLoop; exact Sim.ok r
  | fuel + 1, h, d, st :: stack, r => by
    unfold Mid.nonemitLoop Decoder.nonemitLoop
    rw [r.idx]
    cases d.idx.lookup st with
    | none => exact Sim.error
    | some i =>
      simp only
      refine Both.bind (Both.foldlM (R := fun b a => b.2 = a.2 ∧ VRel ps us b.1 a.1) _ ?_ (h, stack) (d, stack)
        ⟨rfl, r⟩) ?_
      · rintro ⟨h1, s1⟩ ⟨d1, s2⟩ arc _ ⟨f1, f2⟩
        simp only at f1 f2
        subst f1
        exact nonemitArc_both f2 i cutoff s1 arc
      · rintro ⟨h1, s1⟩ ⟨d1, s2⟩ ⟨f1, f2⟩
        simp only at f1 f2
        subst f1
        exact nonemitLoop_both cutoff fuel f2

theorem states_eq {ps : List (Tok F)} {us : List (Token F)} {h : Mid.Half F} {d : Dec F} (r : VRel ps us h d) :
    h.toks.map (·.state) = d.toks.map (·.state) := by
  obtain ⟨live, Good, i1, i2, i3⟩ := r.inv
  exact forall2_map i2 (fun a b k => k.state)

theorem processNonemitting_both {e : Env F D} {ps : List (Tok F)} {us : List (Token F)} (cutoff : D) (fuel : Nat)
    {h : Mid.Half F} {d : Dec F} (r : VRel ps us h d) :
    Both (VRel ps us) (Mid.processNonemitting e cutoff fuel h) (Decoder.processNonemitting e cutoff fuel d) := by
  unfold Mid.processNonemitting Decoder.processNonemitting
  have hs := states_eq r
  have hall : (h.toks.all fun t => decide (0 ≤ t.state.1)) = (d.toks.all fun t => decide (0 ≤ t.state.1)) := by
    have a1 : (h.toks.all fun t => decide (0 ≤ t.state.1)) =
      (h.toks.map (·.state)).all (fun s => decide (0 ≤ s.1)) := by rw [List.all_map]; rfl
    have a2 : (d.toks.all fun t => decide (0 ≤ t.state.1)) =
      (d.toks.map (·.state)).all (fun s => decide (0 ≤ s.1)) := by rw [List.all_map]; rfl
    rw [a1, a2, hs]
  rw [hall, hs]
  exact Both.bind (Sim.same _) (fun _ _ _ => nonemitLoop_both cutoff fuel r)

theorem emitArc_both {e : Env F D} {ps : List (Tok F)} {us : List (Token F)} {tok : Tok F} {u : Token F}
    (frame : List F) (ab : F) {h : Mid.Half F} {d : Dec F} (r : VRel (tok :: ps) (u :: us) h d) (nwc : D)
    (arc : GArc F) :
    Both (fun x y => x.1 = y.1 ∧ VRel (tok :: ps) (u :: us) x.2 y.2) (Mid.emitArc e frame ab tok (nwc, h) arc)
      (Decoder.emitArc e frame ab u (nwc, d) arc) := by
  unfold Mid.emitArc Decoder.emitArc
  simp only
  split
  · exact Sim.ok ⟨rfl, r⟩
  · obtain ⟨live, Good, i1, i2, i3⟩ := r.inv
    have hk : TokRel h.words Good tok u := by cases i3 with | cons h0 _ => exact h0
    rw [hk.cost, hk.state]
    refine Both.bind (Sim.same _) ?_
    rintro total _ rfl
    split
    · exact Sim.ok ⟨rfl, r⟩
    · refine Both.bind (Sim.same _) ?_
      rintro ⟨l, tot⟩ _ rfl
      refine Both.bind (Sim.same _) ?_
      intro _ _ _
      refine Both.bind (insertTok_both r _ _ _ ?_) ?_
      · intro live' Good' j1 j2 j3
        cases j3 with
        | cons h0 _ => exact ⟨h0.good, h0.hist⟩
      · rintro ⟨b1, h1⟩ ⟨b2, d1⟩ ⟨f1, f2⟩
        exact Sim.ok ⟨rfl, f2⟩

theorem vrel_drop {ps : List (Tok F)} {us : List (Token F)} {tok : Tok F} {u : Token F} {h : Mid.Half F} {d : Dec F}
    (r : VRel (tok :: ps) (u :: us) h d) : VRel ps us h d := by
  obtain ⟨live, Good, i1, i2, i3⟩ := r.inv
  cases i3 with
  | cons _ hs => exact ⟨⟨live, Good, i1, i2, hs⟩, r.idx, r.frames, r.eos, r.live⟩

theorem emitTok_both {e : Env F D} {ps : List (Tok F)} {us : List (Token F)} {tok : Tok F} {u : Token F}
    (frame : List F) (wc ab : F) {h : Mid.Half F} {d : Dec F} (r : VRel (tok :: ps) (u :: us) h d) (nwc : D) :
    Both (fun x y => x.1 = y.1 ∧ VRel ps us x.2 y.2) (Mid.emitTok e frame wc ab (nwc, h) tok)
      (Decoder.emitTok e frame wc ab (nwc, d) u) := by
  unfold Mid.emitTok Decoder.emitTok
  obtain ⟨live, Good, i1, i2, i3⟩ := r.inv
  have hk : TokRel h.words Good tok u := by cases i3 with | cons h0 _ => exact h0
  rw [hk.cost, hk.state]
  split
  · exact Sim.ok ⟨rfl, vrel_drop r⟩
  · refine Both.bind (Both.foldlM (R := fun x y => x.1 = y.1 ∧ VRel (tok :: ps) (u :: us) x.2 y.2) _ ?_ (nwc, h)
      (nwc, d) ⟨rfl, r⟩) ?_
    · rintro ⟨n1, h1⟩ ⟨n2, d1⟩ arc _ ⟨f1, f2⟩
      simp only at f1 f2
      subst f1
      exact emitArc_both frame ab f2 n1 arc
    · rintro ⟨n1, h1⟩ ⟨n2, d1⟩ ⟨f1, f2⟩
      simp only at f1 f2
      subst f1
      obtain ⟨g1, g2, g3, g4, g5⟩ := vrel_drop f2
      exact Sim.ok ⟨rfl, g1, g2, g3, g4, by simp only [g5]⟩

theorem emitToks_both {e : Env F D} (frame : List F) (wc ab : F) : ∀ (ps : List (Tok F)) (us : List (Token F))
    {h : Mid.Half F} {d : Dec F}, VRel ps us h d → ∀ nwc : D,
    Both (fun x y => x.1 = y.1 ∧ VRel [] [] x.2 y.2) (ps.foldlM (Mid.emitTok e frame wc ab) (nwc, h))
      (us.foldlM (Decoder.emitTok e frame wc ab) (nwc, d))
  | [], [], h, d, r, nwc => Sim.ok ⟨rfl, r⟩
  | [], _ :: _, h, d, r, nwc => by obtain ⟨_, _, _, _, i3⟩ := r.inv; cases i3
  | _ :: _, [], h, d, r, nwc => by obtain ⟨_, _, _, _, i3⟩ := r.inv; cases i3
  | t :: ps, u :: us, h, d, r, nwc => by
    rw [List.foldlM_cons, List.foldlM_cons]
    refine Both.bind (emitTok_both frame wc ab r nwc) ?_
    rintro ⟨n1, h1⟩ ⟨n2, d1⟩ ⟨f1, f2⟩
    simp only at f1 f2
    subst f1
    exact emitToks_both frame wc ab ps us f2 n1

/-! ## Cutoffs do not depend on histories -/

/-- A token without its history. -/
def strip (t : Token F) : Token F := ⟨t.state, t.cost, []⟩

theorem cutoffLoop_strip (ar : Arith F D) (n : Nat) : ∀ (ts : List (Token F)) (x : Nat) (costs : List F) (best : D)
    (b : Token F), cutoffLoop ar n (ts.map strip) x costs best (strip b) =
      ((cutoffLoop ar n ts x costs best b).1, (cutoffLoop ar n ts x costs best b).2.1,
        strip (cutoffLoop ar n ts x costs best b).2.2)
  | [], x, costs, best, b => rfl
  | t :: ts, x, costs, best, b => by
    rw [List.map_cons]
    unfold cutoffLoop
    simp only
    by_cases h : ar.dlt (ar.toD t.cost) best = true
    · rw [if_pos (show ar.dlt (ar.toD (strip t).cost) best = true from h), if_pos h]
      exact cutoffLoop_strip ar n ts _ _ _ t
    · rw [if_neg (show ¬ ar.dlt (ar.toD (strip t).cost) best = true from h), if_neg h]
      exact cutoffLoop_strip ar n ts _ _ _ b

theorem getCutoff_strip (ar : Arith F D) (ts : List (Token F)) :
    getCutoff ar (ts.map strip) = (getCutoff ar ts >>= fun x => .ok (x.1, x.2.1, strip x.2.2)) := by
  cases ts with
  | nil => rfl
  | cons t ts =>
    have h := cutoffLoop_strip ar (t :: ts).length (t :: ts) 802 [] ar.inf t
    rw [List.map_cons] at h ⊢
    unfold getCutoff
    simp only [List.length_cons, List.length_map] at h ⊢
    rw [h]
    generalize cutoffLoop ar (ts.length + 1) (t :: ts) 802 [] ar.inf t = r
    obtain ⟨costs, best, bt⟩ := r
    simp only
    split
    · rfl
    · cases maxActive ar (ts.length + 1) costs with
      | error f => rfl
      | ok m => rfl

/-! ## Whole calls -/

/-- The relation between two calls. -/
def VFull (h : Mid.Half F) (d : Dec F) : Prop := VRel h.prev d.prev h d

theorem nonemitArc_prev'' {e : Env F D} {i : Nat} {cutoff : D} {acc r : Dec F × List State} {arc : GArc F}
    (h : Decoder.nonemitArc e i cutoff acc arc = .ok r) : r.1.prev = acc.1.prev := by
  obtain ⟨d, stack⟩ := acc
  unfold Decoder.nonemitArc at h
  simp only at h
  split at h
  · cases h; rfl
  · split at h
    · cases h
    · obtain ⟨⟨l, t⟩, _, h⟩ := bind_ok h
      simp only at h
      split at h
      · cases h; rfl
      · obtain ⟨⟨ins, d'⟩, h1, h⟩ := bind_ok h
        cases h
        unfold Decoder.insertTok at h1
        simp only at h1
        split at h1
        · cases h1; rfl
        · split at h1
          · cases h1
          · split at h1 <;> cases h1 <;> rfl

theorem nonemitLoop_prev'' {e : Env F D} {cutoff : D} : ∀ (fuel : Nat) {h h' : Dec F} {stack : List State},
    Decoder.nonemitLoop e cutoff fuel h stack = .ok h' → h'.prev = h.prev
  | 0, h, h', [], hh => by unfold Decoder.nonemitLoop at hh; cases hh; rfl
  | 0, h, h', _ :: _, hh => by unfold Decoder.nonemitLoop at hh; cases hh
  | fuel + 1, h, h', [], hh => by unfold Decoder.nonemitLoop at hh; cases hh; rfl
  | fuel + 1, h, h', st :: stack, hh => by
    unfold Decoder.nonemitLoop at hh
    split at hh
    · cases hh
    · obtain ⟨⟨h1, s1⟩, g1, hh⟩ := bind_ok hh
      rw [nonemitLoop_prev'' fuel hh]
      exact foldlM_keep (P := fun a : Dec F × List State => a.1.prev) _
        (fun a x a' _ hx => nonemitArc_prev'' hx) _ _ g1

theorem processNonemitting_vfull {e : Env F D} (cutoff : D) (fuel : Nat) {h : Mid.Half F} {d : Dec F}
    (r : VFull h d) :
    Both VFull (Mid.processNonemitting e cutoff fuel h) (Decoder.processNonemitting e cutoff fuel d) := by
  have hs := processNonemitting_both (e := e) cutoff fuel r
  refine ⟨fun b hb => ?_, hs.bwd⟩
  obtain ⟨a, h1, h2⟩ := hs.fwd b hb
  refine ⟨a, h1, ?_⟩
  have hp : a.prev = d.prev := by
    unfold Decoder.processNonemitting at h1
    obtain ⟨_, _, h1⟩ := bind_ok h1
    exact nonemitLoop_prev'' fuel h1
  unfold VFull
  rw [processNonemitting_prev' hb, hp]
  exact h2

theorem processEmitting_both {e : Env F D} (frame : List F) {h : Mid.Half F} {d : Dec F} (r : VFull h d) :
    Both (fun b a => b.1 = a.1 ∧ VFull b.2 a.2) (Mid.processEmitting e frame h) (Decoder.processEmitting e frame d) := by
  obtain ⟨live, Good, i1, i2, i3⟩ := r.inv
  have r' : VFull ({ h with idx := [], toks := h.prev, prev := h.toks } : Mid.Half F)
      { d with idx := [], toks := d.prev, prev := d.toks } :=
    ⟨⟨live, Good, i1, i3, i2⟩, rfl, r.frames, r.eos, r.live⟩
  have hv : h.toks.map Tok.view = d.toks.map strip := forall2_map i2 (fun a b k => by
    unfold Tok.view strip
    rw [k.state, k.cost])
  unfold Mid.processEmitting Decoder.processEmitting
  simp only
  rw [hv, getCutoff_strip]
  cases getCutoff e.ar d.toks with
  | error f => exact Sim.error
  | ok x =>
    obtain ⟨cut, ab, best⟩ := x
    simp only [ok_bind]
    split
    · exact Sim.ok ⟨rfl, r'⟩
    · refine Both.bind (Sim.same _) ?_
      rintro nwc _ rfl
      refine Both.bind (emitToks_both frame _ _ _ _ r' nwc) ?_
      rintro ⟨n1, h1⟩ ⟨n2, d1⟩ ⟨f1, f2⟩
      simp only at f1 f2
      subst f1
      obtain ⟨g1, g2, g3, g4, g5⟩ := f2
      exact Sim.ok ⟨rfl, g1, g2, g3, g4, g5⟩

/-- The value-level decoder up to the end of `Process`, `src/decoder.cc` 70-79 (a part of
`Decoder.process`, given a name for the proofs). -/
def vpropagate (e : Env F D) (fuel : Nat) (frame : List F) (d : Dec F) :
    Exec (Bool × Option (Cutoffs F D) × Dec F) := do
  let (c, d) ← Decoder.processEmitting e frame d
  match c with
  | none => .ok (false, none, d)
  | some c =>
    let cutoff := e.ar.toD (e.ar.toF c.next)
    if e.ar.finite cutoff = false then .ok (false, some c, d) else do
    let d ← Decoder.processNonemitting e cutoff fuel d
    if d.toks = [] then .ok (false, some c, d) else .ok (true, some c, d)

/-- The value-level decoder counts the frame at the end. -/
def vfinish (x : Bool × Option (Cutoffs F D) × Dec F) : Bool × Option (Cutoffs F D) × Dec F :=
  if x.1 then (true, x.2.1, { x.2.2 with frames := x.2.2.frames + 1 }) else x

theorem process_eq (e : Env F D) (fuel : Nat) (frame : List F) (d : Dec F) :
    Decoder.process e fuel frame d = (vpropagate e fuel frame d >>= fun x => .ok (vfinish x)) := by
  unfold Decoder.process vpropagate
  cases Decoder.processEmitting e frame d with
  | error f => rfl
  | ok x =>
    obtain ⟨c, d1⟩ := x
    cases c with
    | none => rfl
    | some c =>
      simp only [ok_bind]
      split
      · rfl
      · cases Decoder.processNonemitting e (e.ar.toD (e.ar.toF c.next)) fuel d1 with
        | error f => rfl
        | ok d2 =>
          simp only [ok_bind]
          split <;> rfl

/-- A frame with tokens left at its end has none of the previous frame. -/
theorem propagate_prev {e : Env F D} {fuel : Nat} {frame : List F} {h : Mid.Half F}
    {x : Bool × Option (Cutoffs F D) × Mid.Half F} (hx : Mid.propagate e fuel frame h = .ok x) (ht : x.1 = true) :
    x.2.2.prev = [] := by
  unfold Mid.propagate at hx
  obtain ⟨⟨c, h1⟩, g1, hx⟩ := bind_ok hx
  cases c with
  | none => cases hx; cases ht
  | some c =>
    simp only at hx
    split at hx
    · cases hx; cases ht
    · obtain ⟨h2, g2, hx⟩ := bind_ok hx
      split at hx
      · cases hx; cases ht
      · cases hx
        simp only
        rw [processNonemitting_prev' g2]
        unfold Mid.processEmitting at g1
        simp only at g1
        obtain ⟨⟨cut, ab, best⟩, _, g1⟩ := bind_ok g1
        simp only at g1
        split at g1
        · cases g1
        · obtain ⟨nwc, _, g1⟩ := bind_ok g1
          obtain ⟨⟨n1, h3⟩, _, g1⟩ := bind_ok g1
          cases g1
          rfl

theorem propagate_both {e : Env F D} (fuel : Nat) (frame : List F) {h : Mid.Half F} {d : Dec F} (r : VFull h d) :
    Both (fun b a => b.1 = a.1 ∧ b.2.1 = a.2.1 ∧ VFull b.2.2 a.2.2) (Mid.propagate e fuel frame h)
      (vpropagate e fuel frame d) := by
  unfold Mid.propagate vpropagate
  refine Both.bind (processEmitting_both frame r) ?_
  rintro ⟨c, h1⟩ ⟨c', d1⟩ ⟨f1, f2⟩
  simp only at f1 f2
  subst f1
  cases c with
  | none => exact Sim.ok ⟨rfl, rfl, f2⟩
  | some c =>
    simp only
    split
    · exact Sim.ok ⟨rfl, rfl, f2⟩
    · refine Both.bind (processNonemitting_vfull _ fuel f2) ?_
      intro h2 d2 f3
      have : (h2.toks = []) ↔ (d2.toks = []) := by
        obtain ⟨_, _, _, i2, _⟩ := f3.inv
        rw [← List.length_eq_zero_iff, ← List.length_eq_zero_iff, i2.length_eq]
      by_cases hz : d2.toks = []
      · rw [if_pos (this.mpr hz), if_pos hz]
        exact Sim.ok ⟨rfl, rfl, f3⟩
      · rw [if_neg (fun h => hz (this.mp h)), if_neg hz]
        exact Sim.ok ⟨rfl, rfl, f3⟩

/-- A collection that does not start with a stale mark changes no history. -/
theorem finish_spec {h : Mid.Half F} {d : Dec F} (r : VFull h d) (hp : h.prev = [] )
    (hf : h.frames % 20 = 0 → Gc.Fresh h.words) :
    ∃ h', Mid.finish h = .ok h' ∧ VFull h' { d with frames := d.frames + 1 } ∧ h'.idx = h.idx ∧
      h'.frames = h.frames + 1 := by
  obtain ⟨live, Good, i1, i2, i3⟩ := r.inv
  have hdp : d.prev = [] := by
    have := i3.length_eq
    rw [hp] at this
    exact List.length_eq_zero_iff.mp this.symm
  unfold Mid.finish Mid.tidy
  by_cases hz : h.frames % 20 = 0
  · rw [if_pos hz]
    have hroots : ∀ a ∈ h.toks.filterMap (·.olabel), Good a := by
      intro a ha
      obtain ⟨t, ht, hta⟩ := List.mem_filterMap.mp ha
      obtain ⟨i, hi⟩ := List.mem_iff_getElem?.mp ht
      rcases forall2_get i2 i with ⟨g1, g2⟩ | ⟨t', u, g1, g2, g3⟩
      · rw [hi] at g1; cases g1
      · rw [hi] at g1; cases g1
        exact g3.good a hta
    obtain ⟨g', live', Good', e1, e2, e3, e4, _, _, _⟩ := Gc.gc_spec i1 (hf hz) hroots
    rw [e1]
    refine ⟨_, rfl, ⟨⟨live', Good', e2, ?_, ?_⟩, r.idx, by simp only [r.frames], r.eos, r.live⟩, rfl, rfl⟩
    · have key : ∀ {as : List (Tok F)} {bs : List (Token F)}, List.Forall₂ (TokRel h.words Good) as bs →
          (∀ t ∈ as, t ∈ h.toks) → List.Forall₂ (TokRel g' Good') as bs := by
        intro as bs hh
        induction hh with
        | nil => intro _; exact .nil
        | @cons t u as bs h0 _ ih =>
          intro hin
          refine .cons ⟨h0.state, h0.cost, ?_, ?_⟩ (ih fun x hx => hin x (by simp [hx]))
          · intro a ha
            exact e3 a (List.mem_filterMap.mpr ⟨t, hin t (by simp), ha⟩)
          · cases hol : t.olabel with
            | none =>
              have hh := h0.hist
              rw [hol] at hh
              generalize u.hist = ws at hh ⊢
              cases hh
              exact .nil
            | some a =>
              have hh := h0.hist
              rw [hol] at hh
              exact e4 a (List.mem_filterMap.mpr ⟨t, hin t (by simp), hol⟩) _ hh
      exact key i2 (fun t ht => ht)
    · show List.Forall₂ _ h.prev d.prev
      rw [hp, hdp]
      exact .nil
  · rw [if_neg hz]
    exact ⟨_, rfl, ⟨⟨live, Good, i1, i2, i3⟩, r.idx, by simp only [r.frames], r.eos, r.live⟩, rfl, rfl⟩

theorem fresh_vfull : VFull (Mid.fresh : Mid.Half F) Decoder.fresh :=
  ⟨⟨[], fun _ => False, Gc.init_inv, .nil, .nil⟩, rfl, rfl, rfl, rfl⟩

theorem initDecoder_both {e : Env F D} (fuel : Nat) :
    Both VFull (Mid.initDecoder e fuel Mid.fresh) (Decoder.initDecoder e fuel Decoder.fresh) := by
  unfold Mid.initDecoder Decoder.initDecoder
  refine Both.bind (Sim.same _) ?_
  intro _ _ _
  refine Both.bind (Sim.same _) ?_
  rintro ls _ rfl
  have r0 : VRel [] [] (Mid.fresh : Mid.Half F) Decoder.fresh := fresh_vfull
  have hs := insertTok_both (e := e) r0 (e.g.start, ls) 0 e.ar.zero (o := none) (ws := [])
    (fun _ _ _ _ _ => ⟨fun a ha => (nomatch ha), Hist.nil⟩)
  have hs' : Both (fun (b : Bool × Mid.Half F) (a : Bool × Dec F) => b.1 = a.1 ∧ VFull b.2 a.2)
      (Mid.insertTok e { (Mid.fresh : Mid.Half F) with toks := [], prev := [] } (e.g.start, ls) 0 none e.ar.zero)
      (Decoder.insertTok e { (Decoder.fresh : Dec F) with toks := [], prev := [] } (e.g.start, ls) 0 []
        e.ar.zero) := by
    refine ⟨fun b hb => ?_, hs.bwd⟩
    obtain ⟨a, g1, g2, g3⟩ := hs.fwd b hb
    refine ⟨a, g1, g2, ?_⟩
    have p1 : b.2.prev = [] := insertTok_prev' hb
    have p2 : a.2.prev = [] := by
      unfold Decoder.insertTok at g1
      cases g1
      rfl
    unfold VFull
    rw [p1, p2]
    exact g3
  refine Both.bind hs' ?_
  rintro ⟨b1, h1⟩ ⟨b2, d1⟩ ⟨f1, f2⟩
  refine processNonemitting_vfull _ fuel ?_
  exact ⟨f2.inv, f2.idx, rfl, f2.eos, f2.live⟩

theorem endOfStream_vfull {h : Mid.Half F} {d : Dec F} (r : VFull h d) :
    VFull (Mid.endOfStream h) (Decoder.endOfStream d) :=
  ⟨r.inv, r.idx, r.frames, rfl, r.live⟩

/-! ## Best path -/

theorem readWords_iff {m : Gc.Mem} : ∀ {ws : List Int} {o : Option Addr}, Hist m o ws → ∀ (k : Nat) (vs : List Int),
    Gc.readWords m k o = .ok vs ↔ ws.length ≤ k ∧ vs = ws := by
  intro ws o h
  induction h with
  | nil =>
    intro k vs
    have : Gc.readWords m k none = .ok [] := by cases k <;> rfl
    rw [this]
    constructor
    · intro h; cases h; exact ⟨by simp, rfl⟩
    · rintro ⟨_, rfl⟩; rfl
  | @cons a n ws h1 h2 _ ih =>
    intro k vs
    have hl : Gc.liveNode m a = .ok n := by unfold Gc.liveNode; rw [h1]; simp only [if_neg h2]
    cases k with
    | zero =>
      unfold Gc.readWords
      rw [hl, ok_bind]
      simp
    | succ k =>
      unfold Gc.readWords
      rw [hl, ok_bind]
      constructor
      · intro h
        obtain ⟨us, g1, h⟩ := bind_ok h
        cases h
        obtain ⟨g2, g3⟩ := (ih k us).mp g1
        subst g3
        exact ⟨by simpa using g2, rfl⟩
      · rintro ⟨g1, rfl⟩
        rw [(ih k ws).mpr ⟨by simpa using g1, rfl⟩]
        rfl

/-- The best token on both sides. -/
def VSame (w : Gc.GPool) (Good : Addr → Prop) : Option (Tok F) × D → Option (Token F) × D → Prop
  | (none, c), (none, c') => c = c'
  | (some t, c), (some u, c') => c = c' ∧ TokRel w Good t u
  | _, _ => False

theorem bestLoop_both {e : Env F D} {w : Gc.GPool} {Good : Addr → Prop} (eos : Bool) : ∀ {as : List (Tok F)}
    {ts : List (Token F)}, List.Forall₂ (TokRel w Good) as ts → ∀ (best : Option (Tok F)) (best' : Option (Token F))
    (cost : D), VSame w Good (best, cost) (best', cost) →
      Both (VSame w Good) (Mid.bestLoop e eos as best cost) (Decoder.bestLoop e eos ts best' cost)
  | _, _, .nil, best, best', cost, h => by
    unfold Mid.bestLoop Decoder.bestLoop
    exact Sim.ok h
  | _, _, .cons (a := t) (b := u) h0 hs, best, best', cost, h => by
    unfold Mid.bestLoop Decoder.bestLoop
    have hp : pathCost e eos t.view = pathCost e eos u := by
      unfold pathCost Tok.view
      simp only
      rw [h0.cost, h0.state]
    rw [hp]
    refine Both.bind (Sim.same _) ?_
    rintro c _ rfl
    split
    · exact bestLoop_both eos hs (some t) (some u) c ⟨rfl, h0⟩
    · exact bestLoop_both eos hs best best' cost h

theorem bestPath_veq {e : Env F D} {h : Mid.Half F} {d : Dec F} (r : VFull h d) (x : List Int × F) :
    Mid.bestPath e h = .ok x ↔ Decoder.bestPath e d = .ok x := by
  obtain ⟨live, Good, i1, i2, i3⟩ := r.inv
  have hs : Both (fun b a => b = a) (Mid.bestPath e h) (Decoder.bestPath e d) := by
    unfold Mid.bestPath Decoder.bestPath
    rw [r.eos]
    refine Both.bind (bestLoop_both d.eos i2 none none _ rfl) ?_
    rintro ⟨b, c⟩ ⟨b', c'⟩ hsame
    cases b with
    | none =>
      cases b' with
      | none => exact Sim.ok rfl
      | some t => exact absurd hsame (by simp [VSame])
    | some t =>
      cases b' with
      | none => exact absurd hsame (by simp [VSame])
      | some u =>
        obtain ⟨rfl, hc⟩ := hsame
        simp only
        rw [hc.state]
        have hw := readWords_iff hc.hist 99999
        constructor
        · intro b hb
          obtain ⟨ws, g1, hb⟩ := bind_ok hb
          obtain ⟨g2, g3⟩ := (hw ws).mp g1
          subst g3
          cases hb
          rw [show decide (u.hist.length < 100000) = true from decide_eq_true (by omega), cassert_true, ok_bind]
          exact ⟨_, rfl, rfl⟩
        · intro _ a ha _
          obtain ⟨_, g1, ha⟩ := bind_ok ha
          have g1 := of_decide_eq_true (cassert_ok g1)
          rw [(hw u.hist).mpr ⟨by omega, rfl⟩, ok_bind]
          exact ⟨_, rfl⟩
  constructor
  · intro hx
    obtain ⟨a, h1, rfl⟩ := hs.fwd x hx
    exact h1
  · intro hx
    obtain ⟨b, hb⟩ := hs.bwd trivial x hx trivial
    obtain ⟨a, h1, rfl⟩ := hs.fwd b hb
    rw [hx] at h1
    cases h1
    exact hb

end Verif.Mdec
