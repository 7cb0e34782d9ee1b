import Verif.DecoderLemmas

/-!
# Invariants of the beam search: exact index, tokens are paths, accounting
-/

set_option linter.unusedSectionVars false

namespace Verif.Decoder

open Verif Verif.Fst

variable {F D : Type}

/-- The token an arc creates. -/
def nextTok (e : Env F D) (t : Token F) (a : GArc F) (l : Int) (ac : F) (k : D → D) : Token F :=
  ⟨(a.next, l), stepCost e t.cost a.weight ac k, extendHist t.hist a.olabel⟩

/-- `Q` is kept by epsilon arcs. -/
def EpsClosed (e : Env F D) (Q : Token F → Prop) : Prop :=
  ∀ t a l k, Q t → a ∈ e.g.arcs t.state.1 → a.ilabel = 0 → LmMove e t.state.2 a.olabel l k →
    Q (nextTok e t a l e.ar.zero k)

/-- The parts of the state that propagation does not touch, and the accounting it may only worsen. -/
structure Frame (d d' : Dec F) : Prop where
  prev : d'.prev = d.prev
  frames : d'.frames = d.frames
  eos : d'.eos = d.eos
  live : d.live - d.toks.length ≤ d'.live - d'.toks.length
  states : ∀ (i : Nat) (t : Token F), d.toks[i]? = some t → ∃ t', d'.toks[i]? = some t' ∧ t'.state = t.state

theorem Frame.refl (d : Dec F) : Frame d d :=
  ⟨rfl, rfl, rfl, Int.le_refl _, fun _ t h => ⟨t, h, rfl⟩⟩

theorem Frame.trans {a b c : Dec F} (h : Frame a b) (g : Frame b c) : Frame a c :=
  ⟨g.prev.trans h.prev, g.frames.trans h.frames, g.eos.trans h.eos, Int.le_trans h.live g.live,
    fun i t ht => by
      obtain ⟨u, hu, hs⟩ := h.states i t ht
      obtain ⟨v, hv, hs'⟩ := g.states i u hu
      exact ⟨v, hv, hs'.trans hs⟩⟩

theorem Ins.frame {ar : Arith F D} {d d' : Dec F} {t : Token F} {b : Bool} (h : Ins ar d t b d') : Frame d d' :=
  ⟨h.prev, h.frames, h.eos, h.live, fun i t ht => by
    obtain ⟨u, hu, hs, _⟩ := h.keep i t ht
    exact ⟨u, hu, hs⟩⟩

/-- Invariant of the epsilon loop. -/
structure Eps (Q : Token F → Prop) (d0 d : Dec F) (stack : List State) : Prop where
  exact : IndexExact d
  all : ∀ t ∈ d.toks, Q t
  frame : Frame d0 d
  stack : ∀ s ∈ stack, ∃ t ∈ d.toks, t.state = s

theorem Ins.stack {ar : Arith F D} {d d' : Dec F} {t : Token F} {b : Bool} (h : Ins ar d t b d') {s : State}
    (hs : ∃ u ∈ d.toks, u.state = s) : ∃ u ∈ d'.toks, u.state = s := by
  obtain ⟨u, hu, rfl⟩ := hs
  obtain ⟨i, hi⟩ := List.getElem?_of_mem hu
  obtain ⟨v, hv, hs, _⟩ := h.keep i u hi
  exact ⟨v, List.mem_of_getElem? hv, hs⟩

/-- One epsilon arc: either nothing happens, or the token of the arc is inserted. -/
theorem nonemitArc_cases {e : Env F D} {i : Nat} {cutoff : D} {d d' : Dec F} {stack stack' : List State}
    {a : GArc F} (h : nonemitArc e i cutoff (d, stack) a = .ok (d', stack')) :
    (a.ilabel ≠ 0 ∧ d' = d ∧ stack' = stack) ∨
    ∃ t l k, a.ilabel = 0 ∧ d.toks[i]? = some t ∧ LmMove e t.state.2 a.olabel l k ∧
      ((e.ar.dlt cutoff (k (e.ar.toD (e.ar.fadd (e.ar.fadd t.cost a.weight) e.ar.zero))) = true ∧ d' = d ∧
        stack' = stack) ∨
      (e.ar.dlt cutoff (k (e.ar.toD (e.ar.fadd (e.ar.fadd t.cost a.weight) e.ar.zero))) = false ∧
        ∃ ins, insertTok e d (a.next, l) a.olabel t.hist (stepCost e t.cost a.weight e.ar.zero k)
            = .ok (ins, d') ∧
          stack' = if ins then (a.next, l) :: stack else stack)) := by
  unfold nonemitArc at h
  simp only at h
  split at h
  · rename_i hl; cases h; exact .inl ⟨hl, rfl, rfl⟩
  · rename_i hl
    have hl : a.ilabel = 0 := by omega
    cases ht : d.toks[i]? with
    | none => rw [ht] at h; cases h
    | some t =>
      rw [ht] at h
      obtain ⟨⟨l, tot⟩, h1, h2⟩ := bind_ok h
      obtain ⟨k, hk, rfl⟩ := addLm_move h1
      refine .inr ⟨t, l, k, hl, rfl, hk, ?_⟩
      simp only at h2
      split at h2
      · rename_i hc; cases h2; exact .inl ⟨hc, rfl, rfl⟩
      · rename_i hc
        obtain ⟨⟨ins, d1⟩, h3, h4⟩ := bind_ok h2
        cases h4
        exact .inr ⟨by simpa using hc, ins, h3, rfl⟩

theorem nonemitArc_inv {e : Env F D} {Q : Token F → Prop} (hQ : EpsClosed e Q) {d0 d d' : Dec F} {i : Nat}
    {cutoff : D} {stack stack' : List State} {a : GArc F} {st : State} (ha : a ∈ e.g.arcs st.1)
    (hi : ∃ t, d.toks[i]? = some t ∧ t.state = st) (hE : Eps Q d0 d stack)
    (h : nonemitArc e i cutoff (d, stack) a = .ok (d', stack')) :
    Eps Q d0 d' stack' ∧ ∃ t, d'.toks[i]? = some t ∧ t.state = st := by
  rcases nonemitArc_cases h with ⟨_, rfl, rfl⟩ | ⟨t, l, k, hl, ht, hk, ⟨_, rfl, rfl⟩ | ⟨_, ins, hins, rfl⟩⟩
  · exact ⟨hE, hi⟩
  · exact ⟨hE, hi⟩
  · have hI := insertTok_ins hE.exact hins
    obtain ⟨t', ht', hst⟩ := hi
    rw [ht] at ht'; cases ht'
    have hq : Q (nextTok e t a l e.ar.zero k) :=
      hQ t a l k (hE.all t (List.mem_of_getElem? ht)) (by rw [hst]; exact ha) hl hk
    refine ⟨⟨hI.exact, ?_, hE.frame.trans hI.frame, ?_⟩, ?_⟩
    · intro u hu
      rcases hI.mem u hu with hu | ⟨_, rfl⟩
      · exact hE.all u hu
      · exact hq
    · intro s hs
      have hnew : ∃ u ∈ d'.toks, u.state = (a.next, l) := by
        obtain ⟨u, hu, hus, _⟩ := hI.here
        exact ⟨u, hu, hus⟩
      cases ins with
      | true =>
        simp only [if_true] at hs
        rcases List.mem_cons.1 hs with rfl | hs
        · exact hnew
        · exact hI.stack (hE.stack s hs)
      | false => exact hI.stack (hE.stack s (by simpa using hs))
    · obtain ⟨u, hu, hus, _⟩ := hI.keep i t ht
      exact ⟨u, hu, hus.trans hst⟩

theorem nonemitArcs_inv {e : Env F D} {Q : Token F → Prop} (hQ : EpsClosed e Q) {d0 d d' : Dec F} {i : Nat}
    {cutoff : D} {stack stack' : List State} {st : State}
    (hi : ∃ t, d.toks[i]? = some t ∧ t.state = st) (hE : Eps Q d0 d stack)
    (h : (e.g.arcs st.1).foldlM (nonemitArc e i cutoff) (d, stack) = .ok (d', stack')) :
    Eps Q d0 d' stack' := by
  have := foldlM_inv (P := fun b : Dec F × List State => Eps Q d0 b.1 b.2 ∧ ∃ t, b.1.toks[i]? = some t ∧ t.state = st)
    (fun b a b' ha hb hf => nonemitArc_inv hQ ha hb.2 hb.1 hf) ⟨hE, hi⟩ h
  exact this.1

theorem nonemitLoop_inv {e : Env F D} {Q : Token F → Prop} (hQ : EpsClosed e Q) {cutoff : D} {d0 : Dec F} :
    ∀ {fuel : Nat} {d d' : Dec F} {stack : List State}, Eps Q d0 d stack →
      nonemitLoop e cutoff fuel d stack = .ok d' → Eps Q d0 d' []
  | fuel, d, d', [], hE, h => by
    cases fuel <;> (cases h; exact hE)
  | 0, _, _, _ :: _, _, h => by cases h
  | fuel + 1, d, d', st :: stack, hE, h => by
    unfold nonemitLoop at h
    cases hl : d.idx.lookup st with
    | none => rw [hl] at h; cases h
    | some i =>
      rw [hl] at h
      obtain ⟨⟨d1, st1⟩, h1, h2⟩ := bind_ok h
      have hE' : Eps Q d0 d stack := ⟨hE.exact, hE.all, hE.frame, fun s hs => hE.stack s (by simp [hs])⟩
      exact nonemitLoop_inv hQ (nonemitArcs_inv hQ ((hE.exact st i).1 hl) hE' h1) h2

theorem processNonemitting_inv {e : Env F D} {Q : Token F → Prop} (hQ : EpsClosed e Q) {cutoff : D} {fuel : Nat}
    {d d' : Dec F} (hx : IndexExact d) (hq : ∀ t ∈ d.toks, Q t)
    (h : processNonemitting e cutoff fuel d = .ok d') :
    IndexExact d' ∧ (∀ t ∈ d'.toks, Q t) ∧ Frame d d' := by
  obtain ⟨_, _, h⟩ := bind_ok h
  have := nonemitLoop_inv hQ (d0 := d) ⟨hx, hq, Frame.refl d, by
    intro s hs
    simp only [List.mem_reverse, List.mem_map] at hs
    exact hs⟩ h
  exact ⟨this.exact, this.all, this.frame⟩

/-! ## Emitting arcs -/

/-- `Q` holds of the tokens created from tokens satisfying `P` by emitting arcs. -/
def EmitClosed (e : Env F D) (f : List F) (P Q : Token F → Prop) : Prop :=
  ∀ t a l k v, P t → a ∈ e.g.arcs t.state.1 → a.ilabel ≠ 0 → IsScore e f a.ilabel v →
    LmMove e t.state.2 a.olabel l k → Q (nextTok e t a l (e.ar.fneg v) k)

/-- One emitting arc: skipped, pruned, or its token is inserted. -/
theorem emitArc_cases {e : Env F D} {f : List F} {ab : F} {t : Token F} {nwc nwc' : D} {d d' : Dec F}
    {a : GArc F} (h : emitArc e f ab t (nwc, d) a = .ok (nwc', d')) :
    (a.ilabel = 0 ∧ nwc' = nwc ∧ d' = d) ∨
    ∃ v, a.ilabel ≠ 0 ∧ IsScore e f a.ilabel v ∧
      ((e.ar.dlt nwc (e.ar.toD (e.ar.fadd (e.ar.fadd t.cost a.weight) (e.ar.fneg v))) = true ∧
        nwc' = nwc ∧ d' = d) ∨
      (e.ar.dlt nwc (e.ar.toD (e.ar.fadd (e.ar.fadd t.cost a.weight) (e.ar.fneg v))) = false ∧
        ∃ l k ins, LmMove e t.state.2 a.olabel l k ∧ 0 ≤ a.next ∧ 0 ≤ l ∧
          insertTok e d (a.next, l) a.olabel t.hist (stepCost e t.cost a.weight (e.ar.fneg v) k)
            = .ok (ins, d') ∧
          nwc' = tighten e.ar ab nwc
            (e.ar.toD (e.ar.fadd (e.ar.fadd t.cost a.weight) (e.ar.fneg v))))) := by
  unfold emitArc at h
  simp only at h
  split at h
  · rename_i hl; cases h; exact .inl ⟨hl, rfl, rfl⟩
  · rename_i hl
    obtain ⟨tot, h1, h⟩ := bind_ok h
    obtain ⟨v, hv, rfl⟩ := emitTotal_ok h1
    refine .inr ⟨v, hl, hv, ?_⟩
    split at h
    · rename_i hc; cases h; exact .inl ⟨hc, rfl, rfl⟩
    · rename_i hc
      obtain ⟨⟨l, tot'⟩, h2, h⟩ := bind_ok h
      obtain ⟨k, hk, rfl⟩ := addLm_move h2
      obtain ⟨_, h3, h⟩ := bind_ok h
      have h3 := of_decide_eq_true (cassert_ok h3)
      obtain ⟨⟨ins, d1⟩, h4, h⟩ := bind_ok h
      cases h
      exact .inr ⟨by simpa using hc, l, k, ins, hk, h3.1, h3.2, h4, rfl⟩

/-- Invariant of the emitting loop. -/
structure Emit (Q : Token F → Prop) (d0 d : Dec F) : Prop where
  exact : IndexExact d
  all : ∀ t ∈ d.toks, Q t
  frame : Frame d0 d

theorem emitArc_inv {e : Env F D} {f : List F} {P Q : Token F → Prop} (hQ : EmitClosed e f P Q) {ab : F}
    {t : Token F} (hP : P t) {nwc nwc' : D} {d0 d d' : Dec F} {a : GArc F} (ha : a ∈ e.g.arcs t.state.1)
    (hE : Emit Q d0 d) (h : emitArc e f ab t (nwc, d) a = .ok (nwc', d')) : Emit Q d0 d' := by
  rcases emitArc_cases h with ⟨_, _, rfl⟩ | ⟨v, hl, hv, ⟨_, _, rfl⟩ | ⟨_, l, k, ins, hk, _, _, hi, _⟩⟩
  · exact hE
  · exact hE
  · have hI := insertTok_ins hE.exact hi
    refine ⟨hI.exact, ?_, hE.frame.trans hI.frame⟩
    intro u hu
    rcases hI.mem u hu with hu | ⟨_, rfl⟩
    · exact hE.all u hu
    · exact hQ t a l k v hP ha hl hv hk

/-- The effect of a whole frame's worth of emitting arcs on tokens; every expanded token is returned to
the pool, so the surplus of allocated over active tokens drops by at most one per expanded token. -/
structure EmitAll (Q : Token F → Prop) (d0 d : Dec F) (n : Nat) : Prop where
  exact : IndexExact d
  all : ∀ t ∈ d.toks, Q t
  prev : d.prev = d0.prev
  frames : d.frames = d0.frames
  eos : d.eos = d0.eos
  live : d0.live - d0.toks.length ≤ d.live - d.toks.length + n

theorem emitTok_inv {e : Env F D} {f : List F} {P Q : Token F → Prop} (hQ : EmitClosed e f P Q) {wc ab : F}
    {t : Token F} (hP : P t) {nwc nwc' : D} {d0 d d' : Dec F} {n : Nat}
    (hE : EmitAll Q d0 d n) (h : emitTok e f wc ab (nwc, d) t = .ok (nwc', d')) : EmitAll Q d0 d' (n + 1) := by
  unfold emitTok at h
  split at h
  · cases h
    exact ⟨hE.exact, hE.all, hE.prev, hE.frames, hE.eos, by have := hE.live; omega⟩
  · obtain ⟨⟨nwc1, d1⟩, h1, h2⟩ := bind_ok h
    cases h2
    have := foldlM_inv (P := fun b : D × Dec F => Emit Q d b.2)
      (fun b a b' ha hb hf => emitArc_inv hQ hP ha hb hf) ⟨hE.exact, hE.all, Frame.refl d⟩ h1
    obtain ⟨hx, ha, hf⟩ := this
    refine ⟨hx, ha, hf.prev.trans hE.prev, hf.frames.trans hE.frames, hf.eos.trans hE.eos, ?_⟩
    have h1 := hf.live
    have h2 := hE.live
    simp only at h1 ⊢
    omega

theorem emitToks_inv {e : Env F D} {f : List F} {P Q : Token F → Prop} (hQ : EmitClosed e f P Q) {wc ab : F}
    {d0 : Dec F} : ∀ {l : List (Token F)} {b b' : D × Dec F} {n : Nat}, (∀ t ∈ l, P t) → EmitAll Q d0 b.2 n →
      l.foldlM (emitTok e f wc ab) b = .ok b' → EmitAll Q d0 b'.2 (n + l.length)
  | [], b, b', n, _, hE, h => by
    cases (by simpa [pure, Except.pure] using h : b = b'); exact hE
  | t :: l, b, b', n, hP, hE, h => by
    rw [List.foldlM_cons] at h
    obtain ⟨b1, h1, h2⟩ := bind_ok h
    have := emitToks_inv hQ (fun u hu => hP u (by simp [hu])) (emitTok_inv hQ (hP t (by simp)) hE h1) h2
    rw [List.length_cons, Nat.add_comm l.length 1, ← Nat.add_assoc]; exact this

/-- The state after the swap at the start of a frame. -/
def swapped (d : Dec F) : Dec F := { d with idx := [], toks := d.prev, prev := d.toks }

theorem processEmitting_cases {e : Env F D} {f : List F} {d d' : Dec F} {c : Option (Cutoffs F D)}
    (h : processEmitting e f d = .ok (c, d')) :
    ∃ cut ab best, getCutoff e.ar d.toks = .ok (cut, ab, best) ∧
      ((c = none ∧ d' = swapped d ∧ e.ar.finite (e.ar.toD (e.ar.toF cut)) = false) ∨
      (e.ar.finite (e.ar.toD (e.ar.toF cut)) = true ∧ ∃ nwc0 nwc d1,
        (e.g.arcs best.state.1).foldlM (bestArc e f ab best.cost) e.ar.inf = .ok nwc0 ∧
        d.toks.foldlM (emitTok e f (e.ar.toF cut) ab) (nwc0, swapped d) = .ok (nwc, d1) ∧
        c = some ⟨e.ar.toF cut, nwc⟩ ∧ d' = { d1 with prev := [] })) := by
  unfold processEmitting at h
  obtain ⟨⟨cut, ab, best⟩, h1, h⟩ := bind_ok h
  refine ⟨cut, ab, best, h1, ?_⟩
  simp only at h
  split at h
  · rename_i hc; cases h; exact .inl ⟨rfl, rfl, hc⟩
  · rename_i hc
    obtain ⟨nwc0, h2, h⟩ := bind_ok h
    obtain ⟨⟨nwc, d1⟩, h3, h⟩ := bind_ok h
    cases h
    exact .inr ⟨by simpa using hc, nwc0, nwc, d1, h2, h3, rfl, rfl⟩

theorem getCutoff_nil (ar : Arith F D) : getCutoff ar ([] : List (Token F)) = .error .ub := rfl

theorem processEmitting_inv {e : Env F D} {f : List F} {P Q : Token F → Prop} (hQ : EmitClosed e f P Q)
    {d d' : Dec F} {c : Option (Cutoffs F D)} (hprev : d.prev = []) (hP : ∀ t ∈ d.toks, P t)
    (h : processEmitting e f d = .ok (c, d')) :
    IndexExact d' ∧ (∀ t ∈ d'.toks, Q t) ∧ d'.frames = d.frames ∧ d'.eos = d.eos ∧
      (c = none → d' = swapped d) ∧ (c ≠ none → d'.prev = []) ∧
      d.live - d.toks.length ≤ d'.live - d'.toks.length := by
  have hx : IndexExact (swapped d) := by
    intro s i
    simp [swapped, hprev]
  obtain ⟨cut, ab, best, _, h | ⟨_, nwc0, nwc, d1, _, h3, rfl, rfl⟩⟩ := processEmitting_cases h
  · obtain ⟨rfl, rfl, _⟩ := h
    refine ⟨hx, by simp [swapped, hprev], rfl, rfl, fun _ => rfl, by simp, ?_⟩
    simp [swapped, hprev]; omega
  · have := emitToks_inv hQ (d0 := swapped d) (n := 0) hP
      ⟨hx, by simp [swapped, hprev], rfl, rfl, rfl, by simp⟩ h3
    refine ⟨this.exact, this.all, this.frames, this.eos, by simp, fun _ => rfl, ?_⟩
    have h2 := this.live
    simp [swapped, hprev] at h2
    simp only
    omega

/-! ## Frames -/

theorem process_cases {e : Env F D} {f : List F} {fuel : Nat} {d d' : Dec F} {b : Bool} {c : Option (Cutoffs F D)}
    (h : process e fuel f d = .ok (b, c, d')) :
    ∃ d1, processEmitting e f d = .ok (c, d1) ∧
      ((c = none ∧ b = false ∧ d' = d1) ∨
      ∃ c', c = some c' ∧
        ((e.ar.finite (e.ar.toD (e.ar.toF c'.next)) = false ∧ b = false ∧ d' = d1) ∨
        (e.ar.finite (e.ar.toD (e.ar.toF c'.next)) = true ∧ ∃ d2,
          processNonemitting e (e.ar.toD (e.ar.toF c'.next)) fuel d1 = .ok d2 ∧
          ((d2.toks = [] ∧ b = false ∧ d' = d2) ∨
            (d2.toks ≠ [] ∧ b = true ∧ d' = { d2 with frames := d2.frames + 1 }))))) := by
  unfold process at h
  obtain ⟨⟨c1, d1⟩, h1, h⟩ := bind_ok h
  cases c1 with
  | none => cases h; exact ⟨_, h1, .inl ⟨rfl, rfl, rfl⟩⟩
  | some c1 =>
    simp only at h
    split at h
    · rename_i hc; cases h; exact ⟨_, h1, .inr ⟨c1, rfl, .inl ⟨hc, rfl, rfl⟩⟩⟩
    · rename_i hc
      obtain ⟨d2, h2, h⟩ := bind_ok h
      split at h
      · rename_i ht; cases h
        exact ⟨d1, h1, .inr ⟨c1, rfl, .inr ⟨by simpa using hc, _, h2, .inl ⟨ht, rfl, rfl⟩⟩⟩⟩
      · rename_i ht; cases h
        exact ⟨d1, h1, .inr ⟨c1, rfl, .inr ⟨by simpa using hc, d2, h2, .inr ⟨ht, rfl, rfl⟩⟩⟩⟩

theorem process_nil {e : Env F D} {f : List F} {fuel : Nat} {d : Dec F} (h : d.toks = []) :
    process e fuel f d = .error .ub := by
  unfold process processEmitting
  simp only [h, getCutoff_nil, error_bind]

/-- What a frame does to a decoder whose index is exact and whose previous beam has been emptied. -/
theorem process_inv {e : Env F D} {f : List F} {P Q : Token F → Prop} (hQ : EmitClosed e f P Q)
    (hQ' : EpsClosed e Q) {d d' : Dec F} {fuel : Nat} {b : Bool} {c : Option (Cutoffs F D)}
    (hprev : d.prev = [] ∨ d.toks = []) (hP : ∀ t ∈ d.toks, P t)
    (h : process e fuel f d = .ok (b, c, d')) :
    IndexExact d' ∧ (∀ t ∈ d'.toks, Q t) ∧ (d'.prev = [] ∨ d'.toks = []) ∧
      d'.frames = d.frames + (if b then 1 else 0) ∧ d'.eos = d.eos ∧ (b = true → d'.toks ≠ [] ∧ d'.prev = []) ∧
      d.live - d.toks.length ≤ d'.live - d'.toks.length := by
  have hne : d.toks ≠ [] := by
    intro hn
    rw [process_nil hn] at h; cases h
  have hprev : d.prev = [] := by
    rcases hprev with h | h
    · exact h
    · exact absurd h hne
  obtain ⟨d1, h1, h⟩ := process_cases h
  obtain ⟨hx, hq, hf, he, hn, hs, hl⟩ := processEmitting_inv hQ hprev hP h1
  rcases h with ⟨rfl, rfl, rfl⟩ | ⟨c', rfl, ⟨_, rfl, rfl⟩ | ⟨_, d2, h2, h⟩⟩
  · refine ⟨hx, hq, .inr ?_, by simpa using hf, he, by simp, hl⟩
    rw [hn rfl]; exact hprev
  · exact ⟨hx, hq, .inl (hs (by simp)), by simpa using hf, he, by simp, hl⟩
  · obtain ⟨hx2, hq2, hf2⟩ := processNonemitting_inv hQ' hx hq h2
    have hp2 : d2.prev = [] := hf2.prev.trans (hs (by simp))
    have hl2 := Int.le_trans hl hf2.live
    rcases h with ⟨ht, rfl, rfl⟩ | ⟨ht, rfl, rfl⟩
    · exact ⟨hx2, hq2, .inr ht, by simp [hf2.frames, hf], hf2.eos.trans he, by simp, hl2⟩
    · exact ⟨hx2, hq2, .inl hp2, by simp [hf2.frames, hf], hf2.eos.trans he, fun _ => ⟨ht, hp2⟩, hl2⟩

theorem initDecoder_cases {e : Env F D} {fuel : Nat} {d d' : Dec F} (h : initDecoder e fuel d = .ok d') :
    0 ≤ e.g.start ∧ ∃ s ins d1, StartState e s ∧
      insertTok e { d with toks := [], prev := [] } s 0 [] e.ar.zero = .ok (ins, d1) ∧
      processNonemitting e e.ar.inf fuel { d1 with frames := 0 } = .ok d' := by
  unfold initDecoder at h
  obtain ⟨_, h1, h⟩ := bind_ok h
  refine ⟨of_decide_eq_true (cassert_ok h1), ?_⟩
  obtain ⟨ls, hls, h⟩ := bind_ok h
  obtain ⟨⟨ins, d1⟩, h2, h3⟩ := bind_ok h
  refine ⟨(e.g.start, ls), ins, d1, ⟨rfl, ?_⟩, h2, h3⟩
  unfold lmStart at hls
  cases hm : e.lm with
  | none => rw [hm] at hls; cases hls; exact .inl ⟨rfl, rfl⟩
  | some lm => rw [hm] at hls; exact .inr ⟨lm, rfl, hls⟩

theorem StartState.unique {e : Env F D} {s t : State} (hs : StartState e s) (ht : StartState e t) : s = t := by
  obtain ⟨h1, h2⟩ := hs
  obtain ⟨h3, h4⟩ := ht
  refine Prod.ext (h1.trans h3.symm) ?_
  rcases h2 with ⟨hn, h2⟩ | ⟨lm, hm, h2⟩ <;> rcases h4 with ⟨hn', h4⟩ | ⟨lm', hm', h4⟩
  · rw [h2, h4]
  · rw [hn] at hm'; cases hm'
  · rw [hm] at hn'; cases hn'
  · rw [hm] at hm'; cases hm'; rw [h2] at h4; exact Except.ok.inj h4

theorem indexExact_fresh : IndexExact (⟨[], [], [], 0, b, n⟩ : Dec F) := by
  intro s i; simp

theorem initDecoder_inv {e : Env F D} {Q : Token F → Prop} (hQ : EpsClosed e Q) {fuel : Nat} {d' : Dec F}
    (h0 : ∀ s, StartState e s → Q ⟨s, e.ar.zero, []⟩) (h : initDecoder e fuel fresh = .ok d') :
    IndexExact d' ∧ (∀ t ∈ d'.toks, Q t) ∧ d'.prev = [] ∧ d'.frames = 0 ∧ d'.eos = false ∧
      0 ≤ d'.live - d'.toks.length ∧ ∃ s, StartState e s ∧ ∃ t ∈ d'.toks, t.state = s := by
  obtain ⟨_, s, ins, d1, hs, h1, h2⟩ := initDecoder_cases h
  have hx0 : IndexExact ({ (fresh : Dec F) with toks := [], prev := [] } : Dec F) := indexExact_fresh
  have hI := insertTok_ins hx0 h1
  obtain ⟨hx, hq, hf⟩ := processNonemitting_inv (d := { d1 with frames := 0 }) hQ hI.exact (by
    intro t ht
    rcases hI.mem t ht with h | ⟨_, rfl⟩
    · simp at h
    · exact h0 s hs) h2
  refine ⟨hx, hq, hf.prev.trans hI.prev, hf.frames, hf.eos.trans hI.eos, ?_, s, hs, ?_⟩
  · have h1 := hI.live
    have h2 := hf.live
    simp [fresh] at h1 h2 ⊢
    omega
  · obtain ⟨t, ht, hts, _⟩ := hI.here
    obtain ⟨i, hi⟩ := List.getElem?_of_mem ht
    obtain ⟨u, hu, hus⟩ := hf.states i t hi
    exact ⟨u, List.mem_of_getElem? hu, hus.trans hts⟩

end Verif.Decoder
