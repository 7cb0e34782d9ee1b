import Verif.EndSpec
import Verif.DecoderSample
import Verif.DecoderPaths
import Verif.DecoderOptimal
import Mathlib.Order.Interval.Finset.Basic
import Mathlib.Data.Int.Interval
import Mathlib.Data.Finset.Prod

/-!
# Helper lemmas: the decoder comes to an end
-/

namespace Verif.Decoder

open Verif Verif.Fst

variable {F D : Type} {e : Env F D} {P : Int → Prop} {width N k : Nat}

/-- A search state of the model. -/
def Place (e : Env F D) (P : Int → Prop) (s : State) : Prop :=
  (0 ≤ s.1 ∧ s.1 < 2 ^ 31) ∧ (0 ≤ s.2 ∧ s.2 < 2 ^ 31) ∧ (e.lm ≠ none → P s.2)

/-- A decoder between two arcs. -/
structure Sane (e : Env F D) (P : Int → Prop) (d : Dec F) : Prop where
  exact : IndexExact d
  place : ∀ t ∈ d.toks, Place e P t.state

theorem Sturdy.move (h : Sturdy e P width N k) {s : State} (hs : Place e P s) {g : Int} {a : GArc F}
    (ha : a ∈ e.g.arcs g) : ∃ l m, LmMove e s.2 a.olabel l m ∧ Place e P (a.next, l) := by
  have hn := h.next g a ha
  cases hm : e.lm with
  | none => exact ⟨s.2, id, .off hm, hn, hs.2.1, fun h => absurd hm h⟩
  | some lm =>
    have hp : P s.2 := hs.2.2 (by rw [hm]; simp)
    by_cases h0 : a.olabel = 0
    · rw [h0]
      exact ⟨s.2, _, .silent hm, hn, hs.2.1, fun _ => hp⟩
    · obtain ⟨r, h1, h2⟩ := h.lmArc lm hm s.2 hp g a ha h0
      cases r with
      | none => exact ⟨s.2, _, .unknown hm h0 h1, hn, hs.2.1, fun _ => hp⟩
      | some b =>
        have := h2 b rfl
        exact ⟨b.next, _, .word hm h0 h1, hn, h.lmState _ this, fun _ => this⟩

theorem insertTok_sane (e : Env F D) {d : Dec F} (h : Sane e P d) {st : State} (hs : Place e P st) (label : Int)
    (hist : List Int) (cost : F) :
    ∃ ins d', insertTok e d st label hist cost = .ok (ins, d') ∧ Sane e P d' ∧
      Ins e.ar d ⟨st, cost, extendHist hist label⟩ ins d' := by
  obtain ⟨ins, d', h1, h2⟩ := insertTok_spec e h.exact st label hist cost
  refine ⟨ins, d', h1, ⟨h2.exact, fun t ht => ?_⟩, h2⟩
  rcases h2.mem t ht with h3 | ⟨_, rfl⟩
  · exact h.place t h3
  · exact hs

/-- What is left to do for the states on the stack: every one of them may lead to others, with shorter ways ahead. -/
inductive Effort (g : Graph F) (N : Nat) : List State → Nat → Prop where
  | nil : Effort g N [] 0
  | cons {s : State} {st : List State} {j m : Nat} : (∀ n, Silent g s.1 n → n ≤ j) → Effort g N st m →
      Effort g N (s :: st) ((N + 1) ^ j + m)

theorem effort_const {g : Graph F} {N k : Nat} (h : ∀ s n, Silent g s n → n ≤ k) : ∀ l : List State,
    Effort g N l (l.length * (N + 1) ^ k)
  | [] => by rw [List.length_nil, Nat.zero_mul]; exact .nil
  | s :: l => by
    rw [List.length_cons, Nat.succ_mul, Nat.add_comm]
    exact .cons (h s.1) (effort_const h l)

/-- The arcs of one state taken from the stack. -/
theorem nonemitArcs_ok (h : Sturdy e P width N k) {i : Nat} {cutoff : D} {g : Int} {c : Nat} :
    ∀ (as : List (GArc F)) {d : Dec F} {stack : List State} {m : Nat}, (∀ a ∈ as, a ∈ e.g.arcs g) →
      (∀ a ∈ as, a.ilabel = 0 → ∃ j, (∀ n, Silent e.g a.next n → n ≤ j) ∧ (N + 1) ^ j ≤ c) →
      Sane e P d → (∃ t, d.toks[i]? = some t) → (∀ s ∈ stack, ∃ t ∈ d.toks, t.state = s) → Effort e.g N stack m →
      ∃ d' stack' m', as.foldlM (nonemitArc e i cutoff) (d, stack) = .ok (d', stack') ∧ Sane e P d' ∧
        (∀ s ∈ stack', ∃ t ∈ d'.toks, t.state = s) ∧ Effort e.g N stack' m' ∧ m' ≤ m + as.length * c
  | [], d, stack, m, _, _, hs, _, hst, he => ⟨d, stack, m, rfl, hs, hst, he, by simp⟩
  | a :: as, d, stack, m, ha, hc, hs, ⟨t, ht⟩, hst, he => by
    have ih := @nonemitArcs_ok h i cutoff g c as
    have ha' : ∀ b ∈ as, b ∈ e.g.arcs g := fun b hb => ha b (by simp [hb])
    have hc' : ∀ b ∈ as, b.ilabel = 0 → ∃ j, (∀ n, Silent e.g b.next n → n ≤ j) ∧ (N + 1) ^ j ≤ c :=
      fun b hb => hc b (by simp [hb])
    rw [List.foldlM_cons]
    have hlen : (a :: as).length * c = c + as.length * c := by rw [List.length_cons, Nat.succ_mul, Nat.add_comm]
    by_cases h0 : a.ilabel = 0
    · obtain ⟨j, hj, hjc⟩ := hc a (by simp) h0
      obtain ⟨l, mv, h1, h2⟩ := h.move (hs.place t (List.mem_of_getElem? ht)) (ha a (by simp))
      by_cases hcut : e.ar.dlt cutoff (mv (e.ar.toD (e.ar.fadd (e.ar.fadd t.cost a.weight) e.ar.zero))) = true
      · have : nonemitArc e i cutoff (d, stack) a = .ok (d, stack) := by
          unfold nonemitArc
          simp only [h0, ht, addLm_of h1, ok_bind, hcut]
          simp
        rw [this, ok_bind]
        obtain ⟨d', stack', m', g1, g2, g3, g4, g5⟩ := ih ha' hc' hs ⟨t, ht⟩ hst he
        exact ⟨d', stack', m', g1, g2, g3, g4, by omega⟩
      · obtain ⟨ins, d1, i1, i2, i3⟩ := insertTok_sane e hs h2 a.olabel t.hist
          (e.ar.toF (mv (e.ar.toD (e.ar.fadd (e.ar.fadd t.cost a.weight) e.ar.zero))))
        have : nonemitArc e i cutoff (d, stack) a = .ok (d1, if ins then (a.next, l) :: stack else stack) := by
          unfold nonemitArc
          simp only [h0, ht, addLm_of h1, ok_bind, hcut, i1]
          simp
        rw [this, ok_bind]
        obtain ⟨t', k1, k2, _⟩ := i3.keep i t ht
        have hst1 : ∀ s ∈ stack, ∃ t ∈ d1.toks, t.state = s := by
          intro s hs'
          obtain ⟨u, u1, u2⟩ := hst s hs'
          obtain ⟨q, hq⟩ := List.getElem?_of_mem u1
          obtain ⟨u', u3, u4, _⟩ := i3.keep q u hq
          exact ⟨u', List.mem_of_getElem? u3, u4.trans u2⟩
        cases ins with
        | false =>
          obtain ⟨d', stack', m', g1, g2, g3, g4, g5⟩ := ih ha' hc' i2 ⟨t', k1⟩ hst1 he
          exact ⟨d', stack', m', g1, g2, g3, g4, by omega⟩
        | true =>
          obtain ⟨d', stack', m', g1, g2, g3, g4, g5⟩ := ih ha' hc' i2 ⟨t', k1⟩ (stack := (a.next, l) :: stack)
            (by
              intro s hs'
              rcases List.mem_cons.mp hs' with rfl | hs'
              · obtain ⟨u, u1, u2, _⟩ := i3.here
                exact ⟨u, u1, u2⟩
              · exact hst1 s hs') (.cons hj he)
          exact ⟨d', stack', m', g1, g2, g3, g4, by omega⟩
    · have : nonemitArc e i cutoff (d, stack) a = .ok (d, stack) := by
        unfold nonemitArc
        simp [h0]
      rw [this, ok_bind]
      obtain ⟨d', stack', m', g1, g2, g3, g4, g5⟩ := ih ha' hc' hs ⟨t, ht⟩ hst he
      exact ⟨d', stack', m', g1, g2, g3, g4, by omega⟩

/-- The loop over states ends. -/
theorem nonemitLoop_ok (h : Sturdy e P width N k) {cutoff : D} : ∀ (fuel : Nat) {d : Dec F} {stack : List State} {m : Nat},
    Sane e P d → (∀ s ∈ stack, ∃ t ∈ d.toks, t.state = s) → Effort e.g N stack m → m ≤ fuel →
    ∃ d', nonemitLoop e cutoff fuel d stack = .ok d'
  | fuel, d, [], _, _, _, _, _ => by cases fuel <;> exact ⟨d, rfl⟩
  | 0, d, s :: stack, m, _, _, he, hm => by
    cases he with
    | @cons _ _ j m _ _ =>
      have := Nat.pow_pos (a := N + 1) (n := j) (by omega)
      omega
  | fuel + 1, d, s :: stack, _, hs, hst, he, hm => by
    cases he with
    | @cons _ _ j m hj he =>
      unfold nonemitLoop
      obtain ⟨t, ht, hts⟩ := hst s (by simp)
      obtain ⟨i, hi⟩ := List.getElem?_of_mem ht
      rw [(hs.exact s i).2 ⟨t, hi, hts⟩]
      simp only
      have hb := h.branch s.1
      have hc : ∃ c, (∀ a ∈ e.g.arcs s.1, a.ilabel = 0 → ∃ j, (∀ n, Silent e.g a.next n → n ≤ j) ∧ (N + 1) ^ j ≤ c) ∧
          N * c + 1 ≤ (N + 1) ^ j := by
        cases j with
        | zero =>
          refine ⟨0, fun a ha h0 => ?_, by simp⟩
          have := hj 1 (.cons ha h0 .nil)
          omega
        | succ j =>
          refine ⟨(N + 1) ^ j, fun a ha h0 => ⟨j, fun n hn => ?_, Nat.le_refl _⟩, ?_⟩
          · have := hj (n + 1) (.cons ha h0 hn)
            omega
          · have := Nat.pow_pos (a := N + 1) (n := j) (by omega)
            rw [Nat.pow_succ, Nat.mul_add, Nat.mul_one, Nat.mul_comm]
            omega
      obtain ⟨c, c1, c2⟩ := hc
      obtain ⟨d', stack', m', g1, g2, g3, g4, g5⟩ := nonemitArcs_ok h (i := i) (cutoff := cutoff) (e.g.arcs s.1)
        (fun a ha => ha) c1 hs ⟨t, hi⟩ (fun s' hs' => hst s' (by simp [hs'])) he
      rw [g1, ok_bind]
      refine nonemitLoop_ok h fuel g2 g3 g4 ?_
      have := Nat.mul_le_mul_right c hb
      omega

/-- There are no more states than pairs of `int` that are not negative. -/
theorem Sane.count {d : Dec F} (h : Sane e P d) : d.toks.length ≤ 2 ^ 62 := by
  have hn : (d.toks.map (·.state)).Nodup := by
    rw [List.nodup_iff_injective_getElem]
    intro ⟨i, hi⟩ ⟨j, hj⟩ hij
    simp only [List.length_map] at hi hj
    simp only [List.getElem_map] at hij
    have := indexExact_nodup h.exact (List.getElem?_eq_getElem hi) (List.getElem?_eq_getElem hj) hij
    exact Fin.ext this
  have hsub : ∀ A : Finset Int, (∀ x, 0 ≤ x ∧ x < 2 ^ 31 → x ∈ A) → (d.toks.map (·.state)).toFinset ⊆ A ×ˢ A := by
    intro A hA s hs
    rw [List.mem_toFinset, List.mem_map] at hs
    obtain ⟨t, ht, he⟩ := hs
    have := h.place t ht
    rw [he] at this
    rw [Finset.mem_product]
    exact ⟨hA _ this.1, hA _ this.2.1⟩
  have hsub := hsub (Finset.Ico 0 (2 ^ 31)) fun x hx => Finset.mem_Ico.mpr hx
  have := Finset.card_le_card hsub
  rw [List.toFinset_card_of_nodup hn, List.length_map, Finset.card_product, Int.card_Ico] at this
  have e : ((2 : Int) ^ 31 - 0).toNat = 2147483648 := rfl
  rw [e] at this
  exact Nat.le_trans this (by decide)

theorem processNonemitting_ok (h : Sturdy e P width N k) (cutoff : D) {fuel : Nat} (hf : 2 ^ 62 * (N + 1) ^ k ≤ fuel)
    {d : Dec F} (hs : Sane e P d) : ∃ d', processNonemitting e cutoff fuel d = .ok d' := by
  unfold processNonemitting
  rw [show d.toks.all (fun t => decide (0 ≤ t.state.1)) = true by
    rw [List.all_eq_true]; intro t ht; rw [decide_eq_true_eq]; exact (hs.place t ht).1.1, cassert_true, ok_bind]
  refine nonemitLoop_ok h fuel hs ?_ (effort_const h.silent _) (Nat.le_trans ?_ hf)
  · intro s hs'
    simp only [List.mem_reverse, List.mem_map] at hs'
    exact hs'
  · rw [List.length_reverse, List.length_map]
    exact Nat.mul_le_mul_right _ hs.count

/-! ## Frames -/

theorem Sturdy.isScore (h : Sturdy e P width N k) {f : List F} (hf : f.length = width) {g : Int} {a : GArc F}
    (ha : a ∈ e.g.arcs g) (hl : a.ilabel ≠ 0) : ∃ v, IsScore e f a.ilabel v := by
  obtain ⟨ti, pi, h1, h2, h3⟩ := h.score g a ha hl
  exact ⟨_, ti, pi, f[pi]'(by omega), h1, h2, List.getElem?_eq_getElem (by omega), rfl⟩

theorem LmMove.unique_place {s l s' s'' : Int} {m m' : D → D} (h : LmMove e s l s' m) (g : LmMove e s l s'' m') :
    s' = s'' := (LmMove.unique h g).1

theorem place_eps (h : Sturdy e P width N k) : EpsClosed e (fun t => Place e P t.state) := by
  intro t a l m ht ha _ hm
  obtain ⟨l', m', h1, h2⟩ := h.move ht ha
  have := LmMove.unique_place h1 hm
  subst this
  exact h2

theorem place_emit (h : Sturdy e P width N k) (f : List F) :
    EmitClosed e f (fun t => Place e P t.state) (fun t => Place e P t.state) := by
  intro t a l m v ht ha _ _ hm
  obtain ⟨l', m', h1, h2⟩ := h.move ht ha
  have := LmMove.unique_place h1 hm
  subst this
  exact h2

theorem foldlM_total {α β : Type} {Q : β → Prop} {f : β → α → Exec β} : ∀ {l : List α} {b : β},
    (∀ b a, a ∈ l → Q b → ∃ b', f b a = .ok b' ∧ Q b') → Q b → ∃ b', l.foldlM f b = .ok b' ∧ Q b'
  | [], b, _, hb => ⟨b, rfl, hb⟩
  | a :: l, b, h, hb => by
    obtain ⟨b1, h1, h2⟩ := h b a (by simp) hb
    rw [List.foldlM_cons, h1, ok_bind]
    exact foldlM_total (fun b a ha => h b a (by simp [ha])) h2

theorem emitArc_ok (h : Sturdy e P width N k) {f : List F} (hf : f.length = width) {ab : F} {t : Token F}
    (ht : Place e P t.state) {b : D × Dec F} (hb : Sane e P b.2) {g : Int} {a : GArc F} (ha : a ∈ e.g.arcs g) :
    ∃ b', emitArc e f ab t b a = .ok b' ∧ Sane e P b'.2 := by
  obtain ⟨nwc, d⟩ := b
  unfold emitArc
  simp only
  split
  · exact ⟨_, rfl, hb⟩
  · rename_i hl
    obtain ⟨v, hv⟩ := h.isScore hf ha hl
    rw [emitTotal_of hv, ok_bind]
    split
    · exact ⟨_, rfl, hb⟩
    · obtain ⟨l, m, h1, h2⟩ := h.move ht ha
      rw [addLm_of h1, ok_bind]
      simp only
      rw [decide_eq_true (And.intro h2.1.1 h2.2.1.1), cassert_true, ok_bind]
      obtain ⟨ins, d', i1, i2, _⟩ := insertTok_sane e hb h2 a.olabel t.hist
        (e.ar.toF (m (e.ar.toD (e.ar.fadd (e.ar.fadd t.cost a.weight) (e.ar.fneg v)))))
      rw [i1, ok_bind]
      exact ⟨_, rfl, i2⟩

theorem emitTok_ok (h : Sturdy e P width N k) {f : List F} (hf : f.length = width) {wc ab : F} {t : Token F}
    (ht : Place e P t.state) {b : D × Dec F} (hb : Sane e P b.2) :
    ∃ b', emitTok e f wc ab b t = .ok b' ∧ Sane e P b'.2 := by
  unfold emitTok
  split
  · exact ⟨_, rfl, hb⟩
  · obtain ⟨b', h1, h2⟩ := foldlM_total (Q := fun b : D × Dec F => Sane e P b.2) (l := e.g.arcs t.state.1) (b := b)
      (fun b a ha hb => emitArc_ok h hf (ab := ab) ht hb ha) hb
    rw [h1, ok_bind]
    exact ⟨_, rfl, h2.exact, h2.place⟩

theorem sane_swapped {d : Dec F} (hp : d.prev = []) : Sane e P (swapped d) :=
  ⟨by intro s i; simp [swapped, hp], by simp [swapped, hp]⟩

theorem processEmitting_ok (h : Sturdy e P width N k) (hfr : FracLaw e.ar) {f : List F} (hf : f.length = width)
    {d : Dec F} (hs : Sane e P d) (hp : d.prev = []) (hne : d.toks ≠ [])
    (hc : Comparable e.ar (d.toks.map (·.cost))) :
    ∃ c d', processEmitting e f d = .ok (c, d') ∧ Sane e P d' := by
  obtain ⟨⟨cut, ab, best⟩, h1⟩ := getCutoff_total hfr hne (Nat.lt_of_le_of_lt hs.count (by decide)) hc
  unfold processEmitting
  simp only [h1, ok_bind]
  split
  · exact ⟨_, _, rfl, sane_swapped hp⟩
  · obtain ⟨nwc, h2, _⟩ := foldlM_total (Q := fun _ : D => True) (l := e.g.arcs best.state.1) (b := e.ar.inf)
      (f := bestArc e f ab best.cost) (fun b a ha _ => by
        unfold bestArc
        split
        · exact ⟨_, rfl, trivial⟩
        · rename_i hl
          obtain ⟨v, hv⟩ := h.isScore hf ha hl
          rw [emitTotal_of hv, ok_bind]
          exact ⟨_, rfl, trivial⟩) trivial
    obtain ⟨⟨nwc', d'⟩, h3, h4⟩ := foldlM_total (Q := fun b : D × Dec F => Sane e P b.2) (l := d.toks)
      (b := (nwc, swapped d)) (fun b t ht hb => emitTok_ok h hf (wc := e.ar.toF cut) (ab := ab) (hs.place t ht) hb)
      (sane_swapped hp)
    rw [h2, ok_bind, show ({ d with idx := [], toks := d.prev, prev := d.toks } : Dec F) = swapped d from rfl, h3, ok_bind]
    exact ⟨_, _, rfl, h4.exact, h4.place⟩

/-- A frame is worked through. -/
theorem process_ok (h : Sturdy e P width N k) (hfr : FracLaw e.ar) {fuel : Nat} (hfu : 2 ^ 62 * (N + 1) ^ k ≤ fuel)
    {f : List F} (hf : f.length = width) {d : Dec F} (hs : Sane e P d) (hp : d.prev = []) (hne : d.toks ≠ [])
    (hc : Comparable e.ar (d.toks.map (·.cost))) :
    ∃ b c d', process e fuel f d = .ok (b, c, d') ∧ Sane e P d' := by
  obtain ⟨c, d1, h1, h2⟩ := processEmitting_ok h hfr hf hs hp hne hc
  have key : ∃ r, process e fuel f d = .ok r := by
    unfold process
    rw [h1, ok_bind]
    cases c with
    | none => exact ⟨_, rfl⟩
    | some c =>
      simp only
      split
      · exact ⟨_, rfl⟩
      · obtain ⟨d2, h3⟩ := processNonemitting_ok h (e.ar.toD (e.ar.toF c.next)) hfu h2
        rw [h3, ok_bind]
        split <;> exact ⟨_, rfl⟩
  obtain ⟨⟨b, c, d'⟩, hr⟩ := key
  have := process_inv (place_emit h f) (place_eps h) (.inl hp) hs.place hr
  exact ⟨b, c, d', hr, this.1, this.2.1⟩

theorem Sturdy.startState (h : Sturdy e P width N k) : ∃ s, StartState e s ∧ Place e P s ∧ Decoder.lmStart e = .ok s.2 := by
  cases hm : e.lm with
  | none =>
    exact ⟨(e.g.start, 0), ⟨rfl, .inl ⟨hm, rfl⟩⟩, ⟨h.start, ⟨Int.le_refl 0, by show (0 : Int) < 2 ^ 31; decide⟩, fun h => absurd hm h⟩, by simp [Decoder.lmStart, hm]⟩
  | some lm =>
    obtain ⟨s, h1, h2⟩ := h.lmStart lm hm
    exact ⟨(e.g.start, s), ⟨rfl, .inr ⟨lm, hm, h1⟩⟩, ⟨h.start, h.lmState s h2, fun _ => h2⟩, by simp [Decoder.lmStart, hm, h1]⟩

/-- The decoder starts. -/
theorem initDecoder_ok (h : Sturdy e P width N k) {fuel : Nat} (hfu : 2 ^ 62 * (N + 1) ^ k ≤ fuel) :
    ∃ d, initDecoder e fuel fresh = .ok d ∧ Sane e P d := by
  obtain ⟨s, h1, h2, h3⟩ := h.startState
  have hs0 : Sane e P ({ (fresh : Dec F) with toks := [], prev := [] } : Dec F) := ⟨indexExact_fresh, by simp⟩
  obtain ⟨ins, d1, i1, i2, _⟩ := insertTok_sane e hs0 (st := (e.g.start, s.2)) ⟨h.start, h2.2.1, h2.2.2⟩ 0 [] e.ar.zero
  obtain ⟨d, hd⟩ := processNonemitting_ok h e.ar.inf hfu (d := { d1 with frames := 0 }) ⟨i2.exact, i2.place⟩
  have key : initDecoder e fuel fresh = .ok d := by
    unfold initDecoder
    rw [decide_eq_true h.start.1, cassert_true, ok_bind, h3, ok_bind, i1, ok_bind]
    exact hd
  have := initDecoder_inv (place_eps h) (fun s' hs' => by rw [hs'.unique h1]; exact h2) key
  exact ⟨d, key, this.1, this.2.1⟩

theorem bestLoop_ok (h : Sturdy e P width N k) {eos : Bool} : ∀ {l : List (Token F)} {b : Option (Token F)} {c : D},
    (∀ t ∈ l, Place e P t.state) → ∃ r, bestLoop e eos l b c = .ok r ∧ ∀ t, r.1 = some t → t ∈ l ∨ b = some t
  | [], b, c, _ => ⟨_, rfl, fun _ h => .inr h⟩
  | t :: l, b, c, hl => by
    have hc : ∃ x, pathCost e eos t = .ok x := by
      unfold pathCost
      cases eos with
      | false => exact ⟨_, rfl⟩
      | true =>
        cases hm : e.lm with
        | none => exact ⟨_, rfl⟩
        | some lm =>
          obtain ⟨w, hw⟩ := h.lmFinal lm hm t.state.2 ((hl t (by simp)).2.2 (by rw [hm]; simp))
          simp only [hw, ok_bind]
          exact ⟨_, rfl⟩
    obtain ⟨x, hx⟩ := hc
    unfold bestLoop
    rw [hx, ok_bind]
    split
    · obtain ⟨r, h1, h2⟩ := bestLoop_ok h (eos := eos) (l := l) (b := some t) (c := x) (fun u hu => hl u (by simp [hu]))
      refine ⟨r, h1, fun u hu => ?_⟩
      rcases h2 u hu with h3 | h3
      · exact .inl (by simp [h3])
      · cases h3; exact .inl (by simp)
    · obtain ⟨r, h1, h2⟩ := bestLoop_ok h (eos := eos) (l := l) (b := b) (c := c) (fun u hu => hl u (by simp [hu]))
      refine ⟨r, h1, fun u hu => ?_⟩
      rcases h2 u hu with h3 | h3
      · exact .inl (by simp [h3])
      · exact .inr h3

/-- The best path is found. -/
theorem bestPath_ok (h : Sturdy e P width N k) {d : Dec F} (hs : ∀ t ∈ d.toks, Place e P t.state)
    (hh : ∀ t ∈ d.toks, t.hist.length < 100000) : ∃ r, bestPath e d = .ok r := by
  obtain ⟨⟨b, c⟩, h1, h2⟩ := bestLoop_ok h (eos := d.eos) (b := none) (c := e.ar.inf) hs
  unfold bestPath
  rw [h1, ok_bind]
  cases b with
  | none => exact ⟨_, rfl⟩
  | some t =>
    have : t ∈ d.toks := by
      rcases h2 t rfl with h3 | h3
      · exact h3
      · cases h3
    simp only [decide_eq_true (hh t this), cassert_true, ok_bind]
    exact ⟨_, rfl⟩

/-! ## How long paths are -/

/-- Between two frames no more than `k` arcs are taken. -/
theorem path_length (h : ∀ s n, Silent e.g s n → n ≤ k) {s0 : State} {fs : List (List F)} {p : List (GArc F)} {s : State}
    {c : F} (hp : PathTo e s0 fs p s c) : ∃ j, p.length + (k - j) ≤ emitted p * (k + 1) + k ∧ j ≤ k ∧
      ∀ n, Silent e.g s.1 n → j + n ≤ k := by
  induction hp with
  | nil => exact ⟨0, by simp [emitted], by omega, fun n hn => by have := h _ n hn; omega⟩
  | @eps p s c a l m h1 h2 h3 h4 ih =>
    obtain ⟨j, i1, i2, i3⟩ := ih
    have := i3 1 (.cons h2 h3 .nil)
    refine ⟨j + 1, ?_, this, fun n hn => ?_⟩
    · rw [emitted_eps h3, List.length_append]
      simp only [List.length_cons, List.length_nil]
      omega
    · have := i3 (n + 1) (.cons h2 h3 hn)
      omega
  | @emit p s c v a l m f h1 h2 h3 h4 h5 h6 ih =>
    obtain ⟨j, i1, i2, i3⟩ := ih
    refine ⟨0, ?_, by omega, fun n hn => by have := h _ n hn; omega⟩
    rw [emitted_emit h3, List.length_append, Nat.succ_mul]
    simp only [List.length_cons, List.length_nil]
    omega

end Verif.Decoder
