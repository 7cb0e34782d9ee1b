import Verif.DecoderProps
import Verif.LmProps

/-!
# The decoder with a language model made by the converter: C23
-/

namespace Verif.Decoder

open Verif Verif.Fst

variable {F D : Type}

/-- Every arc of the language model, and its start, leads to a state of it. -/
structure LmClosed (t : Transducer F) : Prop where
  start : ∃ n : Nat, t.start = n ∧ n < t.states.length
  next : ∀ x ∈ t.states, ∀ a ∈ x.2, ∃ n : Nat, a.next = n ∧ n < t.states.length

/-- A number of a state. -/
def IsState (t : Transducer F) (s : Int) : Prop := ∃ n : Nat, s = n ∧ n < t.states.length

theorem LmClosed.first {t : Transducer F} (h : LmClosed t) {s : Nat} {l : Int} {a : Arc F} (ha : firstArc t s l = some a) :
    IsState t a.next := by
  unfold firstArc at ha
  split at ha
  · rename_i x as hx
    exact h.next _ (List.mem_of_getElem? hx) a (List.mem_of_find?_eq_some ha)
  · cases ha

/-- A look-up from a state of the model has no undefined behaviour and leads to a state of the model. -/
theorem lmGetArc_closed {o : FloatOps F} {t : Transducer F} (h : IsLm t) (hc : LmClosed t) {l : Int} (hl : l ≠ 0) :
    ∀ (fuel : Nat) (s : Int), IsState t s → NoUb (lmGetArc o (fstOf t) [] fuel s l) ∧
      ∀ b, lmGetArc o (fstOf t) [] fuel s l = .ok (some b) → IsState t b.next
  | 0, s, _ => ⟨by unfold lmGetArc; simp [NoUb], by unfold lmGetArc; simp⟩
  | fuel + 1, s, ⟨n, hn, hlt⟩ => by
    subst hn
    rw [lmGetArc_step h hlt hl]
    cases h1 : firstArc t n l with
    | some a =>
      refine ⟨.ok _, fun b hb => ?_⟩
      cases hb
      exact hc.first h1
    | none =>
      simp only
      cases h2 : firstArc t n 0 with
      | none => exact ⟨.ok _, fun b hb => by cases hb⟩
      | some c =>
        simp only
        obtain ⟨k1, k2⟩ := lmGetArc_closed h hc hl fuel c.next (hc.first h2)
        refine ⟨k1.bind fun _ _ => .ok _, fun b hb => ?_⟩
        obtain ⟨r, h3, h4⟩ := bind_ok hb
        cases r with
        | none => cases h4
        | some a =>
          cases h4
          exact k2 a h3

theorem small_noUb (v : List F) {i : Int} (h0 : 0 ≤ i) : NoUb (small v i) := vget_noUb v h0

/-- C23, the language model.  A language model made by the converter from a model whose arcs lead to states of the model,
combined with the costs of the small one, meets what `C23_live_beam_safe_partial` asks for, whatever the weights and
the costs are, if the graph and the transition map have no negative numbers in them.  Backoff arcs may form cycles (then
a look-up may not end, C13), and words may be missing in the model. -/
theorem C23_converted_model_tame (o : FloatOps F) {t : Transducer F} (h : IsLm t) (hu : UnigramState t) (hc : LmClosed t)
    (smallLm : List F) (bos eos : Int) (ar : Arith F D) (g : Graph F)
    (hg : ∀ s, ∀ a ∈ g.arcs s, 0 ≤ a.ilabel ∧ 0 ≤ a.olabel) {pdf : List Int} (hp : ∀ p ∈ pdf, 0 ≤ p) (scale : F) :
    ∃ f b, convert t = .ok f ∧ initBucket0 f = .ok b ∧ ∀ fuel,
      Tame ⟨ar, g, some (delta o smallLm (lmFst o f b fuel) bos eos), pdf, scale⟩ (IsState t) := by
  obtain ⟨f, b, h1, h2, h3⟩ := C14_unigram_table_transparent o t h hu
  have hf : f = fstOf t := by
    rw [convert_layout] at h1
    cases h1; rfl
  subst hf
  refine ⟨_, b, h1, h2, fun fuel => ⟨fun s a ha => (hg s a ha).1, hp, ?_, ?_⟩⟩
  · intro lm s hlm hs
    cases hlm
    obtain ⟨r, h4, h5⟩ := bind_ok (x := lmGetArc o (fstOf t) b fuel (fstOf t).start bos) hs
    rw [h3] at h4
    have hst : IsState t (fstOf t).start := hc.start
    have hb : bos ≠ 0 := by
      intro h0
      subst h0
      cases fuel with
      | zero => unfold lmGetArc at h4; cases h4
      | succ n => unfold lmGetArc at h4; cases h4
    cases r with
    | none => cases h5; exact hst
    | some a => cases h5; exact (lmGetArc_closed h hc hb fuel _ hst).2 a h4
  · intro lm hlm s hs gs a ha hl
    cases hlm
    obtain ⟨k1, k2⟩ := lmGetArc_closed (o := o) h hc hl fuel s hs
    simp only [delta, lmFst]
    rw [h3]
    refine ⟨k1.bind fun r _ => ?_, fun c hb => ?_⟩
    · cases r with
      | none => exact .ok _
      | some x => exact (small_noUb _ (hg gs a ha).2).bind fun _ _ => .ok _
    · obtain ⟨r, h4, h5⟩ := bind_ok hb
      cases r with
      | none => cases h5
      | some x =>
        obtain ⟨u, _, h6⟩ := bind_ok h5
        cases h6
        exact k2 x h4

/-- Weights for the example. -/
def qops : FloatOps Q := ⟨qadd, qsub, Option.isSome, none⟩

/-- A language model with the words 7, 8 and 9 and a backoff arc. -/
def closedLm : Transducer Q :=
  ⟨1, [(some 5, [⟨1, 8, 8, some 2⟩, ⟨0, 7, 7, some 1⟩]), (none, [⟨0, 0, 0, some 3⟩, ⟨1, 9, 9, some 1⟩])]⟩

/-- The hypotheses hold for the graph of the examples. -/
example : IsLm closedLm ∧ UnigramState closedLm ∧ LmClosed closedLm ∧
    (∀ s, ∀ a ∈ demoGraph.arcs s, 0 ≤ a.ilabel ∧ 0 ≤ a.olabel) ∧ ∀ p ∈ demo.pdf, 0 ≤ p := by
  refine ⟨⟨by decide, by decide⟩, ⟨by decide, ?_, ?_⟩, ⟨⟨1, rfl, by decide⟩, ?_⟩, fun s => ?_, by decide⟩
  · intro x as h
    simp only [closedLm, List.getElem?_cons_zero, Option.some.injEq, Prod.mk.injEq] at h
    rw [← h.2]; decide
  · intro x as h
    simp only [closedLm, List.getElem?_cons_zero, Option.some.injEq, Prod.mk.injEq] at h
    rw [← h.2]; decide
  · intro x hx a ha
    simp only [closedLm, List.mem_cons, List.not_mem_nil, or_false] at hx
    rcases hx with rfl | rfl <;>
      (simp only [List.mem_cons, List.not_mem_nil, or_false] at ha; rcases ha with rfl | rfl)
    · exact ⟨1, rfl, by decide⟩
    · exact ⟨0, rfl, by decide⟩
    · exact ⟨0, rfl, by decide⟩
    · exact ⟨1, rfl, by decide⟩
  · unfold demoGraph
    simp only
    split
    · decide
    · split
      · decide
      · split
        · decide
        · simp

end Verif.Decoder
