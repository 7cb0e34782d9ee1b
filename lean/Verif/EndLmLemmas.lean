import Verif.EndLmSpec
import Verif.MainSpec

/-!
# Lemmas: a backoff model answers every question
-/

namespace Verif.Fst

open Verif Verif.Main.Spec

variable {W : Type} {t : Transducer W} {depth : Nat} {bos eos : Int}

theorem finalOf_some {s : Nat} (h : s < t.states.length) : ∃ w, finalOf t s = some w := by
  unfold finalOf
  rw [List.getElem?_eq_getElem h]
  exact ⟨_, rfl⟩

/-- A word is found, or there is nowhere else to look. -/
theorem Backoff.chain (h : Backoff t depth bos eos) (w : Int) : ∀ s, s < t.states.length →
    ∃ bs e, Chain t w s bs e ∧ bs.length < depth ∧ e < t.states.length ∧
      ((∃ a, firstArc t e w = some a) ∨ firstArc t e w = none ∧ firstArc t e 0 = none) := by
  obtain ⟨level, l1, l2⟩ := h.falls
  have key : ∀ n s, level s = n → s < t.states.length → ∃ bs e, Chain t w s bs e ∧ bs.length ≤ level s ∧
      e < t.states.length ∧ ((∃ a, firstArc t e w = some a) ∨ firstArc t e w = none ∧ firstArc t e 0 = none) := by
    intro n
    induction n using Nat.strongRecOn with
    | ind n ih =>
      intro s hn hs
      cases h1 : firstArc t s w with
      | some a => exact ⟨[], s, .here s, Nat.zero_le _, hs, .inl ⟨a, h1⟩⟩
      | none =>
        cases h2 : firstArc t s 0 with
        | none => exact ⟨[], s, .here s, Nat.zero_le _, hs, .inr ⟨h1, h2⟩⟩
        | some b =>
          obtain ⟨d, d1, d2⟩ := h.next _ _ _ h2
          have hlt := l2 s b d h2 d1
          obtain ⟨bs, e, k1, k2, k3, k4⟩ := ih (level d) (by omega) d rfl d2
          exact ⟨b :: bs, e, .step h1 h2 d1 k1, by rw [List.length_cons]; omega, k3, k4⟩
  intro s hs
  obtain ⟨bs, e, k1, k2, k3, k4⟩ := key _ s rfl hs
  exact ⟨bs, e, k1, by have := l1 s; omega, k3, k4⟩

/-- A final weight is found, or there is nowhere else to look. -/
theorem Backoff.fchain (h : Backoff t depth bos eos) (o : FloatOps W) : ∀ s, s < t.states.length →
    ∃ bs e w, FChain o t s bs e ∧ bs.length < depth ∧ finalOf t e = some w ∧
      (o.finite w = true ∨ firstArc t e 0 = none) := by
  obtain ⟨level, l1, l2⟩ := h.falls
  have key : ∀ n s, level s = n → s < t.states.length → ∃ bs e w, FChain o t s bs e ∧ bs.length ≤ level s ∧
      finalOf t e = some w ∧ (o.finite w = true ∨ firstArc t e 0 = none) := by
    intro n
    induction n using Nat.strongRecOn with
    | ind n ih =>
      intro s hn hs
      obtain ⟨w, hw⟩ := finalOf_some hs
      cases h1 : o.finite w with
      | true => exact ⟨[], s, w, .here s, Nat.zero_le _, hw, .inl h1⟩
      | false =>
        cases h2 : firstArc t s 0 with
        | none => exact ⟨[], s, w, .here s, Nat.zero_le _, hw, .inr h2⟩
        | some b =>
          obtain ⟨d, d1, d2⟩ := h.next _ _ _ h2
          have hlt := l2 s b d h2 d1
          obtain ⟨bs, e, w', k1, k2, k3, k4⟩ := ih (level d) (by omega) d rfl d2
          exact ⟨b :: bs, e, w', .step hw h1 h2 d1 k1, by rw [List.length_cons]; omega, k3, k4⟩
  intro s hs
  obtain ⟨bs, e, w, k1, k2, k3, k4⟩ := key _ s rfl hs
  exact ⟨bs, e, w, k1, by have := l1 s; omega, k3, k4⟩

/-- The states of a model. -/
def IsState (t : Transducer W) (s : Int) : Prop := ∃ n : Nat, s = (n : Int) ∧ n < t.states.length

variable {o : FloatOps W} {small : List W} {lm : IFst W}

theorem Backoff.lmStart (h : Backoff t depth bos eos) (ha : Answers o small t bos eos depth lm) :
    ∃ s, lm.start = .ok s ∧ IsState t s := by
  obtain ⟨s, s1, s2⟩ := h.start
  obtain ⟨bs, e, k1, k2, k3, k4⟩ := h.chain bos s s2
  have ⟨a, hb⟩ : ∃ a, firstArc t e bos = some a := by
    rcases k4 with k4 | ⟨k4, k5⟩
    · exact k4
    · exact h.begins.2 e k3 k5
  obtain ⟨d, d1, d2⟩ := h.next _ _ _ hb
  exact ⟨a.next, ha.start h.begins.1 s e s1 bs k1 k2 a hb, d, d1, d2⟩

/-- What is answered when a word is asked for. -/
theorem Backoff.lmArc (h : Backoff t depth bos eos) (ha : Answers o small t bos eos depth lm) {s : Int} (hs : IsState t s)
    {w : Int} (hw : 0 < w) {x : W} (hx : small[w.toNat]? = some x) : lm.getArc s w = .ok none ∨
      ∃ (n e : Nat) (bs : List (Arc W)) (a : Arc W), s = (n : Int) ∧ Chain t w n bs e ∧ bs.length < depth ∧ firstArc t e w = some a ∧
        IsState t a.next ∧ lm.getArc s w = .ok (some { a with weight := o.sub (backedWeight o bs a.weight) x }) := by
  obtain ⟨n, rfl, hn⟩ := hs
  obtain ⟨bs, e, k1, k2, k3, k4⟩ := h.chain w n hn
  rcases k4 with ⟨a, k4⟩ | ⟨k4, k5⟩
  · exact .inr ⟨n, e, bs, a, rfl, k1, k2, k4, h.next _ _ _ k4, ha.arc w hw x hx n e bs k1 k2 a k4⟩
  · exact .inl (ha.noArc w hw x hx n e bs k1 k2 k3 k4 k5)

/-- What is answered when the end of the sentence is asked for. -/
theorem Backoff.lmFinal (h : Backoff t depth bos eos) (ha : Answers o small t bos eos depth lm) {s : Int} (hs : IsState t s)
    {x : W} (hx : small[eos.toNat]? = some x) : ∃ (n e d g : Nat) (bs fs : List (Arc W)) (a : Arc W) (w : W),
      s = (n : Int) ∧ Chain t eos n bs e ∧ bs.length < depth ∧ firstArc t e eos = some a ∧ FChain o t d fs g ∧
      fs.length < depth ∧ finalOf t g = some w ∧
      lm.final s = .ok (o.sub (o.add (backedFinal o fs (if o.finite w then w else o.inf)) (backedWeight o bs a.weight)) x) := by
  obtain ⟨n, rfl, hn⟩ := hs
  obtain ⟨bs, e, k1, k2, k3, k4⟩ := h.chain eos n hn
  have ⟨a, hb⟩ : ∃ a, firstArc t e eos = some a := by
    rcases k4 with k4 | ⟨k4, k5⟩
    · exact k4
    · exact h.ends.2 e k3 k5
  obtain ⟨d, d1, d2⟩ := h.next _ _ _ hb
  obtain ⟨fs, g, w, f1, f2, f3, f4⟩ := h.fchain o d d2
  exact ⟨n, e, d, g, bs, fs, a, w, rfl, k1, k2, hb, f1, f2, f3,
    ha.final h.ends.1 x hx n e d g bs fs k1 k2 a hb d1 f1 f2 w f3 f4⟩

/-- The arcs of a backoff chain are arcs of the model. -/
theorem Chain.arcs {w : Int} {s e : Nat} {bs : List (Arc W)} (h : Chain t w s bs e) : ∀ b ∈ bs, ∃ n, firstArc t n 0 = some b := by
  induction h with
  | here => exact fun b hb => by cases hb
  | step _ h1 _ _ ih =>
    intro b hb
    rcases List.mem_cons.1 hb with rfl | hb
    · exact ⟨_, h1⟩
    · exact ih b hb

theorem FChain.arcs {s e : Nat} {bs : List (Arc W)} (h : FChain o t s bs e) : ∀ b ∈ bs, ∃ n, firstArc t n 0 = some b := by
  induction h with
  | here => exact fun b hb => by cases hb
  | step _ _ h1 _ _ ih =>
    intro b hb
    rcases List.mem_cons.1 hb with rfl | hb
    · exact ⟨_, h1⟩
    · exact ih b hb

end Verif.Fst
