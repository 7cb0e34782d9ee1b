import Verif.TotalSpec
import Verif.EndLemmas
import Verif.DecoderProps
import Verif.MdecSpec
import Verif.BeamSpec

/-!
# C102: models with few states

There is one token for a state of the graph and one of the language model, so that with few states there are few tokens.
This is in any arithmetic.
-/

namespace Verif.Decoder

open Verif Verif.Fst

variable {F D : Type} {e : Env F D} {P : Int → Prop} {width N k K M : Nat}

theorem small_place (h : Sturdy e P width N k) (hs : Compact e P K M) {s0 : State} (h0 : StartState e s0) {fs : List (List F)}
    {p : List (GArc F)} {s : State} {c : F} (hp : PathTo e s0 fs p s c) :
    (0 ≤ s.1 ∧ s.1 < K) ∧ (0 ≤ s.2 ∧ s.2 < M) ∧ (e.lm ≠ none → P s.2) := by
  have hM := hs.pos
  have move : ∀ {s : State} {g : Int} {a : GArc F} {l : Int} {m : D → D}, a ∈ e.g.arcs g → LmMove e s.2 a.olabel l m →
      ((0 ≤ s.1 ∧ s.1 < K) ∧ (0 ≤ s.2 ∧ s.2 < M) ∧ (e.lm ≠ none → P s.2)) →
      (0 ≤ a.next ∧ a.next < K) ∧ (0 ≤ l ∧ l < M) ∧ (e.lm ≠ none → P l) := by
    intro s g a l m ha hm ih
    refine ⟨⟨(h.next _ _ ha).1, hs.next _ _ ha⟩, ?_⟩
    generalize hl : a.olabel = x at hm
    cases hm with
    | off _ => exact ih.2
    | silent _ => exact ih.2
    | unknown _ _ _ => exact ih.2
    | word h1 h2 h3 =>
      obtain ⟨r, r1, r2⟩ := h.lmArc _ h1 s.2 (ih.2.2 (by rw [h1]; simp)) g a ha (by rw [hl]; exact h2)
      rw [hl, h3] at r1
      have hP := r2 _ (Except.ok.inj r1).symm
      exact ⟨⟨(h.lmState _ hP).1, hs.lm _ hP⟩, fun _ => hP⟩
  induction hp with
  | nil =>
    obtain ⟨h1, h2⟩ := h0
    rw [h1]
    refine ⟨⟨h.start.1, hs.start⟩, ?_⟩
    rcases h2 with ⟨h2, h3⟩ | ⟨lm, h2, h3⟩
    · rw [h3]
      exact ⟨⟨Int.le_refl 0, by omega⟩, fun h => absurd h2 h⟩
    · obtain ⟨s, s1, s2⟩ := h.lmStart lm h2
      obtain rfl : s = s0.2 := Except.ok.inj (s1.symm.trans h3)
      exact ⟨⟨(h.lmState _ s2).1, hs.lm _ s2⟩, fun _ => s2⟩
  | eps _ ha _ hm ih => exact move ha hm ih
  | emit _ ha _ _ _ hm ih => exact move ha hm ih

/-- C102, the number of tokens: after any frames there are no more of them than pairs of a state of the graph and one of the
language model. -/
theorem C102_tokens (h : Sturdy e P width N k) (hs : Compact e P K M) {fs : List (List F)} {bs : List Bool}
    {cs : List (Option (Cutoffs F D))} {d : Dec F} (hr : Run e fs bs cs d) : d.toks.length ≤ K * M := by
  obtain ⟨s0, h0, _⟩ := h.startState
  have hn := (C17_one_token_per_state hr).1
  have hsub : (d.toks.map (·.state)).toFinset ⊆ Finset.Ico (0 : Int) K ×ˢ Finset.Ico (0 : Int) M := by
    intro s hs'
    rw [List.mem_toFinset, List.mem_map] at hs'
    obtain ⟨t, ht, he⟩ := hs'
    obtain ⟨p, hp, _⟩ := C18_tokens_are_paths hr h0 ht
    have := small_place h hs h0 hp
    rw [he] at this
    rw [Finset.mem_product, Finset.mem_Ico, Finset.mem_Ico]
    exact ⟨this.1, this.2.1⟩
  have := Finset.card_le_card hsub
  rw [List.toFinset_card_of_nodup hn, List.length_map, Finset.card_product, Int.card_Ico, Int.card_Ico] at this
  simpa using this

/-- C102: with up to 30000 pairs of states, C95 and C98 apply to all recordings. -/
theorem C102_few (h : Sturdy e P width N k) (hs : Compact e P K M) (hK : K * M ≤ 30000) (rows : List (List F)) :
    Beam.Few e rows := fun _ _ _ _ _ hr => (C102_tokens h hs hr).trans hK

/-- C102: with up to 46338, so does C71, on the decoder with its memory. -/
theorem C102_few_memory (h : Sturdy e P width N k) (hs : Compact e P K M) (hK : K * M ≤ 46338) (rows : List (List F)) :
    Mdec.FewTokens e rows := fun _ _ _ _ hr => (C102_tokens h hs hr).trans hK

end Verif.Decoder
