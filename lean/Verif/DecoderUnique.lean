import Verif.DecoderSpec
import Verif.DecoderLemmas

/-!
# A use of the decoder has one outcome

The bound on the number of epsilon steps in the model does not matter: whatever bounds two runs over the same frames
were computed with, they end in the same state.
-/

namespace Verif.Decoder

open Verif Verif.Fst

variable {F D : Type}

theorem nonemitLoop_unique {e : Env F D} {cutoff : D} : ∀ (n1 n2 : Nat) {d d1 d2 : Dec F} {stack : List State},
    nonemitLoop e cutoff n1 d stack = .ok d1 → nonemitLoop e cutoff n2 d stack = .ok d2 → d1 = d2
  | n1, n2, d, d1, d2, [], h1, h2 => by
    unfold nonemitLoop at h1 h2
    cases h1
    cases h2
    rfl
  | 0, _, d, d1, d2, _ :: _, h1, _ => by
    unfold nonemitLoop at h1
    cases h1
  | n1 + 1, 0, d, d1, d2, _ :: _, _, h2 => by
    unfold nonemitLoop at h2
    cases h2
  | n1 + 1, n2 + 1, d, d1, d2, st :: stack, h1, h2 => by
    unfold nonemitLoop at h1 h2
    split at h1
    · cases h1
    · rename_i i hi
      rw [hi] at h2
      simp only at h2
      obtain ⟨x, g1, h1⟩ := bind_ok h1
      obtain ⟨y, g2, h2⟩ := bind_ok h2
      rw [g1] at g2
      cases g2
      exact nonemitLoop_unique n1 n2 h1 h2

theorem processNonemitting_unique {e : Env F D} {cutoff : D} {n1 n2 : Nat} {d d1 d2 : Dec F}
    (h1 : processNonemitting e cutoff n1 d = .ok d1) (h2 : processNonemitting e cutoff n2 d = .ok d2) : d1 = d2 := by
  unfold processNonemitting at h1 h2
  obtain ⟨_, _, h1⟩ := bind_ok h1
  obtain ⟨_, _, h2⟩ := bind_ok h2
  exact nonemitLoop_unique _ _ h1 h2

theorem process_unique {e : Env F D} {f : List F} {n1 n2 : Nat} {d : Dec F} {r1 r2 : Bool × Option (Cutoffs F D) × Dec F}
    (h1 : process e n1 f d = .ok r1) (h2 : process e n2 f d = .ok r2) : r1 = r2 := by
  unfold process at h1 h2
  obtain ⟨⟨c, d'⟩, g1, h1⟩ := bind_ok h1
  obtain ⟨y, g2, h2⟩ := bind_ok h2
  rw [g1] at g2
  cases g2
  cases c with
  | none => cases h1; cases h2; rfl
  | some c =>
    simp only at h1 h2
    split at h1
    · rename_i hf
      rw [if_pos hf] at h2
      cases h1; cases h2; rfl
    · rename_i hf
      rw [if_neg hf] at h2
      obtain ⟨x, k1, h1⟩ := bind_ok h1
      obtain ⟨y, k2, h2⟩ := bind_ok h2
      cases processNonemitting_unique k1 k2
      rw [h1] at h2
      cases h2
      rfl

theorem initDecoder_unique {e : Env F D} {n1 n2 : Nat} {d d1 d2 : Dec F} (h1 : initDecoder e n1 d = .ok d1)
    (h2 : initDecoder e n2 d = .ok d2) : d1 = d2 := by
  unfold initDecoder at h1 h2
  obtain ⟨_, _, h1⟩ := bind_ok h1
  obtain ⟨_, _, h2⟩ := bind_ok h2
  obtain ⟨l1, g1, h1⟩ := bind_ok h1
  obtain ⟨l2, g2, h2⟩ := bind_ok h2
  rw [g1] at g2
  cases g2
  obtain ⟨x, k1, h1⟩ := bind_ok h1
  obtain ⟨y, k2, h2⟩ := bind_ok h2
  rw [k1] at k2
  cases k2
  exact processNonemitting_unique h1 h2

/-- Two runs over the same frames are the same. -/
theorem run_unique {e : Env F D} {fs : List (List F)} {bs : List Bool} {cs : List (Option (Cutoffs F D))} {d : Dec F}
    (h : Run e fs bs cs d) : ∀ {bs' cs' d'}, Run e fs bs' cs' d' → bs' = bs ∧ cs' = cs ∧ d' = d := by
  induction h with
  | init h1 =>
    intro bs' cs' d' h'
    generalize hfs : ([] : List (List F)) = fs at h'
    cases h' with
    | init h2 => exact ⟨rfl, rfl, initDecoder_unique h2 h1⟩
    | frame _ _ => simp at hfs
  | @frame fs bs cs d d' fuel f b c hr hp ih =>
    intro bs' cs' d'' h'
    generalize hfs : fs ++ [f] = gs at h'
    cases h' with
    | init h2 => simp at hfs
    | frame hr' hp' =>
      obtain ⟨rfl, h2⟩ := List.append_inj' hfs rfl
      obtain rfl := (List.cons.inj h2).1
      obtain ⟨rfl, rfl, rfl⟩ := ih hr'
      have := process_unique hp' hp
      cases this
      exact ⟨rfl, rfl, rfl⟩

end Verif.Decoder
