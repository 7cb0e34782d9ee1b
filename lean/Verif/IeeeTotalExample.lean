import Verif.IeeeTotalProps
import Verif.IeeeEndExample

/-!
# C101 for scripts, and C102: examples

The model directory and the machine of `IeeeEndExample.lean`; the graph has two states.
-/

namespace Verif.Ieee.End

open Verif Verif.Text Verif.App.Spec Verif.Main Verif.Main.Spec Verif.Main.Ex Verif.Decoder Verif.Decoder.Beam
open Verif.Ieee.Spec Verif.Ieee.Ex

theorem env_compact (b : Bool) : Compact (env b) (· = 0) 2 1 where
  start := show (0 : Int) < 2 by decide
  next := fun s a ha => by rcases ring_arc ha with rfl | rfl | rfl <;> decide
  lm := fun s h => by subst h; decide
  pos := by decide

-- no more than two tokens, whatever the frames are
example {fs : List (List F32)} {bs : List Bool} {cs : List (Option (Cutoffs F32 F64))} {d : Dec F32}
    (hr : Run (env true) fs bs cs d) : d.toks.length ≤ 2 := C102_tokens (env_sturdy true 80 (by omega)) (env_compact true) hr

example (rows : List (List F32)) : Few (env true) rows ∧ Mdec.FewTokens (env true) rows :=
  ⟨C102_few (env_sturdy true 80 (by omega)) (env_compact true) (by decide) rows,
    C102_few_memory (env_sturdy true 80 (by omega)) (env_compact true) (by decide) rows⟩

theorem ring_words (s : Int) (a : GArc F32) (ha : a ∈ ring.arcs s) (h0 : a.olabel ≠ 0) :
    ∃ v, Spells model.symbols a.olabel v := by
  rcases ring_arc ha with rfl | rfl | rfl
  · exact ⟨[104, 105], .inl ⟨[(0, [45])], [(2, [60, 115, 62]), (3, [60, 47, 115, 62])], rfl, by decide⟩⟩
  · exact absurd rfl h0
  · exact absurd rfl h0

-- the script `s.scp`: two lines
example (junk : Nat → Junk F32) : ∃ t u, main pc world junk [[100, 47, 99], [115, 46, 115, 99, 112]] =
    ⟨[.line ([120] ++ [32] ++ t), .line ([121] ++ [32] ++ u)], .ok ()⟩ := by
  obtain ⟨r, hr, h⟩ := C101_script someLib_laws someNnLib_laws pc rfl fbOf_made rfl rfl world [100, 47, 99]
    (App.Ex.confOf defs) defs model conf_file conf_ok installed model_ok 80 80 pc_fits (a := 7) (d := 0)
    net_robust
    (fun x hx => by
      rw [List.eq_of_mem_replicate hx]
      exact ⟨0, none_is, by norm_num⟩) (by omega)
  rw [pc_env hr] at h
  obtain ⟨ts, h1, h2⟩ := h (· = 0) 2 1 1 _ (env_sturdy false 80 (by omega)) ring_lively (by norm_num) (env_modest false) tenth_is
    ring_words (by decide) [115, 46, 115, 99, 112]
    [⟨[120], [97, 46, 119, 97, 118], [10]⟩, ⟨[121], [101, 46, 119, 97, 118], [13, 10]⟩] (by decide) (by unfold IsWav; decide) rfl
    (fun x hx => by
      rcases List.mem_cons.1 hx with rfl | hx
      · exact ⟨⟨by decide, by decide, isWav_of [97] rfl, by decide, by decide, by decide, .inl rfl, by decide⟩,
          header 48 2 ++ List.replicate 560 3, List.replicate 560 3, 1, _, rfl, header_ok _ _ _, rfl,
          by rw [List.length_replicate]; decide, by rw [List.length_replicate]; norm_num [Fbank.Spec.numFrames]⟩
      · rw [List.mem_singleton.1 hx]
        exact ⟨⟨by decide, by decide, isWav_of [101] rfl, by decide, by decide, by decide, .inr rfl, by decide⟩,
          header 0 0, [], 1, _, rfl, by simpa using header_ok 0 0 [], rfl, by decide, by norm_num [Fbank.Spec.numFrames]⟩) junk
  obtain ⟨t, u, rfl⟩ := List.length_eq_two.1 h1
  exact ⟨t, u, h2⟩

-- `a.wav`, two frames
example (junk : Nat → Junk F32) : ∃ r rows t, Scores r someRow 1 (List.replicate 560 3) rows ∧
    main pc world junk [[100, 47, 99], [97, 46, 119, 97, 118]] = ⟨[.line t], .ok ()⟩ ∧
    ((∃ p x, Stays r.dec (0, 0) rows true 1000 15 p x) → ∃ p y ws, Total r.dec (0, 0) rows true 1000 p y ∧
      (∀ p' x, Stays r.dec (0, 0) rows true 1000 15 p' x → y ≤ x + 2 * (5 + 1) * (1000 / 2 ^ 20)) ∧
      ws.length = (wordsOf p).length ∧
      (∀ (i : Nat) id word, (wordsOf p)[i]? = some id → ws[i]? = some word → Spells model.symbols id word) ∧
      t = join [32] ws) := by
  obtain ⟨r, rows, hr, hsc, h⟩ := C102_program someLib_laws someNnLib_laws pc rfl fbOf_made rfl rfl world [100, 47, 99]
    (App.Ex.confOf defs) defs model conf_file conf_ok installed model_ok 80 80 pc_fits (a := 7) (d := 0)
    net_robust
    (fun x hx => by
      rw [List.eq_of_mem_replicate hx]
      exact ⟨0, none_is, by norm_num⟩) (by omega) [97, 46, 119, 97, 118] (header 48 2 ++ List.replicate 560 3)
    (List.replicate 560 3) 1 (isWav_of [97] rfl) rfl (header_ok _ _ _)
  have hlen : rows.length = 2 := by
    obtain ⟨feats, _, g2, _⟩ := hsc
    rw [g2]
    unfold Pcm.Spec.samples
    rw [List.length_map, List.length_map, List.length_range, List.length_replicate]
    decide
  have hd := pc_env hr
  refine ⟨r, rows, ?_⟩
  rw [hd] at h ⊢
  obtain ⟨t, h1, h2⟩ := h (0, 0) (· = 0) 2 1 2 1 1 _ 1000 5 ⟨rfl, .inl ⟨rfl, rfl⟩⟩ (env_sturdy false 80 (by omega)) ring_lively
    (by norm_num) (env_modest false) tenth_is ring_words (by decide) (env_compact false) (by decide) (by rw [hlen]) (by decide)
    (by norm_num) (by norm_num) (by norm_num) 15 (by norm_num) junk
  exact ⟨t, hsc, h1, h2⟩

theorem env_labels : Mdec.LmLabels (env true) := by
  intro lm h s l a ha
  rw [lm_flat h] at ha
  cases ha
  rfl

theorem env_numbers : Mdec.Small (env true) where
  start := show (0 : Int) ≤ 0 ∧ (0 : Int) < 67000000 by decide
  arcs := fun s a ha => by rcases ring_arc ha with rfl | rfl | rfl <;> (unfold Mdec.InRange; decide)
  lmStart := fun lm h s hs => by
    rw [lm_flat h] at hs
    cases hs
    unfold Mdec.InRange
    decide
  lmArcs := fun lm h s l a ha => by
    rw [lm_flat h] at ha
    cases ha
    exact show (0 : Int) ≤ 0 ∧ (0 : Int) < 67000000 by decide

-- twenty frames by the decoder with its memory
example : ∃ m bs cs, Mdec.MRun (env true) Mdec.NoStale (List.replicate 20 [one]) bs cs m ∧ bs.length = 20 ∧
    (∀ b ∈ bs, b = true) ∧ ∃ ws w, Mdec.bestPath (env true) { m with eos := true } = .ok (ws, w) := by
  have h := C102_memory rfl (env_sturdy true 1 (by omega)) ring_lively (W := 1) (S := 1) (by norm_num) (by norm_num)
    (env_modest true) (List.replicate 20 [one])
    ⟨_, tenth_is, fun f hf lp hlp => by
      rw [List.eq_of_mem_replicate hf] at hlp
      rw [List.mem_singleton.1 hlp]
      exact ⟨_, one_is, by norm_num [abs_le]⟩⟩
    (fun f hf => by rw [List.eq_of_mem_replicate hf]; rfl) (by rw [List.length_replicate]; omega)
    (by rw [List.length_replicate]; norm_num) (env_compact true) (by decide) env_labels env_numbers
  have h2 := h.1.resolve_left (h.2 (by rw [List.length_replicate]))
  rwa [List.length_replicate] at h2

end Verif.Ieee.End
