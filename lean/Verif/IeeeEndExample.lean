import Verif.IeeeEndProps
import Verif.IeeeMainExample

/-!
# C101: examples

The small model directory of C68, the arithmetic of IEEE 754, the C library of C99 and C100, and a graph with a loop.
-/

namespace Verif.Ieee.End

open Verif Verif.Text Verif.App.Spec Verif.Main Verif.Main.Spec Verif.Main.Ex Verif.Decoder Verif.Decoder.Beam
open Verif.Ieee.Spec Verif.Ieee.Ex

/-- The word 1, at least one frame long, any number of times. -/
def ring : Graph F32 where
  start := 0
  arcs s := if s = 0 then [⟨1, 1, tenth, 1⟩] else [⟨1, 0, tenth, 1⟩, ⟨0, 0, one, 0⟩]
  final s := if s = 1 then none' else .inf false

/-- A language model of one state. -/
def flat : Fst.IFst F32 where
  start := .ok 0
  final _ := .ok none'
  getArc _ l := .ok (some ⟨0, l, l, one⟩)

/-- A decoder with that graph, with or without the language model. -/
def env (b : Bool) : Env F32 F64 := ⟨machine, ring, if b then some flat else none, [0, 0], tenth⟩

theorem ring_zero : ring.arcs 0 = [⟨1, 1, tenth, 1⟩] := rfl

theorem ring_other {s : Int} (h : s ≠ 0) : ring.arcs s = [⟨1, 0, tenth, 1⟩, ⟨0, 0, one, 0⟩] := if_neg h

theorem silent_ring {s : Int} {n : Nat} (h : Silent ring s n) : n ≤ 1 ∧ (s = 0 → n = 0) := by
  induction h with
  | nil => exact ⟨by omega, fun _ => rfl⟩
  | @cons s a n ha h0 h ih =>
    by_cases hs : s = 0
    · rw [hs, ring_zero] at ha
      rw [List.mem_singleton.1 ha] at h0
      cases h0
    · rw [ring_other hs] at ha
      refine ⟨?_, fun h => absurd h hs⟩
      rcases List.mem_cons.1 ha with rfl | ha
      · cases h0
      · rw [List.mem_singleton.1 ha] at ih
        have := ih.2 rfl
        omega

theorem ring_arc {s : Int} {a : GArc F32} (h : a ∈ ring.arcs s) :
    a = ⟨1, 1, tenth, 1⟩ ∨ a = ⟨1, 0, tenth, 1⟩ ∨ a = ⟨0, 0, one, 0⟩ := by
  by_cases hs : s = 0
  · rw [hs, ring_zero] at h
    exact .inl (List.mem_singleton.1 h)
  · rw [ring_other hs] at h
    rcases List.mem_cons.1 h with rfl | h
    · exact .inr (.inl rfl)
    · exact .inr (.inr (List.mem_singleton.1 h))

theorem ring_lively : Lively ring where
  start := ⟨_, List.mem_cons_self, by decide⟩
  next := fun s a ha => by
    rcases ring_arc ha with rfl | rfl | rfl
    · exact ⟨⟨1, 0, tenth, 1⟩, List.mem_cons_self, by decide⟩
    · exact ⟨⟨1, 0, tenth, 1⟩, List.mem_cons_self, by decide⟩
    · exact ⟨⟨1, 1, tenth, 1⟩, List.mem_cons_self, by decide⟩

theorem lm_flat {b : Bool} {lm : Fst.IFst F32} (h : (env b).lm = some lm) : lm = flat := by
  cases b
  · cases h
  · cases h; rfl

theorem env_sturdy (b : Bool) (n : Nat) (hn : 0 < n) : Sturdy (env b) (· = 0) n 2 1 where
  start := ⟨le_rfl, show (0 : Int) < 2 ^ 31 by decide⟩
  next := fun s a ha => by rcases ring_arc ha with rfl | rfl | rfl <;> decide
  branch := fun s => by
    show (if s = 0 then [(⟨1, 1, tenth, 1⟩ : GArc F32)] else [⟨1, 0, tenth, 1⟩, ⟨0, 0, one, 0⟩]).length ≤ 2
    split <;> simp
  silent := fun s m h => (silent_ring h).1
  score := fun s a ha h0 => by
    rcases ring_arc ha with rfl | rfl | rfl
    · exact ⟨1, 0, rfl, rfl, hn⟩
    · exact ⟨1, 0, rfl, rfl, hn⟩
    · exact absurd rfl h0
  lmState := fun s h => by subst h; decide
  lmStart := fun lm h => by rw [lm_flat h]; exact ⟨0, rfl, rfl⟩
  lmArc := fun lm h s hs g a ha h0 => by
    rw [lm_flat h]
    exact ⟨_, rfl, fun c hc => by cases hc; rfl⟩
  lmFinal := fun lm h s hs => by rw [lm_flat h]; exact ⟨_, rfl⟩

theorem env_modest (b : Bool) : Modest (env b) (· = 0) 1 where
  arc := fun s a ha => by
    rcases ring_arc ha with rfl | rfl | rfl
    · exact ⟨_, tenth_is, by norm_num [abs_le]⟩
    · exact ⟨_, tenth_is, by norm_num [abs_le]⟩
    · exact ⟨_, one_is, by norm_num⟩
  final := fun s => by
    show (if s = 1 then none' else .inf false) = _ ∨ ∃ w, Is (if s = 1 then none' else .inf false) w ∧ _
    split
    · exact .inr ⟨0, none_is, by norm_num⟩
    · exact .inl rfl
  lmArc := fun lm h s hs g b hb h0 a ha => by
    rw [lm_flat h] at ha
    cases ha
    exact ⟨_, one_is, by norm_num⟩
  lmFinal := fun lm h s hs u hu => by
    rw [lm_flat h] at hu
    cases hu
    exact .inr ⟨0, none_is, by norm_num⟩

-- a thousand frames whose score is one
example : ∃ d0 d bs, initDecoder (env true) (2 ^ 62 * 3) fresh = .ok d0 ∧
    (List.replicate 1000 [one]).foldlM (fun (x : Dec F32 × List Bool) f => (do
      let (b, _, d) ← process (env true) (2 ^ 62 * 3) f x.1
      .ok (d, x.2 ++ [b]) : Exec (Dec F32 × List Bool))) (d0, []) = .ok (d, bs) ∧
    bs.length = (List.replicate 1000 [one]).length ∧ (∀ b ∈ bs, b = true) ∧
    ∃ ws w, bestPath (env true) (endOfStream d) = .ok (ws, w) :=
  C101_decoder rfl (env_sturdy true 1 (by omega)) ring_lively (W := 1) (S := 1) (by norm_num) (by norm_num) (env_modest true)
    (List.replicate 1000 [one])
    ⟨_, tenth_is, fun f hf lp hlp => by
      rw [List.eq_of_mem_replicate hf] at hlp
      rw [List.mem_singleton.1 hlp]
      exact ⟨_, one_is, by norm_num [abs_le]⟩⟩
    (fun f hf => by rw [List.eq_of_mem_replicate hf]; rfl) (by rw [List.length_replicate]; omega)
    (by rw [List.length_replicate]; norm_num) (by norm_num)

/-- The feature extraction. -/
noncomputable def fbOf : Fbank.Ops F32 := (C99_constructed someLib_laws).choose

theorem fbOf_made : Fbank.make (fbank someLib) = .ok fbOf := (C99_constructed someLib_laws).choose_spec

/-- The machine. -/
noncomputable def pc : Machine Unit F32 F64 where
  graph _ := ring
  word o := fit _ (o.getD 0 : Nat)
  conv n := fit _ n
  fb := fbOf
  nn := nnet someNnLib
  ar := machine
  lm := ⟨add, sub, isNum, .inf false⟩
  amScale := tenth
  perFrame x n := div x (ofNat n)
  zero := none'
  fuel := 2 ^ 62 * 3
  lmFuel := 10

theorem pc_fits : Fits pc model someRow 80 80 where
  rows := someNnLib_laws.rows
  net := net_built
  prior := List.length_replicate
  chunk := by decide
  size := by decide
  big := by decide
  tables := (Fbank.make_ok fbOf_made).1
  scratch := (Fbank.make_ok fbOf_made).2

theorem net_robust : Robust net 7 7 :=
  .cons .splice (by omega) (by simp) (by simp) (.cons .narrow (by omega) (by simp) (by simp)
    (.cons .relu (by omega) (by simp) (by simp) .nil))

theorem pc_env {r : Stt.Rec F32 F64} (hr : IsRec pc world model r) : r.dec = env false := by
  have h1 := hr.ar
  have h2 := hr.graph
  have h3 := hr.pdf
  have h4 := hr.amScale
  have h5 := hr.lm
  generalize r.dec = e at *
  cases e
  simp only at h1 h2 h3 h4 h5
  subst h1 h2 h3 h4
  rw [show model.lm = none from rfl] at h5
  simp only at h5
  subst h5
  rfl

-- the program writes a line for `a.wav`
example (junk : Nat → Junk F32) :
    ∃ t, main pc world junk [[100, 47, 99], [97, 46, 119, 97, 118]] = ⟨[.line t], .ok ()⟩ := by
  obtain ⟨r, hr, h⟩ := C101_program someLib_laws someNnLib_laws pc rfl fbOf_made rfl rfl world [100, 47, 99]
    (App.Ex.confOf defs) defs model conf_file conf_ok installed model_ok 80 80 pc_fits (a := 7) (d := 0)
    net_robust
    (fun x hx => by
      rw [List.eq_of_mem_replicate hx]
      exact ⟨0, none_is, by norm_num⟩) (by omega)
  rw [pc_env hr] at h
  obtain ⟨t, _, ht⟩ := h (· = 0) 2 1 1 _ (env_sturdy false 80 (by omega)) ring_lively (by norm_num) (env_modest false) tenth_is
    (fun s a ha h0 => by
      rcases ring_arc ha with rfl | rfl | rfl
      · exact ⟨[104, 105], .inl ⟨[(0, [45])], [(2, [60, 115, 62]), (3, [60, 47, 115, 62])], rfl, by decide⟩⟩
      · exact absurd rfl h0
      · exact absurd rfl h0)
    (by decide) [97, 46, 119, 97, 118] (header 48 2 ++ List.replicate 560 3) (List.replicate 560 3) 1 _ (isWav_of [97] rfl)
    rfl (header_ok _ _ _) rfl (by rw [List.length_replicate]; decide) (by rw [List.length_replicate]; norm_num [Fbank.Spec.numFrames]) junk
  exact ⟨t, ht⟩

end Verif.Ieee.End
