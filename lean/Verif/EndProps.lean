import Verif.BeamMainProps
import Verif.EndLemmas

/-!
# C101: what goes wrong with a graph that has dead ends
-/

namespace Verif.Main

open Verif Verif.Text Verif.App.Spec Verif.Main.Spec Verif.Decoder Verif.Decoder.Beam

variable {G F D : Type}

/-- C101, dead ends.  If no path through the graph consumes all the frames so far, the next frame is undefined behaviour: the
decoder takes the first of no tokens. -/
theorem C101_dead_end {e : Env F D} {s0 : State} (hs : StartState e s0) {fs : List (List F)} {bs : List Bool}
    {cs : List (Option (Cutoffs F D))} {d : Dec F} (hr : Run e fs bs cs d)
    (hno : ∀ p s c, PathTo e s0 fs p s c → emitted p < fs.length) (fuel : Nat) (f : List F) :
    process e fuel f d = .error .ub := by
  refine process_nil ?_
  cases ht : d.toks with
  | nil => rfl
  | cons t ts =>
    obtain ⟨p, h1, h2, _⟩ := hr.inv.paths s0 hs t (by rw [ht]; exact List.mem_cons_self)
    have := hno p _ _ h1
    omega

/-- C101, dead ends, the program.  If no path through the graph is as long as the audio, but for its last frame, the program
does not run to its end, whatever the arithmetic is. -/
theorem C101_needs_path (mach : Machine G F D) (w : App.World G) (conf bytes : Str) (defs : List (Str × Str))
    (m : App.Spec.Model G) (hf : w.file conf = some bytes) (hc : IsConf bytes defs) (hi : Installed w conf defs m)
    (ho : m.Ok w) (vm : List F → List (List F) → List F) (e wd : Nat) (hfit : Fits mach m vm e wd)
    (input : Str) (hw : IsWav input) (file data : List UInt8) (b : Nat) (hfile : w.file input = some file)
    (ha : IsAudio file b data) :
    ∃ r, IsRec mach w m r ∧ ∀ s0, StartState r.dec s0 → (∀ rows, Scores r vm b data rows → rows ≠ [] ∧
      ∀ p s c, PathTo r.dec s0 rows p s c → emitted p + 1 < rows.length) →
      ∀ (junk : Nat → Junk F) (out : List Out), main mach w junk [conf, input] ≠ ⟨out, .ok ()⟩ := by
  obtain ⟨r, hr, h⟩ := C68_program mach w conf bytes defs m hf hc hi ho vm e wd hfit input hw file data b hfile ha
  refine ⟨r, hr, fun s0 hs hno junk out hmain => ?_⟩
  obtain ⟨ids, ws, ⟨feats, rows, d0, d, weight, g1, g2, g3, g4, g5, g6⟩, _⟩ := h junk out hmain
  obtain ⟨hne, hno⟩ := hno rows ⟨feats, g1, g2, g3⟩
  obtain ⟨rows, f, rfl⟩ := (List.eq_nil_or_concat' rows).resolve_left hne
  rw [Stt.decodeRows_append] at g5
  obtain ⟨d1, g5, g7⟩ := bind_ok g5
  obtain ⟨bs, cs, hrun⟩ := Stt.decodeRows_run (.init g4) g5
  rw [List.nil_append] at hrun
  have := C101_dead_end hs hrun (fun p s c hp => by
    have h1 := hno p s c (PathTo.more hp (List.prefix_append _ _))
    rw [List.length_append] at h1
    have : [f].length = 1 := rfl
    omega) r.fuel f
  unfold Stt.decodeRows at g7
  rw [List.foldlM_cons, this] at g7
  cases g7

namespace Ex

/-- A graph of one arc, which consumes nothing. -/
def deadGraph : Graph Int := ⟨0, fun s => if s = 0 then [⟨0, 0, 1, 1⟩] else [], fun _ => 0⟩

/-- The machine of the examples with that graph. -/
def deadMach : Machine Unit Int Int := { mach with graph := fun _ => deadGraph }

theorem dead_emitted {e : Env Int Int} (he : e.g = deadGraph) {s0 : State} {fs : List (List Int)} {p : List (GArc Int)}
    {s : State} {c : Int} (h : PathTo e s0 fs p s c) : emitted p = 0 := by
  have h0 : ∀ s, ∀ a ∈ e.g.arcs s, a.ilabel = 0 := by
    intro s a ha
    rw [he] at ha
    by_cases hs : s = 0
    · subst hs
      rw [List.mem_singleton.1 (show a ∈ [(⟨0, 0, 1, 1⟩ : GArc Int)] from ha)]
    · rw [show deadGraph.arcs s = [] from if_neg hs] at ha
      cases ha
  induction h with
  | nil => rfl
  | eps _ h1 h2 _ ih =>
    unfold emitted at ih ⊢
    rw [List.filter_append, List.length_append, ih]
    simp [h2]
  | emit _ h1 h2 _ _ _ _ => exact absurd (h0 _ _ h1) h2

-- the two frames of `a.wav` are more than this graph has
example (jk : Nat → Junk Int) (out : List Out) :
    main deadMach world jk [[100, 47, 99], [97, 46, 119, 97, 118]] ≠ ⟨out, .ok ()⟩ := by
  obtain ⟨r, hr, h⟩ := C101_needs_path deadMach world [100, 47, 99] (App.Ex.confOf defs) defs model conf_file conf_ok
    installed model_ok Nnet.toyVecMat 80 80 ⟨fits.rows, fits.net, fits.prior, fits.chunk, fits.size, fits.big, fits.tables,
      fits.scratch⟩ [97, 46, 119, 97, 118] (isWav_of [97] rfl) (header 48 2 ++ List.replicate 560 3) (List.replicate 560 3) 1
    rfl (header_ok _ _ _)
  have hlm : r.dec.lm = none := hr.lm
  refine h (0, 0) ?_ (fun rows hrows => ?_) jk out
  · exact ⟨by rw [hr.graph]; rfl, .inl ⟨hlm, rfl⟩⟩
  · obtain ⟨_, _, h2, _⟩ := hrows
    have h2 : rows.length = 2 := h2.trans (by
      unfold Fbank.Spec.numFrames Pcm.Spec.samples
      rw [List.length_map, List.length_map, List.length_range, List.length_replicate]
      decide)
    refine ⟨(by rintro rfl; cases h2), fun p s c hp => ?_⟩
    rw [dead_emitted hr.graph hp]
    omega

end Ex

end Verif.Main
