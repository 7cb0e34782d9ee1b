import Verif.IeeeProps
import Verif.BeamMainProps

/-!
# C98, the program

A case that meets all hypotheses is in `IeeeMainExample.lean`.
-/

namespace Verif.Ieee

open Verif Verif.Text Verif.App.Spec Verif.Main Verif.Main.Spec Verif.Decoder Verif.Decoder.Beam Verif.Ieee.Spec

variable {G : Type}

/-- C98, the program.  Where `C68_program` applies and costs are those of IEEE 754, `rows` being the scores of the audio
file: the line the program writes is the words of a path which, without rounding, costs at most `2 * (n + 1) * B / 2 ^ 20`
more than any path that stays inside the beam less the margin, if there is one.  Missing: costs that are no numbers or
larger than `B`, paths of more than `n` arcs, frames with more than 30000 active tokens. -/
theorem C98_program_partial (mach : Machine G F32 F64) (har : mach.ar = machine) (w : App.World G) (conf bytes : Str)
    (defs : List (Str × Str)) (m : App.Spec.Model G) (hf : w.file conf = some bytes) (hc : IsConf bytes defs)
    (hi : Installed w conf defs m) (ho : m.Ok w) (vm : List F32 → List (List F32) → List F32) (e wd : Nat)
    (hfit : Fits mach m vm e wd) (input : Str) (hw : IsWav input) (file data : List UInt8) (b : Nat)
    (hfile : w.file input = some file) (ha : IsAudio file b data) :
    ∃ r, IsRec mach w m r ∧ ∀ (junk : Nat → Junk F32) (out : List Out), main mach w junk [conf, input] = ⟨out, .ok ()⟩ →
      ∃ rows, Scores r vm b data rows ∧ ∀ (s0 : State) (B width : Rat) (n : Nat), 16 ≤ B → B ≤ 2 ^ 100 → n ≤ 2 ^ 20 →
        width + (2 * n + 4) * (B / 2 ^ 20) ≤ 16 → StartState r.dec s0 → Few r.dec rows → Mild r.dec s0 rows true B n →
        (∃ p x, Stays r.dec s0 rows true B width p x) →
        ∃ q y ws, Total r.dec s0 rows true B q y ∧
          (∀ p x, Stays r.dec s0 rows true B width p x → y ≤ x + 2 * (n + 1) * (B / 2 ^ 20)) ∧
          ws.length = (wordsOf q).length ∧
          (∀ (i : Nat) id word, (wordsOf q)[i]? = some id → ws[i]? = some word → Spells m.symbols id word) ∧
          out = [.line (join [32] ws)] := by
  obtain ⟨r, hr, h⟩ := C68_program mach w conf bytes defs m hf hc hi ho vm e wd hfit input hw file data b hfile ha
  refine ⟨r, hr, fun junk out hmain => ?_⟩
  obtain ⟨ids, ws, ⟨feats, rows, d0, d, weight, g1, g2, g3, g4, g5, g6⟩, h2, h3, h4⟩ := h junk out hmain
  refine ⟨rows, ⟨feats, g1, g2, g3⟩, fun s0 B width n hB hT hn hwd hs hfew hm hp => ?_⟩
  obtain ⟨bs, cs, hrun⟩ := Stt.decodeRows_run (.init g4) g5
  rw [List.nil_append] at hrun
  obtain ⟨_, q, y, q1, q2, q3⟩ := C98_answer (hr.ar.trans har) hB hT hn hrun hs hfew hm (eos := true) g6 hwd hp
  rw [q2] at h3
  exact ⟨q, y, ws, q1, q3, by rw [h2, ← q2, List.length_reverse], h3, h4⟩

end Verif.Ieee
