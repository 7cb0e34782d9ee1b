import Verif.CerModel
import Verif.ChartokProps

/-!
# Property C122: what `compute-cer.sh` scores
-/

namespace Verif.Chartok

theorem dirOf_slash (d : Txt) {b : Txt} (h : '/' ∉ b) : dirOf (d ++ '/' :: b) = d := by
  unfold dirOf
  rw [List.reverse_append, List.reverse_cons, List.append_assoc, List.dropWhile_append_of_pos fun c hc => ?_]
  · simp
  · have : c ∈ b := List.mem_reverse.mp hc
    simp only [bne_iff_ne, ne_eq]
    rintro rfl
    exact h this

theorem charsFile_dir {d b : Txt} (h : '/' ∉ b) : dirOf (charsFile (d ++ '/' :: b)) = "/tmp/".toList ++ d := by
  have e : charsFile (d ++ '/' :: b) = ("/tmp/".toList ++ d) ++ '/' :: (b ++ ".chars.txt".toList) := by
    unfold charsFile
    simp only [List.append_assoc, List.cons_append]
  rw [e]
  refine dirOf_slash _ fun hc => ?_
  rcases List.mem_append.mp hc with hc | hc
  · exact h hc
  · exact absurd hc (by decide)

theorem charsFile_plain {b : Txt} (h : '/' ∉ b) : dirOf (charsFile b) = "/tmp".toList := by
  have e : charsFile b = "/tmp".toList ++ '/' :: (b ++ ".chars.txt".toList) := by
    unfold charsFile
    simp only [List.append_assoc]
    rfl
  rw [e]
  refine dirOf_slash _ fun hc => ?_
  rcases List.mem_append.mp hc with hc | hc
  · exact h hc
  · exact absurd hc (by decide)

/-- C122, full statement: if the file of hypotheses is there it is scored by its characters, wherever it is, and if it is not there
the script ends with a status that is not 0.  Both halves are false in general (`C122_directory`, `C122_missing`).  What holds: a
file of hypotheses in the current directory is scored by its characters: the text given to `compute-wer` has the
letters of the file, and cutting it again would change nothing. -/
theorem C122_scored_partial {d : Disk} (ht : d.dir "/tmp".toList = true) {hyp t : Txt} (hn : '/' ∉ hyp) (hc : d.content hyp = some t) :
    ∃ out, cer d hyp = .score out ∧ Spec.letters out = Spec.letters t ∧ conv out = out := by
  refine ⟨conv t, ?_, C94_letters t, C94_twice t⟩
  unfold cer convScript
  rw [charsFile_plain hn, if_pos ht, hc]
  rfl

/-- C122 fails for a file that is not there: nothing is noticed, and a file without utterances is scored. -/
theorem C122_missing {d : Disk} (ht : d.dir "/tmp".toList = true) {hyp : Txt} (hn : '/' ∉ hyp) (hc : d.content hyp = none) :
    cer d hyp = .score [] := by
  unfold cer convScript
  rw [charsFile_plain hn, if_pos ht, hc]
  rfl

/-- C122 fails for a file in a directory: whatever is in the file, the script ends with 22 exactly if there is no such directory
below `/tmp`. -/
theorem C122_directory {d : Disk} {dir base : Txt} (hb : '/' ∉ base) :
    cer d (dir ++ '/' :: base) = .exit 22 ↔ d.dir ("/tmp/".toList ++ dir) = false := by
  unfold cer convScript
  rw [charsFile_dir hb]
  by_cases h : d.dir ("/tmp/".toList ++ dir) = true
  · rw [if_pos h, h]
    simp
  · rw [if_neg h]
    simpa using h

/-! ## Examples -/

/-- A disk with two files and the directories `/tmp` and `exp`. -/
def demoDisk : Disk where
  content p := if p = "hyp".toList ∨ p = "exp/hyp".toList then some "u1 ab [x] c\n".toList else none
  dir p := decide (p = "/tmp".toList ∨ p = "exp".toList)

example : ∃ out, cer demoDisk "hyp".toList = .score out ∧ Spec.letters out = Spec.letters "u1 ab [x] c\n".toList ∧ conv out = out :=
  C122_scored_partial (by decide) (by decide) (by decide)

example : cer demoDisk "hyp".toList = .score "u1 a b [x] c\n".toList := by decide +kernel

example : cer demoDisk "hyb".toList = .score [] := C122_missing (by decide) (by decide) (by decide)

-- the file is there, but not the directory `/tmp/exp`
example : demoDisk.content "exp/hyp".toList ≠ none ∧ cer demoDisk "exp/hyp".toList = .exit 22 :=
  ⟨by decide, (C122_directory (dir := "exp".toList) (base := "hyp".toList) (by decide)).mpr (by decide)⟩

end Verif.Chartok
