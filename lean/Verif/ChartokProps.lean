import Verif.ChartokLemmas

/-!
# C94: cutting hypotheses into characters
-/

namespace Verif.Chartok

open Verif.Chartok.Spec

theorem outLines : ∀ ls : List Txt, OutLines ls (ls.map lineOut)
  | [] => .nil
  | l :: ls => .cons (outLine l) (outLines ls)

theorem outLines_eq {ls os : List Txt} (h : OutLines ls os) : ls.map lineOut = os := by
  induction h with
  | nil => rfl
  | cons h _ ih => rw [List.map_cons, lineOut_eq h, ih]

/-- C94, the output.  The script writes, for every line of the file, the name and then the pieces of the words: a word with
brackets or `!SIL` as it is, the others character by character, each behind one space.  Exactly this and nothing else. -/
theorem C94_output {ls : List Txt} (h : ∀ l ∈ ls, '\n' ∉ l) (out : Txt) :
    conv (text ls) = out ↔ ∃ os, OutLines ls os ∧ out = os.flatten := by
  unfold conv
  rw [lines_text h]
  constructor
  · rintro rfl
    exact ⟨_, outLines ls, rfl⟩
  · rintro ⟨os, ho, rfl⟩
    rw [outLines_eq ho]

theorem text_append (a b : List Txt) : text (a ++ b) = text a ++ text b := by
  unfold text
  rw [List.map_append, List.flatten_append]

theorem linesFrom_text_append : ∀ (ls : List Txt) (r : Txt), (∀ l ∈ ls, '\n' ∉ l) → lines (text ls ++ r) = ls ++ lines r
  | [], _, _ => rfl
  | l :: ls, r, h => by
    have := linesFrom_text_append ls r fun k hk => h k (List.mem_cons_of_mem _ hk)
    unfold lines text at this ⊢
    rw [List.map_cons, List.flatten_cons, List.append_assoc, List.append_assoc, List.singleton_append,
      linesFrom_line l [] _ (h l (List.mem_cons_self ..)), this]
    rfl

/-- C94, a last line without an end counts as a line, whatever is before it. -/
theorem C94_last_line {ls : List Txt} (h : ∀ l ∈ ls, '\n' ∉ l) {l : Txt} (hl : '\n' ∉ l) (hne : l ≠ []) :
    conv (text ls ++ l) = conv (text (ls ++ [l])) := by
  unfold conv
  rw [linesFrom_text_append ls l h, lines_text (ls := ls ++ [l]) fun k hk => (List.mem_append.1 hk).elim (h k)
    fun hm => List.mem_singleton.1 hm ▸ hl]
  unfold lines
  rw [linesFrom_last l [] hl (.inr hne)]
  rfl

theorem letters_text_lines : ∀ ls : List Txt, letters (text ls) = (ls.map letters).flatten
  | [] => rfl
  | l :: ls => by
    have := letters_text_lines ls
    unfold text at this ⊢
    rw [List.map_cons, List.flatten_cons, letters_append, letters_append, letters_newline, this, List.append_nil]
    rfl

theorem letters_out : ∀ ls : List Txt, letters (ls.map lineOut).flatten = (ls.map letters).flatten
  | [] => rfl
  | l :: ls => by
    rw [List.map_cons, List.flatten_cons, letters_append, letters_outLine (outLine l), letters_out ls]
    rfl

/-- C94, nothing is lost and nothing is added: up to white space the output is the input, for all texts. -/
theorem C94_letters (t : Txt) : letters (conv t) = letters t := by
  unfold conv
  rw [letters_out, ← letters_text_lines]
  unfold lines
  rcases linesFrom_text t [] with h | h
  · rw [h]; rfl
  · rw [h, letters_append, letters_newline, List.append_nil]; rfl

/-- The output for a line is a line, and the output for that is the same. -/
theorem lineOut_again (l : Txt) : ∃ k, lineOut l = k ++ ['\n'] ∧ '\n' ∉ k ∧ lineOut k = k ++ ['\n'] := by
  have h := outLine l
  generalize lineOut l = o at h
  cases h with
  | blank h => exact ⟨[], rfl, fun hm => (by cases hm), lineOut_eq (.blank (.nil (gap := []) fun c hc => by cases hc))⟩
  | named h hc =>
    rename_i name ws ps
    have hw := words_word h
    have hp := cutAll_pieces hc fun w hm => hw w (List.mem_cons_of_mem _ hm)
    have hl := words_line (hw name (List.mem_cons_self ..)) fun p hm => (hp p hm).1
    refine ⟨name ++ (ps.map (' ' :: ·)).flatten, rfl, ?_, lineOut_eq (.named hl (cutAll_same fun p hm => (hp p hm).2))⟩
    intro hm
    rcases List.mem_append.1 hm with hm | hm
    · exact (hw name (List.mem_cons_self ..)).2 _ hm space_newline
    · obtain ⟨x, hx, hm⟩ := List.mem_flatten.1 hm
      obtain ⟨p, hpm, rfl⟩ := List.mem_map.1 hx
      rcases List.mem_cons.1 hm with hm | hm
      · exact absurd hm (by decide)
      · exact (hp p hpm).1.2 _ hm space_newline

theorem conv_text_again : ∀ ls : List Txt, ∃ ks, (ls.map lineOut).flatten = text ks ∧ (∀ k ∈ ks, '\n' ∉ k) ∧ (ks.map lineOut).flatten = text ks
  | [] => ⟨[], rfl, fun k hk => (by cases hk), rfl⟩
  | l :: ls => by
    obtain ⟨ks, h1, h2, h3⟩ := conv_text_again ls
    obtain ⟨k, g1, g2, g3⟩ := lineOut_again l
    refine ⟨k :: ks, ?_, fun j hj => (List.mem_cons.1 hj).elim (fun e => e ▸ g2) (h2 j), ?_⟩
    · rw [List.map_cons, List.flatten_cons, g1, h1]; rfl
    · rw [List.map_cons, List.flatten_cons, g3, h3]; rfl

/-- C94, cutting twice is cutting once, for all texts. -/
theorem C94_twice (t : Txt) : conv (conv t) = conv t := by
  obtain ⟨ks, h1, h2, h3⟩ := conv_text_again (lines t)
  have e : conv t = text ks := h1
  rw [e]
  unfold conv
  rw [lines_text h2, h3]

theorem pieces_flatten : ∀ {ws : List Txt}, (∀ w ∈ ws, ¬ Kept w) → CutAll ws (ws.flatten.map fun c => [c])
  | [], _ => .nil
  | w :: ws, h => by
    rw [List.flatten_cons, List.map_append]
    exact .cons (.chars (h w (List.mem_cons_self ..))) (pieces_flatten fun v hv => h v (List.mem_cons_of_mem _ hv))

/-- C94, what the error rate is computed from does not depend on how a hypothesis is cut into words: two lines with the same
name and the same characters give the same output, if no word is one that is kept. -/
theorem C94_segmentation {a b name : Txt} {us vs : List Txt} (ha : '\n' ∉ a) (hb : '\n' ∉ b) (h1 : Words a (name :: us))
    (h2 : Words b (name :: vs)) (k1 : ∀ w ∈ us, ¬ Kept w) (k2 : ∀ w ∈ vs, ¬ Kept w) (h : us.flatten = vs.flatten) :
    conv (text [a]) = conv (text [b]) := by
  unfold conv
  rw [lines_text fun l hl => List.mem_singleton.1 hl ▸ ha, lines_text fun l hl => List.mem_singleton.1 hl ▸ hb]
  have e1 := lineOut_eq (.named h1 (pieces_flatten k1))
  have e2 := lineOut_eq (.named h2 (pieces_flatten k2))
  rw [List.map_singleton, List.map_singleton, e1, e2, h]

/-- C94, words that are kept: with brackets in them the cut into words matters. -/
theorem C94_brackets_matter : ∃ a b name : Txt, ∃ us vs : List Txt, '\n' ∉ a ∧ '\n' ∉ b ∧ Words a (name :: us) ∧
    Words b (name :: vs) ∧ us.flatten = vs.flatten ∧ conv (text [a]) ≠ conv (text [b]) :=
  ⟨"u a[b]".toList, "u a[ b]".toList, ['u'], ["a[b]".toList], ["a[".toList, "b]".toList], by decide, by decide,
    words_fields "u a[b]".toList, words_fields "u a[ b]".toList, by decide, by decide +kernel⟩

/-! ## Examples -/

/-- Two lines, the second without an end. -/
example : conv "utt1 你好 <unk> world\nutt2  !SIL a".toList = "utt1 你 好 <unk> w o r l d\nutt2 !SIL a\n".toList := by decide +kernel

example : conv (text ["u 你好 吗".toList]) = "u 你 好 吗\n".toList :=
  (C94_output (by decide) _).2 ⟨["u 你 好 吗\n".toList], .cons (.named (name := ['u'])
    (words_fields "u 你好 吗".toList) (pieces_flatten (ws := ["你好".toList, "吗".toList]) (by
      intro w hw hk
      rw [← special_iff] at hk
      revert w
      decide +kernel))) .nil, rfl⟩

example : conv (text ["a b".toList] ++ "c d".toList) = conv (text ["a b".toList, "c d".toList]) :=
  C94_last_line (ls := ["a b".toList]) (by decide) (by decide) (by decide)

example : letters (conv "utt1 你好\n".toList) = "utt1你好".toList := (C94_letters _).trans (by decide +kernel)

example : conv (conv "x <a b> c[d]".toList) = conv "x <a b> c[d]".toList := C94_twice _

example : conv (text ["u 你好 吗".toList]) = conv (text ["u  你 好吗 ".toList]) :=
  C94_segmentation (name := ['u']) (us := ["你好".toList, "吗".toList]) (vs := ["你".toList, "好吗".toList]) (by decide) (by decide)
    (words_fields "u 你好 吗".toList) (words_fields "u  你 好吗 ".toList)
    (by intro w hw hk; rw [← special_iff] at hk; revert w; decide +kernel)
    (by intro w hw hk; rw [← special_iff] at hk; revert w; decide +kernel) (by decide)

end Verif.Chartok
