import Verif.TextLemmas

/-!
# The properties of the string helpers: C34, C35, C36, C37, C41, C42
-/

namespace Verif.Text

open Verif

/-! ## C34: Trim -/

/-- C34: `Trim` always answers, and `t` is its answer exactly when `t` is `s` without the white space
around it; in particular that string is unique. -/
theorem C34_trim (s t : Str) : trim s = .ok t ↔ IsTrimmed s t := by
  obtain ⟨u, hu, hi⟩ := trim_spec s
  constructor
  · intro h; rw [hu] at h; cases h; exact hi
  · intro h; rw [hu, ← hi.core_eq, h.core_eq]

theorem C34_trim_total (s : Str) : ∃ t, trim s = .ok t := by
  obtain ⟨t, h, _⟩ := trim_spec s
  exact ⟨t, h⟩

/-- C34: trimming twice is trimming once. -/
theorem C34_trim_idempotent (s t : Str) (h : trim s = .ok t) : trim t = .ok t := by
  obtain ⟨l, r, _, _, _, h1, h2⟩ := (C34_trim s t).1 h
  exact (C34_trim t t).2 ⟨[], [], by simp, by simp, by simp, h1, h2⟩

/-- `" \ta b\n"` is trimmed to `"a b"`. -/
example : trim [32, 9, 97, 32, 98, 10] = .ok [97, 32, 98] := by decide +kernel

example : IsTrimmed [32, 9, 97, 32, 98, 10] [97, 32, 98] :=
  (C34_trim _ _).1 (by decide +kernel)

/-! ## C35: Split -/

/-- C35: for a non-empty separator `Split` answers with fields free of the separator; joined they are the
input, or the input is the join followed by one separator, whose trailing empty field is dropped. -/
theorem C35_split (s d : Str) (hd : d ≠ []) :
    ∃ fs, split s d = .ok fs ∧ (∀ f ∈ fs, ¬ d <:+: f) ∧
      ((s = join d fs ∧ fs.getLast? ≠ some []) ∨ (s = join d fs ++ d ∧ fs ≠ [])) :=
  splitFrom_spec hd (s.length + 1) s (by omega)

/-- C35: for a separator of one byte these conditions determine the answer: `Split` inverts `join`. -/
theorem C35_split_inverts_join (c : UInt8) (s : Str) (fs : List Str) :
    split s [c] = .ok fs ↔ (∀ f ∈ fs, c ∉ f) ∧
      ((s = join [c] fs ∧ fs.getLast? ≠ some []) ∨ (s = join [c] fs ++ [c] ∧ fs ≠ [])) := by
  constructor
  · intro h
    obtain ⟨gs, h1, h2, h3⟩ := C35_split s [c] (by simp)
    rw [h] at h1; cases h1
    exact ⟨fun f hf hc => h2 f hf (infix_singleton.2 hc), h3⟩
  · rintro ⟨hfree, ⟨rfl, hl⟩ | ⟨rfl, hne⟩⟩
    · have := length_join_ge' c fs hl
      exact (splitFrom_join fs hfree).1 _ (by omega) hl
    · have := length_join_ge c fs hne
      exact (splitFrom_join fs hfree).2 _ (by simp; omega) hne

/-- C35: with an empty separator the loop never ends, whatever the string: no number of iterations
suffices. -/
theorem C35_split_empty_separator_diverges (fuel : Nat) (s : Str) : splitFrom [] fuel s = .error .fuel :=
  splitFrom_empty fuel s

/-- `Split("a,,b,", ",")` is `{"a", "", "b"}`. -/
example : split [97, 44, 44, 98, 44] [44] = .ok [[97], [], [98]] := by decide +kernel

example : ([44] : Str) ≠ [] := by decide

example : (∀ f ∈ ([[97], [], [98]] : List Str), (44 : UInt8) ∉ f) ∧
    (([97, 44, 44, 98, 44] : Str) = join [44] [[97], [], [98]] ++ [44] ∧
      ([[97], [], [98]] : List Str) ≠ []) := by decide

/-! ## C36: Format -/

/-- C36, negative part: an argument containing `{}` captures the next argument:
`Format("{} {}", "{}", "x")` is `"x {}"`, not `"{} x"`. -/
theorem C36_argument_with_braces_captures :
    format (join [123, 125] [[], [32], []]) [[123, 125], [120]] = [120, 32, 123, 125] ∧
    fill [] [[32], []] [[123, 125], [120]] = [123, 125, 32, 120] := by decide +kernel

/-- C36: if one of the two braces occurs neither in the pieces of the format string around the `{}` nor in
the arguments, the arguments appear in the places of the `{}`, in order; `{}` without argument stay and
surplus arguments are ignored.
Missing for the full property: pieces and arguments in which both braces occur, for which it is false. -/
theorem C36_format_partial (p : Str) (ps as : List Str) (h : BraceFree (p :: ps ++ as)) :
    format (join [123, 125] (p :: ps)) as = fill p ps as :=
  format_fill as p ps h

/-- `Format("a{}b{}", "x", "}")` is `"axb}"`. -/
example : format [97, 123, 125, 98, 123, 125] [[120], [125]] = [97, 120, 98, 125] := by decide +kernel

example : BraceFree ([97] :: [[98], []] ++ [[120], [125]]) := Or.inl (by decide)

/-! ## C37: strlcpy -/

/-- C37: for a NUL-terminated source and a destination of at least `n` bytes, `strlcpy` never leaves the two
arrays; it returns the length of the source; for `n = 0` it writes nothing, otherwise the destination holds the first
`n - 1` bytes of the source (all of them if there are fewer), a NUL, and its old content behind it. -/
theorem C37_strlcpy (dst s rest : Str) (n : Nat) (h0 : 0 ∉ s) (hb : n ≤ dst.length) :
    strlcpy dst (s ++ 0 :: rest) n =
      .ok (if n = 0 then dst else s.take (n - 1) ++ [0] ++ dst.drop (min s.length (n - 1) + 1), s.length) :=
  strlcpy_spec h0 hb

/-- C37: without a NUL in the source the function reads outside it. -/
theorem C37_strlcpy_needs_terminator :
    strlcpy [1, 1] [97, 98] 2 = .error .ub := by decide +kernel

/-- `"abcd"` copied with `n = 3` into five bytes. -/
example : strlcpy [1, 1, 1, 1, 1] ([97, 98, 99, 100] ++ 0 :: [7]) 3 = .ok ([97, 98, 0, 1, 1], 4) := by
  decide +kernel

example : (0 : UInt8) ∉ ([97, 98, 99, 100] : Str) ∧ 3 ≤ ([1, 1, 1, 1, 1] : Str).length := by decide

/-! ## C42: hypothesis text -/

/-- C42: when every word id of the best path (latest first) has a word in the table, `utt->hyp` becomes a
buffer of exactly the words in spoken order, single blanks between them, and one NUL at the end. -/
theorem C42_hypothesis_text (syms : List Str) (ids : List Int) (ws : List Str) (fill : Nat → UInt8)
    (h : ids.reverse.map (word? syms) = ws.map some) :
    storeHypText syms ids fill = .ok (hypText ws) := by
  unfold storeHypText hypText
  cases hids : ids with
  | nil =>
    subst hids
    cases ws with
    | nil => rfl
    | cons => cases h
  | cons i is =>
    have hne : ws ≠ [] := by
      rintro rfl
      rw [hids] at h; simp at h
    rw [if_pos (show (i :: is).isEmpty = false from rfl), ← hids, hypLoop_ok ids.reverse ws [] h, ok_bind, List.nil_append,
      spaced_eq_join ws hne]
    have h0 : 0 ∉ join [32] ws ++ [32] := by
      rw [← spaced_eq_join ws hne]
      intro hz
      obtain ⟨w, hw, hz⟩ := List.mem_flatMap.1 hz
      rw [List.mem_append] at hz
      rcases hz with hz | hz
      · have hm : some w ∈ ids.reverse.map (word? syms) := by rw [h]; exact List.mem_map_of_mem hw
        obtain ⟨id, _, hid⟩ := List.mem_map.1 hm
        exact word?_noNul hid hz
      · revert hz; decide
    rw [strlcpy_spec (rest := []) h0 (by simp), ok_bind]
    have hl : (join [32] ws ++ [32]).length ≠ 0 := by simp
    rw [if_neg hl]
    unfold copied
    rw [List.drop_eq_nil_of_le (by simp)]
    simp

/-- C42: a word id outside the table stops the program in an assertion; there is no other failure. -/
theorem C42_unknown_word_asserts (syms : List Str) (ids : List Int) (fill : Nat → UInt8)
    (h : ∃ i ∈ ids, i < 0 ∨ (syms.length : Int) ≤ i) : storeHypText syms ids fill = .error .assert := by
  obtain ⟨i, hi, hr⟩ := h
  have hn : word? syms i = none := by
    unfold word?
    split
    · rw [List.getElem?_eq_none (by omega)]; rfl
    · rfl
  unfold storeHypText
  rw [if_pos (by cases ids with | nil => cases hi | cons => rfl),
    hypLoop_assert ids.reverse [] (by
      rw [← hn]; exact List.mem_map_of_mem (List.mem_reverse.2 hi))]
  rfl

/-- The words 2, 1 (latest first) of the table `<eps> b a` give `"b a"`. -/
example : storeHypText [[60], [98], [97]] [2, 1] (fun _ => 5) = .ok [98, 32, 97, 0] := by decide +kernel

example : ([2, 1] : List Int).reverse.map (word? [[60], [98], [97]]) = ([[98], [97]] : List Str).map some := by
  decide +kernel

/-! ## C41: reading lines -/

/-- C41: reading a file whose lines are good until `ReadLine` returns false delivers the lines in order, without
their line ends, and no error. -/
theorem C41_lines (ls : List (Str × Str)) (h : ∀ p ∈ ls, GoodLine p.1 p.2) :
    readLines (ls.length + 1) ⟨(ls.map (fun p => p.1 ++ p.2)).flatten, false⟩
      = .ok (ls.map Prod.fst, false) := by
  have hf : fileOf ls = (ls.map (fun p => p.1 ++ p.2)).flatten := by
    induction ls with
    | nil => rfl
    | cons p ls ih =>
      rw [fileOf, ih (fun q hq => h q (List.mem_cons_of_mem _ hq))]
      rfl
  have := readLines_good ls 1 [] [] false h rfl
  rw [← hf]
  simpa using this

/-- C41, why the last line must end with a newline: one that does not is delivered, but the loop then ends with
an error status (see C40). -/
theorem C41_last_line_without_newline (ls : List (Str × Str)) (l : Str)
    (h : ∀ p ∈ ls, GoodLine p.1 p.2) (hne : l ≠ []) (h0 : 0 ∉ l) (hlf : 10 ∉ l)
    (hcr : l.getLast? ≠ some 13) (hs : l.length < 4095) :
    readLines (ls.length + 2) ⟨(ls.map (fun p => p.1 ++ p.2)).flatten ++ l, false⟩
      = .ok (ls.map Prod.fst ++ [l], true) := by
  have hf : fileOf ls = (ls.map (fun p => p.1 ++ p.2)).flatten := by
    clear hs hcr hlf h0 hne
    induction ls with
    | nil => rfl
    | cons p ls ih =>
      rw [fileOf, ih (fun q hq => h q (List.mem_cons_of_mem _ hq))]
      rfl
  have hr : readLine ⟨l, false⟩ = (.line l, ⟨[], true⟩) := by
    unfold readLine
    simp only [fgets_end 4095 l hlf hs]
    rw [if_neg (by simp), if_neg hne, cstr_id h0, stripEnd_id hlf hcr]
  have := readLines_good ls 2 l [l] true h (by rw [readLines_step 1 hr]; rfl)
  rw [← hf]
  exact this

/-- C41, why lines must be short: a line of 4095 bytes or more comes back in pieces. -/
theorem C41_long_line_split (l r : Str) (hlf : 10 ∉ l) (h0 : 0 ∉ l) (hl : l.length = 4095)
    (hcr : l.getLast? ≠ some 13) :
    readLine ⟨l ++ r, false⟩ = (.line l, ⟨r, false⟩) := by
  have key : ∀ (n : Nat) (x : Str), 10 ∉ x → x.length = n → fgets n (x ++ r) = (x, r, false) := by
    intro n
    induction n with
    | zero => intro x _ h; rw [List.eq_nil_of_length_eq_zero h]; rfl
    | succ n ih =>
      intro x hx hn
      cases x with
      | nil => simp at hn
      | cons c x =>
        have hc : c ≠ 10 := fun h => hx (by rw [h]; exact List.mem_cons_self ..)
        have hx' : 10 ∉ x := fun h => hx (List.mem_cons_of_mem _ h)
        simp only [List.cons_append, fgets, if_neg hc, ih x hx' (by simpa using hn)]
  unfold readLine
  simp only [key 4095 l hlf hl]
  rw [if_neg (by simp), if_neg (by intro h; rw [h] at hl; simp at hl), cstr_id h0, stripEnd_id hlf hcr]

/-- The file `"a\r\n\nb c\n"`. -/
example : readLines 4 ⟨[97, 13, 10, 10, 98, 32, 99, 10], false⟩ = .ok ([[97], [], [98, 32, 99]], false) := by
  decide +kernel

example : ∀ p ∈ ([([97], [13, 10]), ([], [10]), ([98, 32, 99], [10])] : List (Str × Str)),
    GoodLine p.1 p.2 := by
  intro p hp
  simp only [List.mem_cons, List.not_mem_nil, or_false] at hp
  rcases hp with rfl | rfl | rfl
  · exact ⟨by decide, by decide, by decide, Or.inr rfl, by decide⟩
  · exact ⟨by decide, by decide, by decide, Or.inl rfl, by decide⟩
  · exact ⟨by decide, by decide, by decide, Or.inl rfl, by decide⟩

end Verif.Text
