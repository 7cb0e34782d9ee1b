import Verif.ChartokSpec

/-!
# Lemmas on cutting into characters
-/

namespace Verif.Chartok

open Verif.Chartok.Spec

theorem isSpace_iff (c : Char) : isSpace c = true ↔ Space c := by
  unfold isSpace Space
  generalize c.toNat = n
  simp only [Bool.or_eq_true, Bool.and_eq_true, decide_eq_true_eq, beq_iff_eq, List.mem_cons, List.not_mem_nil, or_false]
  omega

theorem isSpace_false {c : Char} (h : ¬ Space c) : isSpace c = false := by
  cases hs : isSpace c with
  | false => rfl
  | true => exact absurd ((isSpace_iff c).1 hs) h

/-! ## Words -/

theorem fieldsFrom_gap (gap r : Txt) (h : ∀ c ∈ gap, Space c) : fieldsFrom [] (gap ++ r) = fieldsFrom [] r := by
  induction gap with
  | nil => rfl
  | cons c cs ih =>
    rw [List.cons_append, fieldsFrom, if_pos ((isSpace_iff c).2 (h c (List.mem_cons_self ..))), if_pos rfl]
    exact ih fun d hd => h d (List.mem_cons_of_mem _ hd)

theorem fieldsFrom_word (word : Txt) : ∀ (cur r : Txt), (∀ c ∈ word, ¬ Space c) →
    fieldsFrom cur (word ++ r) = fieldsFrom (word.reverse ++ cur) r := by
  induction word with
  | nil => exact fun _ _ _ => rfl
  | cons c cs ih =>
    intro cur r h
    rw [List.cons_append, fieldsFrom, if_neg (by rw [isSpace_false (h c (List.mem_cons_self ..))]; exact Bool.false_ne_true),
      ih _ _ fun d hd => h d (List.mem_cons_of_mem _ hd), List.reverse_cons, List.append_assoc]
    rfl

theorem fieldsFrom_end {cur : Txt} (hc : cur ≠ []) (r : Txt) (h : ∀ c, r.head? = some c → Space c) :
    fieldsFrom cur r = cur.reverse :: fieldsFrom [] r := by
  cases r with
  | nil => rw [fieldsFrom, if_neg hc, fieldsFrom, if_pos rfl]
  | cons c cs =>
    have hs := (isSpace_iff c).2 (h c rfl)
    rw [fieldsFrom, if_pos hs, if_neg hc, fieldsFrom, if_pos hs, if_pos rfl]

theorem fields_words {l : Txt} {ws : List Txt} (h : Words l ws) : fields l = ws := by
  induction h with
  | nil h =>
    rename_i gap
    have := fieldsFrom_gap gap [] h
    rw [List.append_nil] at this
    exact this
  | cons h hw hn hr _ ih =>
    rename_i gap word rest ws _
    unfold fields at ih ⊢
    rw [List.append_assoc, fieldsFrom_gap gap _ h, fieldsFrom_word word [] rest hn, List.append_nil,
      fieldsFrom_end (by simpa using hw) rest hr, List.reverse_reverse, ih]

theorem words_space {c : Char} {l : Txt} {ws : List Txt} (hc : Space c) (h : Words l ws) : Words (c :: l) ws := by
  cases h with
  | nil h => exact .nil fun d hd => (List.mem_cons.1 hd).elim (fun e => e ▸ hc) (h d)
  | cons h hw hn hr ht =>
    rename_i gap word rest ws
    exact Words.cons (gap := c :: gap) (fun d hd => (List.mem_cons.1 hd).elim (fun e => e ▸ hc) (h d)) hw hn hr ht

theorem words_from (l : Txt) : ∀ cur : Txt, (∀ c ∈ cur, ¬ Space c) → Words (cur.reverse ++ l) (fieldsFrom cur l) := by
  induction l with
  | nil =>
    intro cur h
    rw [fieldsFrom]
    split
    · rename_i he
      subst he
      exact .nil fun c hc => by cases hc
    · rename_i he
      exact Words.cons (gap := []) (fun c hc => by cases hc) (by simpa using he)
        (fun c hc => h c (List.mem_reverse.1 hc)) (fun c hc => by cases hc) (.nil fun c hc => by cases hc)
  | cons c cs ih =>
    intro cur h
    rw [fieldsFrom]
    split
    · rename_i hs
      have hs' := (isSpace_iff c).1 hs
      have h0 : Words cs (fieldsFrom [] cs) := ih [] fun d hd => by cases hd
      split
      · rename_i he
        subst he
        exact words_space hs' h0
      · rename_i he
        exact Words.cons (gap := []) (fun c hc => by cases hc) (by simpa using he)
          (fun c hc => h c (List.mem_reverse.1 hc)) (fun d hd => by injection hd with hd; exact hd ▸ hs') (words_space hs' h0)
    · rename_i hs
      have := ih (c :: cur) fun d hd => (List.mem_cons.1 hd).elim
        (fun e => e ▸ fun hp => hs ((isSpace_iff c).2 hp)) (h d)
      rw [List.reverse_cons, List.append_assoc] at this
      exact this

theorem words_fields (l : Txt) : Words l (fields l) := words_from l [] fun c hc => by cases hc

theorem words_word {l : Txt} {ws : List Txt} (h : Words l ws) : ∀ w ∈ ws, w ≠ [] ∧ ∀ c ∈ w, ¬ Space c := by
  induction h with
  | nil _ => exact fun w hw => by cases hw
  | cons _ hw hn _ _ ih => exact fun w hm => (List.mem_cons.1 hm).elim (fun e => e ▸ ⟨hw, hn⟩) (ih w)

/-! ## Words that are kept -/

theorem bracketed_iff (o c : Char) (w : Txt) : bracketed o c w = true ↔ ∃ x y z, w = x ++ o :: y ++ c :: z := by
  induction w with
  | nil =>
    refine ⟨fun h => (by cases h), fun ⟨x, y, z, h⟩ => ?_⟩
    have := congrArg List.length h
    simp at this
  | cons d ds ih =>
    rw [bracketed, Bool.or_eq_true, Bool.and_eq_true, beq_iff_eq, ih]
    constructor
    · rintro (⟨rfl, h⟩ | ⟨x, y, z, rfl⟩)
      · obtain ⟨y, z, rfl⟩ := List.append_of_mem (List.contains_iff_mem.1 h)
        exact ⟨[], y, z, rfl⟩
      · exact ⟨d :: x, y, z, rfl⟩
    · rintro ⟨x, y, z, h⟩
      cases x with
      | nil =>
        injection h with h1 h2
        refine .inl ⟨h1, List.contains_iff_mem.2 ?_⟩
        rw [h2]
        simp
      | cons e x =>
        injection h with h1 h2
        exact .inr ⟨x, y, z, h2⟩

theorem hasSil_iff (w : Txt) : hasSil w = true ↔ ∃ a b, w = a ++ ['!', 'S', 'I', 'L'] ++ b := by
  induction w with
  | nil =>
    refine ⟨fun h => (by cases h), fun ⟨x, y, h⟩ => ?_⟩
    have := congrArg List.length h
    simp at this
  | cons d ds ih =>
    rw [hasSil, Bool.or_eq_true, List.isPrefixOf_iff_prefix, ih]
    constructor
    · rintro (⟨b, h⟩ | ⟨a, b, rfl⟩)
      · exact ⟨[], b, h.symm⟩
      · exact ⟨d :: a, b, rfl⟩
    · rintro ⟨a, b, h⟩
      cases a with
      | nil => exact .inl ⟨b, h.symm⟩
      | cons e a =>
        injection h with h1 h2
        exact .inr ⟨a, b, h2⟩

theorem special_iff (w : Txt) : special w = true ↔ Kept w := by
  unfold special Kept
  rw [Bool.or_eq_true, Bool.or_eq_true, bracketed_iff, bracketed_iff, hasSil_iff, or_assoc]

/-! ## Pieces -/

/-- What is printed for the pieces of a word. -/
theorem fieldOut_cut {w : Txt} {ps : List Txt} (h : Cut w ps) : fieldOut w = (ps.map (' ' :: ·)).flatten := by
  unfold fieldOut
  cases h with
  | kept h => rw [if_pos ((special_iff w).2 h)]; simp
  | chars h => rw [if_neg (fun hs => h ((special_iff w).1 hs)), List.map_map]; rfl

theorem out_cutAll {ws ps : List Txt} (h : CutAll ws ps) : (ws.map fieldOut).flatten = (ps.map (' ' :: ·)).flatten := by
  induction h with
  | nil => rfl
  | cons h _ ih => rw [List.map_cons, List.flatten_cons, fieldOut_cut h, ih, List.map_append, List.flatten_append]

theorem cut_exists (w : Txt) : ∃ ps, Cut w ps := by
  rcases Classical.em (Kept w) with h | h
  · exact ⟨_, .kept h⟩
  · exact ⟨_, .chars h⟩

theorem cutAll_exists : ∀ ws : List Txt, ∃ ps, CutAll ws ps
  | [] => ⟨_, .nil⟩
  | w :: ws => by
    obtain ⟨ps, h⟩ := cut_exists w
    obtain ⟨qs, ht⟩ := cutAll_exists ws
    exact ⟨_, .cons h ht⟩

theorem lineOut_eq {l o : Txt} (h : OutLine l o) : lineOut l = o := by
  unfold lineOut
  cases h with
  | named h hc => rw [fields_words h]; dsimp only; rw [out_cutAll hc]; rfl
  | blank h => rw [fields_words h]

theorem outLine (l : Txt) : OutLine l (lineOut l) := by
  have hw := words_fields l
  cases hf : fields l with
  | nil =>
    unfold lineOut
    rw [hf]
    exact .blank (hf ▸ hw)
  | cons name ws =>
    obtain ⟨ps, hc⟩ := cutAll_exists ws
    have := OutLine.named (hf ▸ hw) hc
    rw [← lineOut_eq this] at this
    exact this

/-- Pieces are not empty and without white space, and each of them is cut into itself. -/
theorem cut_pieces {w : Txt} {ps : List Txt} (h : Cut w ps) (hw : w ≠ [] ∧ ∀ c ∈ w, ¬ Space c) :
    ∀ p ∈ ps, (p ≠ [] ∧ ∀ c ∈ p, ¬ Space c) ∧ Cut p [p] := by
  cases h with
  | kept h =>
    intro p hp
    rw [List.mem_singleton.1 hp]
    exact ⟨hw, .kept h⟩
  | chars h =>
    intro p hp
    obtain ⟨c, hc, rfl⟩ := List.mem_map.1 hp
    refine ⟨⟨by simp, fun d hd => List.mem_singleton.1 hd ▸ hw.2 c hc⟩, Cut.chars (w := [c]) ?_⟩
    rintro (⟨x, y, z, h⟩ | ⟨x, y, z, h⟩ | ⟨x, y, h⟩) <;>
    · have := congrArg List.length h
      simp at this
      omega

theorem cutAll_pieces {ws ps : List Txt} (h : CutAll ws ps) (hw : ∀ w ∈ ws, w ≠ [] ∧ ∀ c ∈ w, ¬ Space c) :
    ∀ p ∈ ps, (p ≠ [] ∧ ∀ c ∈ p, ¬ Space c) ∧ Cut p [p] := by
  induction h with
  | nil => exact fun p hp => by cases hp
  | cons h _ ih =>
    intro p hp
    rcases List.mem_append.1 hp with hp | hp
    · exact cut_pieces h (hw _ (List.mem_cons_self ..)) p hp
    · exact ih (fun w hm => hw w (List.mem_cons_of_mem _ hm)) p hp

theorem cutAll_same : ∀ {ps : List Txt}, (∀ p ∈ ps, Cut p [p]) → CutAll ps ps
  | [], _ => .nil
  | p :: _, h => .cons (ps := [p]) (h p (List.mem_cons_self ..)) (cutAll_same fun q hq => h q (List.mem_cons_of_mem _ hq))

theorem space_space : Space ' ' := by decide

theorem words_spaced : ∀ (ps : List Txt), (∀ p ∈ ps, p ≠ [] ∧ ∀ c ∈ p, ¬ Space c) → Words (ps.map (' ' :: ·)).flatten ps
  | [], _ => .nil fun c hc => by cases hc
  | p :: ps, h => by
    have ht := words_spaced ps fun q hq => h q (List.mem_cons_of_mem _ hq)
    refine Words.cons (gap := [' ']) (word := p) (rest := (ps.map (' ' :: ·)).flatten) ?_ (h p (List.mem_cons_self ..)).1
      (h p (List.mem_cons_self ..)).2 ?_ ht
    · intro c hc
      rw [List.mem_singleton.1 hc]
      exact space_space
    · intro c hc
      cases ps with
      | nil => cases hc
      | cons q qs => injection hc with hc; exact hc ▸ space_space

theorem words_line {name : Txt} {ps : List Txt} (hn : name ≠ [] ∧ ∀ c ∈ name, ¬ Space c) (h : ∀ p ∈ ps, p ≠ [] ∧ ∀ c ∈ p, ¬ Space c) :
    Words (name ++ (ps.map (' ' :: ·)).flatten) (name :: ps) := by
  refine Words.cons (gap := []) (word := name) (rest := (ps.map (' ' :: ·)).flatten) (fun c hc => by cases hc) hn.1 hn.2 ?_
    (words_spaced ps h)
  intro c hc
  cases ps with
  | nil => cases hc
  | cons q qs => injection hc with hc; exact hc ▸ space_space

/-! ## Lines -/

theorem linesFrom_line (l : Txt) : ∀ (cur r : Txt), '\n' ∉ l → linesFrom cur (l ++ '\n' :: r) = (cur.reverse ++ l) :: linesFrom [] r := by
  induction l with
  | nil =>
    intro cur r _
    rw [List.nil_append, linesFrom, if_pos rfl, List.append_nil]
  | cons c cs ih =>
    intro cur r h
    rw [List.cons_append, linesFrom, if_neg (fun e : c = '\n' => h (e ▸ List.mem_cons_self ..)), ih _ _ (fun hm => h (List.mem_cons_of_mem _ hm)),
      List.reverse_cons, List.append_assoc]
    rfl

theorem lines_text : ∀ {ls : List Txt}, (∀ l ∈ ls, '\n' ∉ l) → lines (text ls) = ls
  | [], _ => rfl
  | l :: ls, h => by
    have := lines_text (ls := ls) fun k hk => h k (List.mem_cons_of_mem _ hk)
    unfold lines text at this ⊢
    rw [List.map_cons, List.flatten_cons, List.append_assoc, List.singleton_append,
      linesFrom_line l [] _ (h l (List.mem_cons_self ..)), this]
    rfl

theorem linesFrom_last (l : Txt) : ∀ cur : Txt, '\n' ∉ l → (cur ≠ [] ∨ l ≠ []) → linesFrom cur l = [cur.reverse ++ l] := by
  induction l with
  | nil =>
    intro cur _ h
    rw [linesFrom, if_neg (h.resolve_right fun h => h rfl), List.append_nil]
  | cons c cs ih =>
    intro cur h _
    rw [linesFrom, if_neg (fun e : c = '\n' => h (e ▸ List.mem_cons_self ..)), ih _ (fun hm => h (List.mem_cons_of_mem _ hm)) (.inl (by simp)),
      List.reverse_cons, List.append_assoc]
    rfl

theorem linesFrom_no (t : Txt) : ∀ cur : Txt, '\n' ∉ cur → ∀ l ∈ linesFrom cur t, '\n' ∉ l := by
  induction t with
  | nil =>
    intro cur h l hl
    rw [linesFrom] at hl
    split at hl
    · cases hl
    · rw [List.mem_singleton.1 hl]
      exact fun hm => h (List.mem_reverse.1 hm)
  | cons c cs ih =>
    intro cur h l hl
    rw [linesFrom] at hl
    split at hl
    · rcases List.mem_cons.1 hl with rfl | hl
      · exact fun hm => h (List.mem_reverse.1 hm)
      · exact ih [] (fun hm => by cases hm) l hl
    · rename_i hc
      exact ih _ (fun hm => (List.mem_cons.1 hm).elim (fun e => hc e.symm) h) l hl

theorem lines_no (t : Txt) : ∀ l ∈ lines t, '\n' ∉ l := linesFrom_no t [] fun hm => by cases hm

/-- A text is its lines, up to the end of the last. -/
theorem linesFrom_text (t : Txt) : ∀ cur : Txt, text (linesFrom cur t) = cur.reverse ++ t ∨ text (linesFrom cur t) = cur.reverse ++ t ++ ['\n'] := by
  induction t with
  | nil =>
    intro cur
    rw [linesFrom]
    split
    · rename_i h
      subst h
      exact .inl rfl
    · right
      simp [text]
  | cons c cs ih =>
    intro cur
    rw [linesFrom]
    split
    · rename_i h
      subst h
      have e : text (cur.reverse :: linesFrom [] cs) = cur.reverse ++ '\n' :: text (linesFrom [] cs) := by simp [text]
      rw [e]
      rcases ih [] with h | h
      · left; rw [h]; rfl
      · right; rw [h]; simp
    · rcases ih (c :: cur) with h | h
      · left; rw [h]; simp
      · right; rw [h]; simp

/-! ## Letters -/

theorem letters_append (a b : Txt) : letters (a ++ b) = letters a ++ letters b := List.filter_append ..

theorem letters_gap {g : Txt} (h : ∀ c ∈ g, Space c) : letters g = [] := by
  unfold letters
  rw [List.filter_eq_nil_iff]
  intro c hc
  simp [h c hc]

theorem letters_word {w : Txt} (h : ∀ c ∈ w, ¬ Space c) : letters w = w := by
  unfold letters
  rw [List.filter_eq_self]
  intro c hc
  simp [h c hc]

theorem letters_words {l : Txt} {ws : List Txt} (h : Words l ws) : letters l = ws.flatten := by
  induction h with
  | nil h => exact letters_gap h
  | cons h _ hn _ _ ih => rw [letters_append, letters_append, letters_gap h, letters_word hn, ih]; rfl

theorem cut_flatten {w : Txt} {ps : List Txt} (h : Cut w ps) : ps.flatten = w := by
  cases h with
  | kept => simp
  | chars =>
    rename_i hk
    clear hk
    induction w with
    | nil => rfl
    | cons c cs ih => simpa using ih

theorem cutAll_flatten {ws ps : List Txt} (h : CutAll ws ps) : ps.flatten = ws.flatten := by
  induction h with
  | nil => rfl
  | cons h _ ih => rw [List.flatten_append, cut_flatten h, ih, List.flatten_cons]

theorem space_newline : Space '\n' := by decide

theorem letters_newline : letters ['\n'] = [] := letters_gap fun c hc => List.mem_singleton.1 hc ▸ space_newline

theorem letters_outLine {l o : Txt} (h : OutLine l o) : letters o = letters l := by
  cases h with
  | blank h => rw [letters_words h, letters_newline]; rfl
  | named h hc =>
    rename_i name ws ps
    have hw := words_word h
    have hp := cutAll_pieces hc fun w hm => hw w (List.mem_cons_of_mem _ hm)
    unfold line
    rw [letters_append, letters_newline, List.append_nil,
      letters_words (words_line (hw name (List.mem_cons_self ..)) fun p hm => (hp p hm).1), letters_words h, List.flatten_cons,
      List.flatten_cons, cutAll_flatten hc]

end Verif.Chartok
