import Verif.AmConvModel
import Verif.AmConvSpec
import Verif.ToolLemmas

/-!
# Lemmas: what the converter of acoustic models makes of the text of a network
-/

namespace Verif.Tool

open Verif.Nnet (Layer)
open Kaldi

variable {R : Type}

/-! ## Searching -/

theorem cut_spec {x : Char} {p : Txt} (hx : x ∉ p) : ∀ {a : Txt} (b : Txt), Lacks (x :: p) a →
    cut (x :: p) (a ++ (x :: p ++ b)) = some (a, b)
  | [], b, _ => by
    show cut (x :: p) (x :: (p ++ b)) = _
    unfold cut
    rw [if_pos (by rw [List.isPrefixOf_iff_prefix]; exact List.prefix_append (x :: p) b)]
    simp
  | c :: a, b, h => by
    show cut (x :: p) (c :: (a ++ (x :: p ++ b))) = _
    unfold cut
    rw [if_neg, cut_spec hx b (fun h1 => h (h1.trans (List.suffix_cons c a).isInfix))]
    · rfl
    · rw [List.isPrefixOf_iff_prefix]
      intro h1
      have h1 : x :: p <+: (c :: a) ++ (x :: p ++ b) := h1
      rcases Nat.lt_or_ge (c :: a).length (x :: p).length with h2 | h2
      · obtain ⟨q, hq⟩ := List.prefix_of_prefix_length_le (List.prefix_append (c :: a) _) h1 (Nat.le_of_lt h2)
        have h1' : (c :: a) ++ q <+: (c :: a) ++ (x :: p ++ b) := by rw [hq]; exact h1
        have h3 := (List.prefix_append_right_inj (c :: a)).mp h1'
        rw [← hq] at h2
        cases q with
        | nil => simp at h2
        | cons y q =>
          have h4 : y = x := by
            obtain ⟨z, hz⟩ := h3
            simp only [List.cons_append, List.cons.injEq] at hz
            rw [hz.1]
          subst h4
          simp only [List.cons_append, List.cons.injEq] at hq
          exact hx (hq.2 ▸ List.mem_append_right _ (List.mem_cons_self ..))
      · exact h (List.prefix_of_prefix_length_le h1 (List.prefix_append (c :: a) _) h2).isInfix

theorem lacks_char {x : Char} {a : Txt} (h : x ∉ a) : Lacks [x] a := by
  intro h1
  exact h (h1.subset (List.mem_singleton.mpr rfl))

theorem cut_char {x : Char} {a : Txt} (b : Txt) (h : x ∉ a) : cut [x] (a ++ x :: b) = some (a, b) :=
  cut_spec (by simp) b (lacks_char h)

theorem gotoToken_ok {name a : Txt} (b : Txt) (hn : '<' ∉ name) (h : Lacks (tokenText name) a) :
    gotoToken name (a ++ (tokenText name ++ b)) = .ok b := by
  unfold gotoToken
  have := cut_spec (x := '<') (p := name ++ ['>']) (by simp [hn]) b h
  rw [show tokenText name = '<' :: (name ++ ['>']) from rfl, this]

theorem readUntil_ok {name a : Txt} (b : Txt) (hn : '<' ∉ name) (h : Lacks (tokenText name) a) :
    readUntil name (a ++ (tokenText name ++ b)) = .ok a := by
  unfold readUntil
  have := cut_spec (x := '<') (p := name ++ ['>']) (by simp [hn]) b h
  rw [show tokenText name = '<' :: (name ++ ['>']) from rfl, this]

/-! ## Words and matrices -/

theorem takeWhile_word : ∀ {w : Txt} {r : Txt}, (∀ c ∈ w, ¬ IsWhite c) → (∀ c ∈ r.head?, IsWhite c) →
    (w ++ r).takeWhile (fun c => !white c) = w ∧ (w ++ r).dropWhile (fun c => !white c) = r
  | [], [], _, _ => ⟨rfl, rfl⟩
  | [], c :: r, _, h => by
    have := (white_iff c).mpr (h c rfl)
    simp [this]
  | c :: w, r, hw, h => by
    have h1 := (not_white_iff c).mpr (hw c (List.mem_cons_self ..))
    have h2 := takeWhile_word (w := w) (r := r) (fun c hc => hw c (List.mem_cons_of_mem _ hc)) h
    simp [h1, h2.1, h2.2]

theorem readWord_ok {ok : Txt → Bool} {a w b : Txt} (r : Txt) (ha : Blank a) (hw : IsWord w) (hok : ok w = true)
    (hb : Blank b) (hb0 : b ≠ []) : readWord ok (a ++ (w ++ (b ++ r))) = .ok (w, r.dropWhile white) := by
  have h0 : (a ++ (w ++ (b ++ r))).dropWhile white = w ++ (b ++ r) := by
    rw [dropWhile_blank ha, dropWhile_head]
    intro c hc
    cases w with
    | nil => exact absurd rfl hw.1
    | cons d w =>
      cases hc
      exact hw.2 _ (List.mem_cons_self ..)
  have h1 := takeWhile_word (w := w) (r := b ++ r) hw.2 (by
    intro c hc
    cases b with
    | nil => exact absurd rfl hb0
    | cons d b =>
      cases hc
      exact hb _ (List.mem_cons_self ..))
  unfold readWord
  simp only [h0, h1.1, h1.2]
  rw [if_pos ⟨hw.1, hok, by simp [hb0]⟩, dropWhile_blank hb]

theorem readToken_ok {a tag : Txt} (r : Txt) (ha : Blank a) (ht : '>' ∉ tag) :
    readToken (a ++ '<' :: (tag ++ '>' :: r)) = .ok (tag, r) := by
  unfold readToken
  rw [dropWhile_blank ha, dropWhile_head (r := '<' :: (tag ++ '>' :: r))
    (by intro c hc; cases hc; exact not_white_of (by decide))]
  simp only
  rw [cut_char r ht]

theorem splitFrom_line (d : Char) : ∀ (l cur r : Txt), d ∉ l →
    splitFrom d cur (l ++ d :: r) = (cur ++ l) :: splitFrom d [] r
  | [], cur, r, _ => by simp [splitFrom]
  | c :: l, cur, r, h => by
    have h1 : c ≠ d := fun e => h (e ▸ List.mem_cons_self ..)
    rw [List.cons_append, splitFrom, if_neg h1, splitFrom_line d l _ r (fun hc => h (List.mem_cons_of_mem _ hc))]
    simp

theorem splitFrom_last (d : Char) : ∀ (l cur : Txt), d ∉ l → splitFrom d cur l = [cur ++ l]
  | [], cur, _ => by simp [splitFrom]
  | c :: l, cur, h => by
    have h1 : c ≠ d := fun e => h (e ▸ List.mem_cons_self ..)
    rw [splitFrom, if_neg h1, splitFrom_last d l _ (fun hc => h (List.mem_cons_of_mem _ hc))]
    simp

theorem splitAt_unlines : ∀ {ls : List Txt}, ls ≠ [] → (∀ l ∈ ls, '\n' ∉ l) → splitAt '\n' (unlines ls) = ls
  | [], h, _ => absurd rfl h
  | [l], _, h => by
    show splitFrom '\n' [] l = _
    rw [splitFrom_last _ _ _ (h l (List.mem_singleton.mpr rfl))]
    rfl
  | l :: m :: ls, _, h => by
    show splitFrom '\n' [] (l ++ '\n' :: unlines (m :: ls)) = _
    rw [splitFrom_line _ _ _ _ (h l (List.mem_cons_self ..))]
    have := splitAt_unlines (ls := m :: ls) (by simp) (fun x hx => h x (List.mem_cons_of_mem _ hx))
    rw [show splitFrom '\n' [] (unlines (m :: ls)) = m :: ls from this]
    rfl

theorem mem_unlines {c : Char} : ∀ {ls : List Txt}, c ≠ '\n' → c ∈ unlines ls → ∃ l ∈ ls, c ∈ l
  | [], _, h => by cases h
  | [l], _, h => ⟨l, List.mem_singleton.mpr rfl, h⟩
  | l :: m :: ls, hc, h => by
    have h : c ∈ l ++ '\n' :: unlines (m :: ls) := h
    rw [List.mem_append, List.mem_cons] at h
    rcases h with h | h | h
    · exact ⟨l, List.mem_cons_self .., h⟩
    · exact absurd h hc
    · obtain ⟨x, hx, h⟩ := mem_unlines hc h
      exact ⟨x, List.mem_cons_of_mem _ hx, h⟩

theorem parseAll_ok {num : ANum R} {val : Txt → R} : ∀ {ws : List Txt}, (∀ w ∈ ws, num.parse w = some (val w)) →
    parseAll num ws = .ok (ws.map val)
  | [], _ => rfl
  | w :: ws, h => by
    unfold parseAll
    rw [h w (List.mem_cons_self ..)]
    simp only
    rw [parseAll_ok (fun x hx => h x (List.mem_cons_of_mem _ hx)), ok_bind]
    rfl

theorem strip_nil_of_blank {l : Txt} : strip l = [] ↔ Blank l := strip_nil_iff l

theorem reads_not_blank {l w : Txt} {ws : List Txt} (h : Reads l (w :: ws)) : strip l ≠ [] := by
  intro h1
  have h2 := fields_of_reads h
  rw [← fields_strip, h1] at h2
  cases h2

theorem rows_ok {num : ANum R} {val : Txt → R} {c : Nat} : ∀ {ls : List Txt} {m : List (List Txt)}
    (acc : List (List R)), Rows ls m → (∀ r ∈ m, r.length = c ∧ ∀ w ∈ r, num.parse w = some (val w)) →
    (∀ r ∈ acc, r.length = c) → ls.foldlM (matrixLine num) acc = .ok (acc ++ m.map (·.map val)) := by
  intro ls m acc h
  induction h generalizing acc with
  | nil => intro _ _; simp [List.foldlM]; rfl
  | blank hb _ ih =>
    intro h1 h2
    rw [List.foldlM_cons]
    rw [show matrixLine num acc _ = .ok acc by unfold matrixLine; rw [if_pos (strip_of_blank hb)], ok_bind]
    exact ih acc h1 h2
  | @row l r ls m hr h0 _ ih =>
    intro h1 h2
    have hr1 := h1 r (List.mem_cons_self ..)
    have hs : strip l ≠ [] := by
      cases r with
      | nil => exact absurd rfl h0
      | cons w ws => exact reads_not_blank hr
    have hm : matrixLine num acc l = .ok (acc ++ [r.map val]) := by
      unfold matrixLine
      rw [if_neg hs, fields_strip, fields_of_reads hr, parseAll_ok hr1.2, ok_bind]
      cases acc with
      | nil => rfl
      | cons x acc =>
        simp only
        rw [if_pos (by rw [h2 x (List.mem_cons_self ..), List.length_map, hr1.1])]
    rw [List.foldlM_cons, hm, ok_bind, ih _ (fun x hx => h1 x (List.mem_cons_of_mem _ hx)) (by
      intro x hx
      rw [List.mem_append, List.mem_singleton] at hx
      rcases hx with hx | rfl
      · exact h2 x hx
      · rw [List.length_map, hr1.1])]
    simp

theorem readMatrix_ok {num : ANum R} {val : Txt → R} {t : Txt} {m : List (List Txt)} {c : Nat} (r : Txt)
    (h : IsMatrix t m) (hm : ∀ r ∈ m, r.length = c ∧ ∀ w ∈ r, num.parse w = some (val w)) :
    readMatrix num (t ++ r) = .ok (m.map (·.map val), r.dropWhile white) := by
  obtain ⟨a, lines, rfl, ha, h0, h1, h2⟩ := h
  unfold readMatrix
  rw [List.append_assoc, dropWhile_blank ha]
  rw [show '[' :: (unlines lines ++ [']']) ++ r = '[' :: (unlines lines ++ ']' :: r) by simp]
  rw [dropWhile_head (by intro c hc; cases hc; exact not_white_of (by decide))]
  simp only
  rw [cut_char r (by
    intro hc
    obtain ⟨l, hl, hc⟩ := mem_unlines (by decide) hc
    exact (h1 l hl).2 hc)]
  simp only
  rw [splitAt_unlines h0 (fun l hl => (h1 l hl).1), rows_ok [] h2 hm (by intro x hx; cases hx), ok_bind]
  rfl

/-! ## Parts of an input -/

theorem span_ok {p : Char → Bool} : ∀ {a r : Txt}, (∀ c ∈ a, p c = true) → (∀ c ∈ r.head?, p c = false) →
    (a ++ r).takeWhile p = a ∧ (a ++ r).dropWhile p = r
  | [], [], _, _ => ⟨rfl, rfl⟩
  | [], c :: r, _, h => by
    have := h c rfl
    simp [this]
  | c :: a, r, ha, h => by
    have h1 := ha c (List.mem_cons_self ..)
    have h2 := span_ok (a := a) (r := r) (fun c hc => ha c (List.mem_cons_of_mem _ hc)) h
    simp [h1, h2.1, h2.2]

theorem behind_ok (pre s : Txt) : behind pre (pre ++ s) = some s := by
  unfold behind
  rw [if_pos (List.isPrefixOf_iff_prefix.mpr (List.prefix_append pre s)), List.drop_left]

theorem behind_none {pre name s : Txt} {x : Char} (hx : x ∈ pre) (hn : x ∉ name) (hs : ∀ c ∈ s.head?, c ∉ pre) :
    behind pre (name ++ s) = none := by
  unfold behind
  rw [if_neg]
  rw [List.isPrefixOf_iff_prefix]
  intro h1
  rcases Nat.lt_or_ge name.length pre.length with h2 | h2
  · obtain ⟨q, hq⟩ := List.prefix_of_prefix_length_le (List.prefix_append name s) h1 (Nat.le_of_lt h2)
    have h1' : name ++ q <+: name ++ s := by rw [hq]; exact h1
    obtain ⟨z, hz⟩ := (List.prefix_append_right_inj name).mp h1'
    rw [← hq] at h2
    cases q with
    | nil => simp at h2
    | cons y q =>
      refine hs y (by rw [← hz]; rfl) ?_
      rw [← hq]
      exact List.mem_append_right _ (List.mem_cons_self ..)
  · exact hn ((List.prefix_of_prefix_length_le h1 (List.prefix_append name s) h2).subset hx)

/-- A name that can stand in `Append`. -/
def Plain (n : Txt) : Prop := n ≠ [] ∧ ∀ c ∈ n, isNameChar c = true

theorem plain_of {n : Txt} (h : NameOk n) (h' : '-' ∉ n) : Plain n := by
  refine ⟨h.1, fun c hc => ?_⟩
  unfold isNameChar
  rcases h.2 c hc with h1 | h1 | h1 | h1
  · simp [h1]
  · simp [h1]
  · simp [h1]
  · exact absurd (h1 ▸ hc) h'

theorem nameChar_range {c : Char} (h : c.isAlphanum = true ∨ c = '_' ∨ c = '.' ∨ c = '-') :
    (48 ≤ c.toNat ∧ c.toNat ≤ 57) ∨ (65 ≤ c.toNat ∧ c.toNat ≤ 90) ∨ (97 ≤ c.toNat ∧ c.toNat ≤ 122) ∨ c.toNat = 95 ∨
      c.toNat = 46 ∨ c.toNat = 45 := by
  rcases h with h | rfl | rfl | rfl
  · unfold Char.isAlphanum Char.isAlpha Char.isUpper Char.isLower Char.isDigit at h
    simp only [Bool.or_eq_true, Bool.and_eq_true, decide_eq_true_eq] at h
    rcases h with (⟨h1, h2⟩ | ⟨h1, h2⟩) | ⟨h1, h2⟩
    · exact .inr (.inl ⟨h1, h2⟩)
    · exact .inr (.inr (.inl ⟨h1, h2⟩))
    · exact .inl ⟨h1, h2⟩
  · exact .inr (.inr (.inr (.inl rfl)))
  · exact .inr (.inr (.inr (.inr (.inl rfl))))
  · exact .inr (.inr (.inr (.inr (.inr rfl))))

theorem isNameChar_range {c : Char} (h : isNameChar c = true) :
    (48 ≤ c.toNat ∧ c.toNat ≤ 57) ∨ (65 ≤ c.toNat ∧ c.toNat ≤ 90) ∨ (97 ≤ c.toNat ∧ c.toNat ≤ 122) ∨ c.toNat = 95 ∨
      c.toNat = 46 ∨ c.toNat = 45 := by
  apply nameChar_range
  unfold isNameChar at h
  simp only [Bool.or_eq_true, beq_iff_eq] at h
  rcases h with (h | h) | h
  · exact .inl h
  · exact .inr (.inl h)
  · exact .inr (.inr (.inl h))

theorem Kaldi.NameOk.noChar {n : Txt} (h : NameOk n) {x : Char} (hx : x.toNat < 45 ∨ 122 < x.toNat ∨ x.toNat = 60 ∨
    x.toNat = 62 ∨ x.toNat = 91 ∨ x.toNat = 93) : x ∉ n := by
  intro hc
  have := nameChar_range (h.2 x hc)
  omega

theorem Kaldi.NameOk.word {n : Txt} (h : NameOk n) : IsWord n := by
  refine ⟨h.1, fun c hc => not_white_of ?_⟩
  have := nameChar_range (h.2 c hc)
  omega

theorem Plain.word {n : Txt} (h : Plain n) : IsWord n := by
  refine ⟨h.1, fun c hc => not_white_of ?_⟩
  have := isNameChar_range (h.2 c hc)
  omega

theorem Plain.noChar {n : Txt} (h : Plain n) {x : Char} (hx : x.toNat < 45) : x ∉ n := by
  intro hc
  have := isNameChar_range (h.2 x hc)
  omega

theorem intText (k : Int) : ∃ d, Digits d ∧ ((toString k).toList = d ∨ (toString k).toList = '-' :: d) := by
  cases k with
  | ofNat n =>
    refine ⟨Nat.toDigits 10 n, ⟨Nat.toDigits_ne_nil, toDigits_digit⟩, .inl ?_⟩
    exact nat_toList n
  | negSucc n =>
    refine ⟨Nat.toDigits 10 (n + 1), ⟨Nat.toDigits_ne_nil, toDigits_digit⟩, .inr ?_⟩
    show (Int.repr (Int.negSucc n)).toList = _
    rw [← Nat.toList_repr]
    simp [Int.repr]

theorem isDig_of {c : Char} (h : 48 ≤ c.toNat ∧ c.toNat ≤ 57) : isDig c = true := by
  unfold isDig
  simp [h.1, h.2]

theorem dropMinus_digits {d : Txt} (h : Digits d) (r : Txt) : dropMinus (d ++ r) = d ++ r ∧ (d ++ r).head? ≠ some '-' := by
  cases d with
  | nil => exact absurd rfl h.1
  | cons c d =>
    have h1 := h.2 c (List.mem_cons_self ..)
    have h2 : c ≠ '-' := by intro e; subst e; revert h1; decide
    refine ⟨?_, by simpa using h2⟩
    rw [List.cons_append]
    unfold dropMinus
    split
    · rename_i e
      simp only [List.cons.injEq] at e
      exact absurd e.1 h2
    · rfl

theorem offsetMatch_offset {name : Txt} (k : Int) (s : Txt) (h : Plain name) :
    offsetMatch ("Offset(".toList ++ (name ++ (", ".toList ++ ((toString k).toList ++ [')']))) ++ s) =
      some (name, (toString k).toList, s) := by
  obtain ⟨d, hd, ht⟩ := intText k
  unfold offsetMatch
  rw [List.append_assoc, behind_ok]
  simp only
  have e1 : name ++ (", ".toList ++ ((toString k).toList ++ [')'])) ++ s =
      name ++ ',' :: (' ' :: ((toString k).toList ++ ')' :: s)) := by
    rw [show ", ".toList = [',', ' '] from rfl]
    simp
  rw [e1]
  have h1 := span_ok (p := isNameChar) (a := name) (r := ',' :: (' ' :: ((toString k).toList ++ ')' :: s))) h.2
    (by intro c hc; cases hc; decide)
  rw [h1.1, h1.2]
  simp only
  have hspan := span_ok (p := isDig) (a := d) (r := ')' :: s) (fun c hc => isDig_of (hd.2 c hc))
    (by intro c hc; cases hc; decide)
  rcases ht with ht | ht
  · have h2 : (' ' :: ((toString k).toList ++ ')' :: s)).dropWhile (· == ' ') = d ++ ')' :: s := by
      rw [ht]
      have := (span_ok (p := (· == ' ')) (a := [' ']) (r := d ++ ')' :: s) (by intro c hc; simp at hc; simp [hc]) (by
        intro c hc
        cases d with
        | nil => exact absurd rfl hd.1
        | cons x d =>
          cases hc
          have := hd.2 _ (List.mem_cons_self ..)
          simp only [beq_eq_false_iff_ne, ne_eq]
          intro e; subst e; revert this; decide)).2
      exact this
    rw [h2, (dropMinus_digits hd _).1, hspan.1, hspan.2]
    simp only
    rw [if_pos ⟨h.1, hd.1⟩, if_neg (dropMinus_digits hd _).2, ht]
  · have h2 : (' ' :: ((toString k).toList ++ ')' :: s)).dropWhile (· == ' ') = '-' :: (d ++ ')' :: s) := by
      rw [ht]
      rfl
    rw [h2, show dropMinus ('-' :: (d ++ ')' :: s)) = d ++ ')' :: s from rfl, hspan.1, hspan.2]
    simp only
    rw [if_pos ⟨h.1, hd.1⟩, if_pos (show ('-' :: (d ++ ')' :: s)).head? = some '-' from rfl), ht]

theorem offsetMatch_plain {name : Txt} (s : Txt) (h : Plain name) (hs : ∀ c ∈ s.head?, c = ',') :
    offsetMatch (name ++ s) = none := by
  unfold offsetMatch
  rw [behind_none (x := '(') (by decide) (h.noChar (by decide)) (by
    intro c hc
    rw [hs c hc]
    decide)]

/-- A part whose name can stand in `Append`. -/
def GoodPart (p : Part) : Prop := Plain p.name

theorem part_text_ne {p : Part} (h : GoodPart p) : p.text ≠ [] := by
  unfold Part.text
  split
  · exact h.1
  · simp

theorem fieldLen_part {p : Part} (h : GoodPart p) (s : Txt) (hs : ∀ c ∈ s.head?, c = ',') :
    fieldLen (p.text ++ s) = p.text.length := by
  unfold fieldLen Part.text
  cases hk : p.shift with
  | some k =>
    simp only
    rw [offsetMatch_offset k s h]
    simp only [List.length_append]
    omega
  | none =>
    simp only
    rw [offsetMatch_plain s h hs]
    simp only
    rw [(span_ok (p := isNameChar) (a := p.name) (r := s) h.2 (by
      intro c hc
      rw [hs c hc]
      decide)).1]

theorem fieldLen_sep {c : Char} (hc : isNameChar c = false) (hO : c ≠ 'O') (s : Txt) : fieldLen (c :: s) = 0 := by
  unfold fieldLen offsetMatch behind
  rw [if_neg (by
    rw [List.isPrefixOf_iff_prefix]
    intro h
    obtain ⟨z, hz⟩ := h
    rw [show "Offset(".toList = 'O' :: "ffset(".toList from rfl] at hz
    simp only [List.cons_append, List.cons.injEq] at hz
    exact hO hz.1.symm)]
  simp [hc]

theorem splitFields_token : ∀ (k : Nat) (t cur s : Txt), t.length = k + 1 →
    splitFieldsFrom cur (k + 1) (t ++ s) = (cur ++ t) :: splitFieldsFrom [] 0 s
  | _, [], _, _, h => by simp at h
  | 0, [c], cur, s, _ => by
    rw [List.singleton_append, splitFieldsFrom, if_pos rfl]
  | 0, c :: d :: t, cur, s, h => by simp at h
  | k + 1, [c], cur, s, h => by simp at h
  | k + 1, c :: d :: t, cur, s, h => by
    rw [List.cons_append, splitFieldsFrom, if_neg (by omega),
      splitFields_token k (d :: t) (cur ++ [c]) s (by simp only [List.length_cons] at h ⊢; omega)]
    simp

theorem splitFields_field {t : Txt} (cur s : Txt) (h0 : t ≠ []) (h : fieldLen (t ++ s) = t.length) :
    splitFieldsFrom cur 0 (t ++ s) = cur :: t :: splitFieldsFrom [] 0 s := by
  match t, h0, h with
  | [c], _, h =>
    rw [List.singleton_append, splitFieldsFrom]
    rw [List.singleton_append] at h
    have h : fieldLen (c :: s) = 1 := h
    rw [if_neg (by rw [h]; decide), if_pos h]
  | c :: d :: t, _, h =>
    rw [List.cons_append, splitFieldsFrom]
    rw [List.cons_append] at h
    rw [if_neg (by rw [h]; simp), if_neg (by rw [h]; simp), h]
    have := splitFields_token t.length (d :: t) [c] s (by simp)
    rw [show (c :: d :: t).length - 1 = t.length + 1 by simp, this]
    rfl

/-- What `re_split.split` gives. -/
def pieces : Txt → List Txt → List Txt
  | cur, [] => [cur]
  | cur, [t] => [cur, t, []]
  | cur, t :: ts => cur :: t :: pieces ", ".toList ts

theorem splitFields_commas : ∀ (ps : List Part) (cur : Txt), (∀ p ∈ ps, GoodPart p) →
    splitFieldsFrom cur 0 (commas (ps.map Part.text)) = pieces cur (ps.map Part.text)
  | [], cur, _ => rfl
  | [p], cur, h => by
    have hp := h p (List.mem_singleton.mpr rfl)
    have := splitFields_field cur [] (part_text_ne hp) (fieldLen_part hp [] (by intro c hc; cases hc))
    rw [List.append_nil] at this
    show splitFieldsFrom cur 0 p.text = _
    rw [this]
    rfl
  | p :: q :: ps, cur, h => by
    have hp := h p (List.mem_cons_self ..)
    have ih := splitFields_commas (q :: ps) ", ".toList (fun x hx => h x (List.mem_cons_of_mem _ hx))
    show splitFieldsFrom cur 0 (p.text ++ (", ".toList ++ commas ((q :: ps).map Part.text))) = _
    rw [splitFields_field cur _ (part_text_ne hp) (fieldLen_part hp _ (by intro c hc; cases hc; rfl))]
    have e : splitFieldsFrom [] 0 (", ".toList ++ commas ((q :: ps).map Part.text)) =
        splitFieldsFrom ", ".toList 0 (commas ((q :: ps).map Part.text)) := by
      show splitFieldsFrom [] 0 (',' :: ' ' :: commas ((q :: ps).map Part.text)) = _
      rw [splitFieldsFrom, if_pos (fieldLen_sep (by decide) (by decide) _), splitFieldsFrom,
        if_pos (fieldLen_sep (by decide) (by decide) _)]
      rfl
    rw [e, ih]
    rfl

theorem strip_between {a z : Char} (m : Txt) (ha : ¬ IsWhite a) (hz : ¬ IsWhite z) :
    strip (a :: (m ++ [z])) = a :: (m ++ [z]) := by
  apply strip_of_says
  refine ⟨[], [], by simp, Blank.nil, Blank.nil, by simp, ?_, ?_⟩
  · intro c hc
    rw [List.head?_cons, Option.mem_some_iff] at hc
    exact hc ▸ ha
  · intro c hc
    rw [← List.cons_append, List.getLast?_concat, Option.mem_some_iff] at hc
    exact hc ▸ hz

theorem strip_offset (name : Txt) (k : Int) :
    strip ("Offset(".toList ++ (name ++ (", ".toList ++ ((toString k).toList ++ [')'])))) =
      "Offset(".toList ++ (name ++ (", ".toList ++ ((toString k).toList ++ [')']))) := by
  have := strip_between (a := 'O') (z := ')') ("ffset(".toList ++ (name ++ (", ".toList ++ (toString k).toList)))
    (not_white_of (by decide)) (not_white_of (by decide))
  rw [show "Offset(".toList ++ (name ++ (", ".toList ++ ((toString k).toList ++ [')']))) =
    'O' :: ("ffset(".toList ++ (name ++ (", ".toList ++ (toString k).toList)) ++ [')']) by
      rw [show "Offset(".toList = 'O' :: "ffset(".toList from rfl]; simp only [List.cons_append, List.append_assoc]]
  exact this

theorem spliceField_part {prev : Txt} (idx : List Int) {p : Part} (h : GoodPart p) :
    spliceField prev idx p.text =
      if p.name = prev then .ok (idx ++ [p.shift.getD 0]) else .error .throw := by
  unfold spliceField Part.text
  cases hk : p.shift with
  | some k =>
    simp only
    have hm := offsetMatch_offset k [] h
    rw [List.append_nil] at hm
    rw [strip_offset, hm]
    simp only
    rw [(pyInt_int k).2]
    rfl
  | none =>
    simp only
    have hm := offsetMatch_plain (name := p.name) [] h (by intro c hc; cases hc)
    rw [List.append_nil] at hm
    rw [strip_of_word h.word, hm]
    simp only
    rw [if_neg (by
      rintro (e | e)
      · exact h.noChar (x := ',') (by decide) (by rw [e]; decide)
      · exact h.1 e)]
    rfl

theorem spliceField_sep (prev : Txt) (idx : List Int) :
    spliceField prev idx [] = .ok idx ∧ spliceField prev idx ", ".toList = .ok idx := by
  constructor
  · unfold spliceField
    rw [show strip [] = [] from rfl, show offsetMatch [] = none by decide]
    simp
  · unfold spliceField
    rw [show strip ", ".toList = [','] by decide, show offsetMatch [','] = none by decide]
    simp

theorem spliceFields_ok {prev : Txt} : ∀ (ps : List Part) (cur : Txt) (idx : List Int), (∀ p ∈ ps, GoodPart p) →
    (∀ idx, spliceField prev idx cur = .ok idx) →
    (pieces cur (ps.map Part.text)).foldlM (spliceField prev) idx =
      if ∀ p ∈ ps, p.name = prev then .ok (idx ++ ps.map fun p => p.shift.getD 0) else .error .throw
  | [], cur, idx, _, hc => by
    show [cur].foldlM (spliceField prev) idx = _
    rw [List.foldlM_cons, hc, ok_bind]
    simp [List.foldlM]
    rfl
  | [p], cur, idx, h, hc => by
    show [cur, p.text, []].foldlM (spliceField prev) idx = _
    rw [List.foldlM_cons, hc, ok_bind, List.foldlM_cons, spliceField_part idx (h p (List.mem_singleton.mpr rfl))]
    by_cases e : p.name = prev
    · rw [if_pos e, ok_bind, List.foldlM_cons, (spliceField_sep prev _).1, ok_bind, if_pos (by
        intro q hq
        rw [List.mem_singleton.mp hq]
        exact e)]
      rfl
    · rw [if_neg e, if_neg (fun hh => e (hh p (List.mem_singleton.mpr rfl)))]
      rfl
  | p :: q :: ps, cur, idx, h, hc => by
    show (cur :: p.text :: pieces ", ".toList ((q :: ps).map Part.text)).foldlM (spliceField prev) idx = _
    rw [List.foldlM_cons, hc, ok_bind, List.foldlM_cons, spliceField_part idx (h p (List.mem_cons_self ..))]
    by_cases e : p.name = prev
    · rw [if_pos e, ok_bind, spliceFields_ok (q :: ps) _ _ (fun x hx => h x (List.mem_cons_of_mem _ hx))
        (fun idx => (spliceField_sep prev idx).2)]
      by_cases e2 : ∀ x ∈ q :: ps, x.name = prev
      · rw [if_pos e2, if_pos (by
          intro x hx
          rcases List.mem_cons.mp hx with rfl | hx
          · exact e
          · exact e2 x hx)]
        simp
      · rw [if_neg e2, if_neg (fun hh => e2 fun x hx => hh x (List.mem_cons_of_mem _ hx))]
    · rw [if_neg e, if_neg (fun hh => e (hh p (List.mem_cons_self ..)))]
      rfl

end Verif.Tool
