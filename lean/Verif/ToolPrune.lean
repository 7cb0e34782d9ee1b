import Verif.ToolLemmas

/-!
# Lemmas about `tool/prune_lm.py` and the reader of its output
-/

namespace Verif.Tool

open Verif

variable {R : Type}

theorem tData_eq : "\\data\\".toList = tData := by decide
theorem tOne_eq : "\\1-grams:".toList = tOne := by decide
theorem tEnd_eq : "\\end\\".toList = tEnd := by decide
theorem tIarpa_eq : "iARPA".toList = tIarpa := by decide
theorem tCount1_eq : "ngram 1".toList = tCount1 := by decide

/-- The loop of the reader. -/
abbrev rd (num : Num R) (acc : St × List (Txt × R)) (lines : List Txt) : Exec (St × List (Txt × R)) :=
  lines.foldlM (unigramLine num) acc

theorem rd_cons (num : Num R) (acc : St × List (Txt × R)) (l : Txt) (ls : List Txt) :
    rd num acc (l :: ls) = (unigramLine num acc l >>= fun acc => rd num acc ls) := List.foldlM_cons

theorem rd_append (num : Num R) (acc : St × List (Txt × R)) (a b : List Txt) :
    rd num acc (a ++ b) = (rd num acc a >>= fun acc => rd num acc b) := List.foldlM_append

theorem pruneFrom_cons_ok {s s2 : St} {l : Txt} {ls out : List Txt} (h : pruneFrom s (l :: ls) = .ok (s2, out)) :
    ∃ s1 o r, pruneLine s l = .ok (s1, o) ∧ pruneFrom s1 ls = .ok (s2, r) ∧ out = o ++ r := by
  unfold pruneFrom at h
  cases h1 : pruneLine s l with
  | error e => rw [h1] at h; cases h
  | ok p =>
    rw [h1, ok_bind] at h
    obtain ⟨s1, o⟩ := p
    simp only at h
    cases h2 : pruneFrom s1 ls with
    | error e => rw [h2] at h; cases h
    | ok q =>
      rw [h2, ok_bind] at h
      obtain ⟨s3, r⟩ := q
      cases h
      exact ⟨s1, o, r, rfl, h2, rfl⟩

theorem pruneFrom_step {s s1 s2 : St} {l : Txt} {ls o r : List Txt} (h1 : pruneLine s l = .ok (s1, o))
    (h2 : pruneFrom s1 ls = .ok (s2, r)) : pruneFrom s (l :: ls) = .ok (s2, o ++ r) := by
  unfold pruneFrom
  rw [h1, ok_bind]
  simp only
  rw [h2, ok_bind]

theorem pruneFrom_append {s s1 s2 : St} {b r : List Txt} : ∀ {a o : List Txt}, pruneFrom s a = .ok (s1, o) →
    pruneFrom s1 b = .ok (s2, r) → pruneFrom s (a ++ b) = .ok (s2, o ++ r)
  | [], o, h1, h2 => by cases h1; exact h2
  | l :: a, o, h1, h2 => by
    obtain ⟨s', o', r', k1, k2, rfl⟩ := pruneFrom_cons_ok h1
    rw [List.cons_append, List.append_assoc]
    exact pruneFrom_step k1 (pruneFrom_append k2 h2)

theorem rd_fin (num : Num R) (d : List (Txt × R)) : ∀ ls, rd num (.fin, d) ls = .ok (.fin, d)
  | [] => rfl
  | l :: ls => by rw [rd_cons]; exact rd_fin num d ls

theorem prune_fin : ∀ ls, pruneFrom .fin ls = .ok (.fin, [])
  | [] => rfl
  | _ :: ls => pruneFrom_step (o := []) (r := []) rfl (prune_fin ls)

theorem unigram_end (num : Num R) (d : List (Txt × R)) {l : Txt} (h : strip l = tEnd) :
    unigramLine num (.unigram, d) l = .ok (.fin, d) := by
  unfold unigramLine
  simp only
  rw [if_neg (by rw [h]; decide), if_pos h]

theorem sim_ngram (num : Num R) (d : List (Txt × R)) : ∀ (ls : List Txt) {out : List Txt},
    pruneFrom .ngram ls = .ok (.fin, out) →
    rd num (.unigram, d) out = .ok (.fin, d) ∧ rd num (.ngram, d) ls = .ok (.fin, d)
  | [], out, h => by cases h
  | l :: ls, out, h => by
    obtain ⟨s1, o, r, h1, h2, rfl⟩ := pruneFrom_cons_ok h
    unfold pruneLine at h1
    simp only at h1
    rw [rd_cons]
    split at h1
    · rename_i he
      cases h1
      rw [prune_fin] at h2
      cases h2
      refine ⟨?_, ?_⟩
      · rw [List.append_nil, rd_cons, unigram_end num d (by rw [strip_strip, he]), ok_bind]
        rfl
      · have : unigramLine num (.ngram, d) l = .ok (.fin, d) := by
          unfold unigramLine; simp only; rw [if_pos he]
        rw [this, ok_bind]
        exact rd_fin num d ls
    · rename_i he
      cases h1
      obtain ⟨k1, k2⟩ := sim_ngram num d ls h2
      have : unigramLine num (.ngram, d) l = .ok (.ngram, d) := by
        unfold unigramLine; simp only; rw [if_neg he]
      rw [this, ok_bind]
      exact ⟨k1, k2⟩

/-- A line of two words. -/
theorem reads_two {a b : Txt} (ha : IsWord a) (hb : IsWord b) : Reads (a ++ [' '] ++ b) [a, b] := by
  have hb' := Reads.cons (s := [' ']) (rest := []) (by intro c h; rw [List.mem_singleton.mp h]; decide) hb
    (by intro c h; cases h) (.nil Blank.nil)
  have := Reads.cons (s := []) (rest := [' '] ++ b ++ []) Blank.nil ha (by intro c h; cases h; decide) hb'
  simpa using this

theorem strip_two {a b : Txt} (ha : IsWord a) (hb : IsWord b) : strip (a ++ [' '] ++ b) = a ++ [' '] ++ b := by
  apply strip_of_says
  refine ⟨[], [], by simp, Blank.nil, Blank.nil, by simp, ?_, ?_⟩
  · intro c h
    cases a with
    | nil => exact absurd rfl ha.1
    | cons x a => cases h; exact ha.2 _ List.mem_cons_self
  · intro c h
    have hn := hb.1
    rw [List.getLast?_append] at h
    cases hg : b.getLast? with
    | none => exact absurd (List.getLast?_eq_none_iff.mp hg) hn
    | some x =>
      rw [hg] at h
      cases h
      exact hb.2 _ (List.mem_of_getLast? hg)

/-- What the reader does with a line of words. -/
theorem unigram_entry (num : Num R) (d : List (Txt × R)) {l a b : Txt} {ws : List Txt}
    (hf : fields (strip l) = a :: b :: ws) (hws : ws.length ≤ 1) (ha : a.head? ≠ some '\\') :
    unigramLine num (.unigram, d) l =
      match num.parse a with
      | some c => .ok (.unigram, dictSet d b c)
      | none => .error .throw := by
  have hh := strip_head hf
  unfold unigramLine
  simp only
  rw [if_neg (by intro e; rw [e] at hf; cases hf),
    if_neg (by intro e; rw [e] at hh; exact ha hh.symm), if_neg (by rw [hh]; exact ha), hf]
  match ws, hws with
  | [], _ => rfl
  | [x], _ => rfl

theorem unigram_blank (num : Num R) (d : List (Txt × R)) {l : Txt} (h : strip l = []) :
    unigramLine num (.unigram, d) l = .ok (.unigram, d) := by
  unfold unigramLine; simp only; rw [if_pos h]

theorem sim_entry (num : Num R) (d : List (Txt × R)) {l a b : Txt} {ws : List Txt} (hh : (strip l).head? ≠ some '\\')
    (hf : fields (strip l) = a :: b :: ws) (hws : ws.length ≤ 1) :
    unigramLine num (.unigram, d) (a ++ [' '] ++ b) = unigramLine num (.unigram, d) l := by
  have hw := (reads_fields (strip l)).words
  rw [hf] at hw
  have wa := hw a List.mem_cons_self
  have wb := hw b (List.mem_cons_of_mem _ List.mem_cons_self)
  have ha : a.head? ≠ some '\\' := by rw [← strip_head hf]; exact hh
  rw [unigram_entry num d hf hws ha, unigram_entry (ws := []) num d ?_ (by simp) ha]
  rw [strip_two wa wb]
  exact fields_of_reads (reads_two wa wb)

theorem sim_unigram (num : Num R) : ∀ (ls : List Txt) (d : List (Txt × R)) {out : List Txt},
    pruneFrom .unigram ls = .ok (.fin, out) → rd num (.unigram, d) out = rd num (.unigram, d) ls
  | [], d, out, h => by cases h
  | l :: ls, d, out, h => by
    obtain ⟨s1, o, r, h1, h2, rfl⟩ := pruneFrom_cons_ok h
    have entry : ∀ {a b : Txt} {ws : List Txt}, (strip l).head? ≠ some '\\' → fields (strip l) = a :: b :: ws →
        ws.length ≤ 1 → pruneFrom .unigram ls = .ok (.fin, r) →
        rd num (.unigram, d) ([a ++ [' '] ++ b] ++ r) = rd num (.unigram, d) (l :: ls) := by
      intro a b ws hh hf hws h2
      rw [List.singleton_append, rd_cons, rd_cons, sim_entry num d hh hf hws]
      have ha : a.head? ≠ some '\\' := by rw [← strip_head hf]; exact hh
      rw [unigram_entry num d hf hws ha]
      cases num.parse a with
      | none => rfl
      | some c => exact sim_unigram num ls _ h2
    unfold pruneLine at h1
    simp only at h1
    split at h1
    · rename_i he
      cases h1
      rw [List.singleton_append, rd_cons, rd_cons, unigram_blank num d he, unigram_blank num d (by rw [strip_strip, he]),
        ok_bind, ok_bind]
      exact sim_unigram num ls d h2
    · rename_i he
      split at h1
      · rename_i hb
        cases h1
        obtain ⟨k1, k2⟩ := sim_ngram num d ls h2
        rw [List.nil_append, k1, rd_cons]
        by_cases hend : strip l = tEnd
        · rw [unigram_end num d hend, ok_bind, rd_fin]
        · have : unigramLine num (.unigram, d) l = .ok (.ngram, d) := by
            unfold unigramLine; simp only; rw [if_neg he, if_neg hend, if_pos hb]
          rw [this, ok_bind, k2]
      · rename_i hb
        split at h1
        · rename_i a b hf
          cases h1
          exact entry hb hf (by simp) h2
        · rename_i a b x hf
          cases h1
          exact entry hb hf (by simp) h2
        · cases h1

theorem sim_data (num : Num R) (d : List (Txt × R)) : ∀ (ls : List Txt) {out : List Txt},
    pruneFrom .data ls = .ok (.fin, out) → rd num (.data, d) out = rd num (.data, d) ls
  | [], out, h => by cases h
  | l :: ls, out, h => by
    obtain ⟨s1, o, r, h1, h2, rfl⟩ := pruneFrom_cons_ok h
    have same : unigramLine num (.data, d) (strip l) = unigramLine num (.data, d) l := by
      unfold unigramLine; simp only [strip_strip]
    unfold pruneLine at h1
    simp only at h1
    rw [rd_cons]
    split at h1
    · rename_i he
      cases h1
      rw [List.singleton_append, rd_cons, same]
      have : unigramLine num (.data, d) l = .ok (.data, d) := by unfold unigramLine; simp only; rw [if_pos he]
      rw [this, ok_bind, ok_bind]
      exact sim_data num d ls h2
    · rename_i he
      split at h1
      · rename_i hl
        have : unigramLine num (.data, d) l = .ok (.data, d) := by
          unfold unigramLine; simp only; rw [if_neg he, if_pos hl]
        split at h1
        · cases h1
          rw [List.singleton_append, rd_cons, same, this, ok_bind, ok_bind]
          exact sim_data num d ls h2
        · cases h1
          rw [List.nil_append, this, ok_bind]
          exact sim_data num d ls h2
      · rename_i hl
        split at h1
        · rename_i ho
          cases h1
          have : unigramLine num (.data, d) l = .ok (.unigram, d) := by
            unfold unigramLine; simp only; rw [if_neg he, if_neg hl, if_pos ho]
          rw [List.singleton_append, rd_cons, same, this, ok_bind, ok_bind]
          exact sim_unigram num ls d h2
        · cases h1

theorem sim_begin (num : Num R) : ∀ (ls : List Txt) {out : List Txt}, pruneFrom .begin ls = .ok (.fin, out) →
    ∃ marks d rest, ls = marks ++ d :: rest ∧ (∀ l ∈ marks, Blank l ∨ Says l "iARPA".toList) ∧
      Says d "\\data\\".toList ∧ rd num (.begin, []) out = rd num (.begin, []) (d :: rest)
  | [], out, h => by cases h
  | l :: ls, out, h => by
    obtain ⟨s1, o, r, h1, h2, rfl⟩ := pruneFrom_cons_ok h
    have skip : (Blank l ∨ Says l "iARPA".toList) → pruneFrom .begin ls = .ok (.fin, r) →
        ∃ marks d rest, l :: ls = marks ++ d :: rest ∧ (∀ l ∈ marks, Blank l ∨ Says l "iARPA".toList) ∧
          Says d "\\data\\".toList ∧ rd num (.begin, []) r = rd num (.begin, []) (d :: rest) := by
      intro hl h2
      obtain ⟨marks, d, rest, e, k1, k2, k3⟩ := sim_begin num ls h2
      refine ⟨l :: marks, d, rest, by rw [e]; rfl, ?_, k2, k3⟩
      intro x hx
      rcases List.mem_cons.mp hx with hx | hx
      · exact hx ▸ hl
      · exact k1 x hx
    unfold pruneLine at h1
    simp only at h1
    split at h1
    · rename_i he
      cases h1
      exact skip (.inl (blank_of_strip he)) h2
    · split at h1
      · rename_i he
        cases h1
        exact skip (.inr (by rw [tIarpa_eq]; exact (strip_eq_iff (by decide)).mp he)) h2
      · split at h1
        · rename_i hn _ he
          cases h1
          refine ⟨[], l, ls, rfl, (by intro x h; cases h), by rw [tData_eq]; exact (strip_eq_iff (by decide)).mp he, ?_⟩
          have h1 : unigramLine num (.begin, []) l = .ok (.data, []) := by
            unfold unigramLine; simp only; rw [if_neg hn, if_pos he]
          have h3 : unigramLine num (.begin, []) (strip l) = .ok (.data, []) := by
            rw [← h1]; unfold unigramLine; simp only [strip_strip]
          rw [List.singleton_append, rd_cons, rd_cons, h1, h3, ok_bind, ok_bind]
          exact sim_data num [] ls h2
        · cases h1

/-! ## The parts of a file in order -/

theorem prune_marks : ∀ {ls : List Txt}, (∀ l ∈ ls, Blank l ∨ Says l "iARPA".toList) →
    pruneFrom .begin ls = .ok (.begin, [])
  | [], _ => rfl
  | l :: ls, h => by
    refine pruneFrom_step (o := []) (r := []) ?_ (prune_marks fun x hx => h x (List.mem_cons_of_mem _ hx))
    unfold pruneLine
    simp only
    by_cases he : strip l = []
    · rw [if_pos he]
    · rw [if_neg he]
      rcases h l List.mem_cons_self with hl | hl
      · exact absurd (strip_of_blank hl) he
      · rw [if_pos (by rw [strip_of_says hl]; decide)]

theorem strip_blank_append {p : Txt} (hp : Blank p) (m : Txt) : strip (p ++ m) = strip m := by
  unfold strip; rw [dropWhile_blank hp]

theorem eq_mem_blank {p : Txt} (hp : Blank p) : '=' ∉ p := fun h => not_white_of (c := '=') (by decide) (hp _ h)

theorem first_eq : ∀ {a a' b b' : Txt}, a ++ '=' :: b = a' ++ '=' :: b' → '=' ∉ a → '=' ∉ a' → a = a'
  | [], [], _, _, _, _, _ => rfl
  | [], x :: a', _, _, e, _, h => by
    cases e; exact absurd List.mem_cons_self h
  | x :: a, [], _, _, e, h, _ => by
    cases e; exact absurd List.mem_cons_self h
  | x :: a, y :: a', b, b', e, h, h' => by
    rw [List.cons_append, List.cons_append, List.cons.injEq] at e
    rw [e.1, first_eq e.2 (fun k => h (List.mem_cons_of_mem _ k)) (fun k => h' (List.mem_cons_of_mem _ k))]

/-- A line with one `=`: what is kept of it, and when it is about words. -/
theorem count_line {l : Txt} (h : IsCount l) : strip l ≠ [] ∧ (splitAt '=' (strip l)).length = 2 ∧
    ((splitAt '=' (strip l)).head?.map strip = some tCount1 ↔ IsCount1 l) ∧ (IsCount1 l → IsCount1 (strip l)) := by
  have hc : (strip l).count '=' = 1 := by rw [count_strip]; exact h
  have hm : '=' ∈ strip l := List.count_pos_iff.mp (by omega)
  obtain ⟨a, b, e, ha⟩ := List.eq_append_cons_of_mem hm
  have hb : '=' ∉ b := by
    intro hb
    have := List.count_pos_iff.mpr hb
    rw [e, List.count_append, List.count_cons_self] at hc
    omega
  obtain ⟨p, q, el, hp, hq, -, -⟩ := strip_spec l
  have hl : l = (p ++ a) ++ '=' :: (b ++ q) := by
    conv => lhs; rw [el, e]
    simp
  have hpa : '=' ∉ p ++ a := by
    intro h
    rcases List.mem_append.mp h with h | h
    · exact eq_mem_blank hp h
    · exact ha h
  have hbq : '=' ∉ b ++ q := by
    intro h
    rcases List.mem_append.mp h with h | h
    · exact hb h
    · exact eq_mem_blank hq h
  have key : IsCount1 l ↔ strip a = tCount1 := by
    rw [← strip_blank_append hp a]
    constructor
    · rintro ⟨x, y, exy, hx, hy, hs⟩
      have := first_eq (hl.symm.trans exy) hpa hx
      rw [this, strip_of_says hs, tCount1_eq]
    · intro h
      exact ⟨p ++ a, b ++ q, hl, hpa, hbq, by rw [tCount1_eq]; exact (strip_eq_iff (by decide)).mp h⟩
  refine ⟨(by intro h; rw [h] at hm; cases hm), (by rw [splitAt_length, hc]), ?_, ?_⟩
  · rw [key]
    conv => lhs; rw [e]
    unfold splitAt
    rw [splitFrom_head _ _ _ _ ha]
    simp
  · intro h
    exact ⟨a, b, e, ha, hb, by rw [tCount1_eq]; exact (strip_eq_iff (by decide)).mp (key.mp h)⟩

/-- The counts that are kept. -/
theorem prune_counts : ∀ {ls : List Txt}, (∀ l ∈ ls, Blank l ∨ IsCount l) →
    ∃ out, pruneFrom .data ls = .ok (.data, out) ∧ (∀ l ∈ out, Blank l ∨ IsCount1 l) ∧
      ∀ l ∈ ls, IsCount1 l → ∃ l' ∈ out, Says l l'
  | [], _ => ⟨[], rfl, (by intro l h; cases h), by intro l h; cases h⟩
  | l :: ls, h => by
    obtain ⟨out, h1, h2, h3⟩ := prune_counts fun x hx => h x (List.mem_cons_of_mem _ hx)
    by_cases hb : strip l = []
    · have hl : pruneLine .data l = .ok (.data, [strip l]) := by unfold pruneLine; simp only; rw [if_pos hb]
      refine ⟨_, pruneFrom_step hl h1, ?_, ?_⟩
      · intro x hx
        rcases List.mem_append.mp hx with hx | hx
        · rw [List.mem_singleton.mp hx, hb]; exact .inl Blank.nil
        · exact h2 x hx
      · intro x hx hx1
        rcases List.mem_cons.mp hx with hx | hx
        · subst hx
          obtain ⟨a, b, e, -⟩ := hx1
          exact absurd (blank_of_strip hb '=' (by rw [e]; simp)) (not_white_of (by decide))
        · obtain ⟨l', k1, k2⟩ := h3 x hx hx1
          exact ⟨l', List.mem_append_right _ k1, k2⟩
    · have hc : IsCount l := by
        rcases h l List.mem_cons_self with hl | hl
        · exact absurd (strip_of_blank hl) hb
        · exact hl
      obtain ⟨-, c2, c3, c4⟩ := count_line hc
      by_cases h1c : IsCount1 l
      · have hl : pruneLine .data l = .ok (.data, [strip l]) := by
          unfold pruneLine; simp only; rw [if_neg hb, if_pos c2, if_pos (c3.mpr h1c)]
        refine ⟨_, pruneFrom_step hl h1, ?_, ?_⟩
        · intro x hx
          rcases List.mem_append.mp hx with hx | hx
          · rw [List.mem_singleton.mp hx]; exact .inr (c4 h1c)
          · exact h2 x hx
        · intro x hx hx1
          rcases List.mem_cons.mp hx with hx | hx
          · subst hx; exact ⟨_, List.mem_append_left _ List.mem_cons_self, strip_says hb⟩
          · obtain ⟨l', k1, k2⟩ := h3 x hx hx1
            exact ⟨l', List.mem_append_right _ k1, k2⟩
      · have hl : pruneLine .data l = .ok (.data, []) := by
          unfold pruneLine; simp only; rw [if_neg hb, if_pos c2, if_neg (fun k => h1c (c3.mp k))]
        refine ⟨_, pruneFrom_step hl h1, h2, ?_⟩
        intro x hx hx1
        rcases List.mem_cons.mp hx with hx | hx
        · subst hx; exact absurd hx1 h1c
        · exact h3 x hx hx1

theorem isCount_of_one {l : Txt} (h : IsCount1 l) : IsCount l := by
  obtain ⟨a, b, e, ha, hb, -⟩ := h
  unfold IsCount
  rw [e, List.count_append, List.count_cons_self, List.count_eq_zero.mpr ha, List.count_eq_zero.mpr hb]

theorem says_strip {l m : Txt} (h : Says l m) : Says m m := by
  obtain ⟨a, b, _, _, _, h1, h2, h3⟩ := h
  exact ⟨[], [], by simp, Blank.nil, Blank.nil, h1, h2, h3⟩

/-- The fields of a line of words. -/
theorem entry_fields {l p w : Txt} (h : IsEntry l p w) : ∃ ws, ws.length ≤ 1 ∧ fields (strip l) = p :: w :: ws := by
  rw [fields_strip]
  rcases h.2 with h | ⟨b, h⟩
  · exact ⟨[], by simp, fields_of_reads h⟩
  · exact ⟨[b], by simp, fields_of_reads h⟩

theorem prune_section {ls : List Txt} {es : List (Txt × Txt)} (h : Section1 ls es) :
    ∃ out, pruneFrom .unigram ls = .ok (.unigram, out) ∧ Section1 out es := by
  induction h with
  | nil => exact ⟨[], rfl, .nil⟩
  | blank hl _ ih =>
    rename_i l ls es _
    obtain ⟨out, h1, h2⟩ := ih
    have hb := strip_of_blank hl
    have hl : pruneLine .unigram l = .ok (.unigram, [strip l]) := by unfold pruneLine; simp only; rw [if_pos hb]
    exact ⟨_, pruneFrom_step hl h1, .blank (by rw [hb]; exact Blank.nil) h2⟩
  | entry hl _ ih =>
    rename_i l p w ls es _
    obtain ⟨out, h1, h2⟩ := ih
    obtain ⟨ws, hws, hf⟩ := entry_fields hl
    have hw := (reads_fields (strip l)).words
    rw [hf] at hw
    have wp := hw p List.mem_cons_self
    have ww := hw w (List.mem_cons_of_mem _ List.mem_cons_self)
    have hb : strip l ≠ [] := by intro e; rw [e] at hf; cases hf
    have hh : (strip l).head? ≠ some '\\' := by rw [strip_head hf]; exact hl.1
    have hl' : pruneLine .unigram l = .ok (.unigram, [p ++ [' '] ++ w]) := by
      unfold pruneLine; simp only; rw [if_neg hb, if_neg hh, hf]
      match ws, hws with
      | [], _ => rfl
      | [_], _ => rfl
    exact ⟨_, pruneFrom_step hl' h1, .entry ⟨hl.1, .inl (reads_two wp ww)⟩ h2⟩

theorem prune_head {counts : List Txt} {es : List (Txt × Txt)} {hd : List Txt} (h : Head counts es hd) :
    ∃ counts' out, pruneFrom .begin hd = .ok (.unigram, out) ∧ Head counts' es out ∧
      (∀ l ∈ counts', Blank l ∨ IsCount1 l) ∧ ∀ l ∈ counts, IsCount1 l → ∃ l' ∈ counts', Says l l' := by
  obtain ⟨d, o, sect, rfl, hd, hc, ho, hs⟩ := h
  obtain ⟨counts', c1, c2, c3⟩ := prune_counts hc
  obtain ⟨sect', s1, s2⟩ := prune_section hs
  have ed := strip_of_says hd
  have eo := strip_of_says ho
  rw [tData_eq] at ed hd
  rw [tOne_eq] at eo ho
  have hd' : pruneLine .begin d = .ok (.data, [strip d]) := by
    unfold pruneLine; simp only; rw [if_neg (by rw [ed]; decide), if_neg (by rw [ed]; decide), if_pos ed]
  have ho' : pruneLine .data o = .ok (.unigram, [strip o]) := by
    unfold pruneLine; simp only; rw [if_neg (by rw [eo]; decide), if_neg (by rw [eo]; decide), if_pos eo]
  refine ⟨counts', _, pruneFrom_step hd' (pruneFrom_append c1 (pruneFrom_step ho' s1)), ?_, c2, c3⟩
  refine ⟨strip d, strip o, sect', rfl, ?_, ?_, ?_, s2⟩
  · rw [ed, tData_eq]; exact says_strip hd
  · intro l hl
    rcases c2 l hl with h | h
    · exact .inl h
    · exact .inr (isCount_of_one h)
  · rw [eo, tOne_eq]; exact says_strip ho

theorem prune_ngram : ∀ (mid : List Txt) {e : Txt} (tail : List Txt), strip e = tEnd →
    pruneFrom .ngram (mid ++ e :: tail) = .ok (.fin, [tEnd])
  | [], e, tail, he => by
    have : pruneLine .ngram e = .ok (.fin, [tEnd]) := by unfold pruneLine; simp only; rw [if_pos he, he]
    exact pruneFrom_step this (prune_fin tail)
  | l :: mid, e, tail, he => by
    by_cases hl : strip l = tEnd
    · have : pruneLine .ngram l = .ok (.fin, [tEnd]) := by unfold pruneLine; simp only; rw [if_pos hl, hl]
      exact pruneFrom_step this (prune_fin _)
    · have : pruneLine .ngram l = .ok (.ngram, []) := by unfold pruneLine; simp only; rw [if_neg hl]
      exact pruneFrom_step this (prune_ngram mid tail he)

theorem prune_ngram_open : ∀ {tail : List Txt}, (∀ l ∈ tail, ¬ Says l "\\end\\".toList) →
    pruneFrom .ngram tail = .ok (.ngram, [])
  | [], _ => rfl
  | l :: tail, h => by
    have hl : strip l ≠ tEnd := fun e => h l List.mem_cons_self (by
      rw [tEnd_eq]; exact (strip_eq_iff (by decide)).mp e)
    have : pruneLine .ngram l = .ok (.ngram, []) := by unfold pruneLine; simp only; rw [if_neg hl]
    exact pruneFrom_step this (prune_ngram_open fun x hx => h x (List.mem_cons_of_mem _ hx))

/-! ## The reader on the parts -/

theorem rd_counts (num : Num R) (d : List (Txt × R)) : ∀ {ls : List Txt}, (∀ l ∈ ls, Blank l ∨ IsCount l) →
    rd num (.data, d) ls = .ok (.data, d)
  | [], _ => rfl
  | l :: ls, h => by
    have : unigramLine num (.data, d) l = .ok (.data, d) := by
      unfold unigramLine
      simp only
      by_cases hb : strip l = []
      · rw [if_pos hb]
      · rw [if_neg hb]
        rcases h l List.mem_cons_self with hl | hl
        · exact absurd (strip_of_blank hl) hb
        · rw [if_pos (count_line hl).2.1]
    rw [rd_cons, this, ok_bind]
    exact rd_counts num d fun x hx => h x (List.mem_cons_of_mem _ hx)

/-- The dictionary after setting the pairs in order. -/
def dictAll {α β : Type} [DecidableEq α] (d : List (α × β)) (vs : List (α × β)) : List (α × β) :=
  vs.foldl (fun d p => dictSet d p.1 p.2) d

theorem rd_section (num : Num R) {ls : List Txt} {es : List (Txt × Txt)} (h : Section1 ls es) :
    ∀ {vs : List (Txt × R)} (d : List (Txt × R)), Valued num.parse es vs →
      rd num (.unigram, d) ls = .ok (.unigram, dictAll d vs) := by
  induction h with
  | nil => intro vs d hv; cases hv; rfl
  | blank hl _ ih =>
    intro vs d hv
    rw [rd_cons, unigram_blank num d (strip_of_blank hl), ok_bind]
    exact ih d hv
  | entry hl _ ih =>
    intro vs d hv
    cases hv with
    | cons hp hv =>
      obtain ⟨ws, hws, hf⟩ := entry_fields hl
      rw [rd_cons, unigram_entry num d hf hws hl.1, hp]
      exact ih _ hv

theorem rd_head (num : Num R) {counts : List Txt} {es : List (Txt × Txt)} {hd : List Txt} (h : Head counts es hd)
    {vs : List (Txt × R)} (hv : Valued num.parse es vs) :
    rd num (.begin, []) hd = .ok (.unigram, dictAll [] vs) := by
  obtain ⟨d, o, sect, rfl, hd, hc, ho, hs⟩ := h
  have ed := strip_of_says hd
  have eo := strip_of_says ho
  rw [tData_eq] at ed
  rw [tOne_eq] at eo
  have hd' : unigramLine num (.begin, []) d = .ok (.data, []) := by
    unfold unigramLine; simp only; rw [if_neg (by rw [ed]; decide), if_pos ed]
  have ho' : unigramLine num (.data, []) o = .ok (.unigram, []) := by
    unfold unigramLine; simp only; rw [if_neg (by rw [eo]; decide), if_neg (by rw [eo]; decide), if_pos eo]
  rw [rd_cons, hd', ok_bind, rd_append, rd_counts num [] hc, ok_bind, rd_cons, ho', ok_bind]
  exact rd_section num hs [] hv

theorem rd_ngram (num : Num R) (d : List (Txt × R)) : ∀ (mid : List Txt) {e : Txt} (tail : List Txt), strip e = tEnd →
    rd num (.ngram, d) (mid ++ e :: tail) = .ok (.fin, d)
  | [], e, tail, he => by
    have : unigramLine num (.ngram, d) e = .ok (.fin, d) := by unfold unigramLine; simp only; rw [if_pos he]
    rw [List.nil_append, rd_cons, this, ok_bind, rd_fin]
  | l :: mid, e, tail, he => by
    rw [List.cons_append, rd_cons]
    by_cases hl : strip l = tEnd
    · have : unigramLine num (.ngram, d) l = .ok (.fin, d) := by unfold unigramLine; simp only; rw [if_pos hl]
      rw [this, ok_bind, rd_fin]
    · have : unigramLine num (.ngram, d) l = .ok (.ngram, d) := by unfold unigramLine; simp only; rw [if_neg hl]
      rw [this, ok_bind]
      exact rd_ngram num d mid tail he

theorem readUnigram_arpa1 (num : Num R) {counts : List Txt} {es : List (Txt × Txt)} {tail lines : List Txt}
    (h : Arpa1 counts es tail lines) {vs : List (Txt × R)} (hv : Valued num.parse es vs) :
    readUnigram num lines = .ok (dictAll [] vs) := by
  obtain ⟨hd, e, rfl, h, he⟩ := h
  have ee := strip_of_says he
  rw [tEnd_eq] at ee
  unfold readUnigram
  show (rd num (.begin, []) (hd ++ e :: tail) >>= _) = _
  rw [rd_append, rd_head num h hv, ok_bind, rd_cons, unigram_end num _ ee, ok_bind, rd_fin, ok_bind]
  rfl

theorem readUnigram_arpaN (num : Num R) {counts : List Txt} {es : List (Txt × Txt)} {lines : List Txt}
    (h : ArpaN counts es lines) {vs : List (Txt × R)} (hv : Valued num.parse es vs) :
    readUnigram num lines = .ok (dictAll [] vs) := by
  obtain ⟨hd, g, m, mid, e, tail, rfl, h, hg, hm, hne, he⟩ := h
  have ee := strip_of_says he
  have eg := strip_of_says hg
  rw [tEnd_eq] at ee hne
  have : unigramLine num (.unigram, dictAll [] vs) g = .ok (.ngram, dictAll [] vs) := by
    unfold unigramLine; simp only
    rw [if_neg (by rw [eg]; intro e; rw [e] at hm; cases hm), if_neg (by rw [eg]; exact hne), if_pos (by rw [eg]; exact hm)]
  unfold readUnigram
  show (rd num (.begin, []) (hd ++ g :: (mid ++ e :: tail)) >>= _) = _
  rw [rd_append, rd_head num h hv, ok_bind, rd_cons, this, ok_bind, rd_ngram num _ mid tail ee, ok_bind]
  rfl

end Verif.Tool
