import Verif.MkgraphModel
import Verif.ExtractProps

/-!
# Property C120: the costs of words that `mkgraph_hcl.sh` leaves
-/

namespace Verif.Tool

open Verif Verif.App.Spec

variable {R : Type}

/-! ## Lines through a file -/

theorem newlines_no_return : ∀ (n : Nat) (t : Txt), t.length ≤ n → ∀ c ∈ newlines t, c ≠ '\r'
  | _, [], _, c, hc => by cases hc
  | n + 1, x :: t, h, c, hc => by
    rw [newlines.eq_def] at hc
    split at hc
    · cases hc
    · rename_i l e
      obtain ⟨rfl, rfl⟩ := List.cons.inj e
      rcases List.mem_cons.mp hc with rfl | hc
      · decide
      · exact newlines_no_return n l (by simp only [List.length_cons] at h; omega) c hc
    · rename_i y l _ e
      obtain ⟨rfl, rfl⟩ := List.cons.inj e
      rcases List.mem_cons.mp hc with rfl | hc
      · split
        · decide
        · assumption
      · exact newlines_no_return n t (by simp only [List.length_cons] at h; omega) c hc
  | 0, _ :: _, h, _, _ => by simp at h

/-- A line that is read has ends of lines at most at its end. -/
theorem linesFrom_mem : ∀ (t cur : Txt), (∀ c ∈ t, c ≠ '\r') → Flat cur → ∀ l ∈ linesFrom cur t,
    Flat l ∨ ∃ m, l = m ++ ['\n'] ∧ Flat m
  | [], cur, _, hc, l, hl => by
    unfold linesFrom at hl
    split at hl
    · cases hl
    · rw [List.mem_singleton.mp hl]
      exact .inl hc
  | c :: t, cur, ht, hc, l, hl => by
    have ht' : ∀ x ∈ t, x ≠ '\r' := fun x hx => ht x (List.mem_cons_of_mem _ hx)
    unfold linesFrom at hl
    split at hl
    · rename_i e
      rcases List.mem_cons.mp hl with rfl | hl
      · exact .inr ⟨cur, by rw [e], hc⟩
      · exact linesFrom_mem t [] ht' (fun x hx => by cases hx) l hl
    · rename_i e
      refine linesFrom_mem t (cur ++ [c]) ht' (fun x hx => ?_) l hl
      rcases List.mem_append.mp hx with hx | hx
      · exact hc x hx
      · rw [List.mem_singleton.mp hx]
        exact ⟨e, ht c List.mem_cons_self⟩

theorem strip_mem {l : Txt} {c : Char} (h : c ∈ strip l) : c ∈ l := by
  obtain ⟨a, b, e, -⟩ := strip_spec l
  rw [e]
  exact List.mem_append.mpr (.inl (List.mem_append.mpr (.inr h)))

theorem strip_end (l : Txt) : strip (l ++ ['\n']) = strip l := by
  by_cases h : strip l = []
  · rw [h]
    refine strip_of_blank fun c hc => ?_
    rcases List.mem_append.mp hc with hc | hc
    · exact blank_of_strip h c hc
    · rw [List.mem_singleton.mp hc]; decide
  · obtain ⟨a, b, e, ha, hb, hr⟩ := strip_says h
    refine strip_of_says ⟨a, b ++ ['\n'], ?_, ha, ?_, hr⟩
    · rw [← List.append_assoc, ← e]
    · intro c hc
      rcases List.mem_append.mp hc with hc | hc
      · exact hb c hc
      · rw [List.mem_singleton.mp hc]; decide

theorem flat_strip {t l : Txt} (h : l ∈ fileLines t) : Flat (strip l) := by
  rcases linesFrom_mem (newlines t) [] (newlines_no_return _ t (Nat.le_refl _)) (fun x hx => by cases hx) l h with hf | ⟨m, rfl, hf⟩
  · exact fun c hc => hf c (strip_mem hc)
  · rw [strip_end]
    exact fun c hc => hf c (strip_mem hc)

theorem reads_mem {l : Txt} {ws : List Txt} (h : Reads l ws) : ∀ w ∈ ws, ∀ c ∈ w, c ∈ l := by
  induction h with
  | nil _ => intro w hw; cases hw
  | @cons s w rest ws _ _ _ _ ih =>
    intro v hv c hc
    rcases List.mem_cons.mp hv with rfl | hv
    · exact List.mem_append.mpr (.inl (List.mem_append.mpr (.inr hc)))
    · exact List.mem_append.mpr (.inr (ih v hv c hc))

theorem pruneLine_flat {s s' : St} {l : Txt} {out : List Txt} (hl : Flat (strip l)) (h : pruneLine s l = .ok (s', out)) :
    ∀ o ∈ out, Flat o := by
  have none : ∀ {q : St}, (Except.ok (q, []) : Exec (St × List Txt)) = .ok (s', out) → ∀ o ∈ out, Flat o := by
    intro q h o ho
    rw [← (Prod.mk.inj (Except.ok.inj h)).2] at ho
    cases ho
  have same : ∀ {q : St}, (Except.ok (q, [strip l]) : Exec (St × List Txt)) = .ok (s', out) → ∀ o ∈ out, Flat o := by
    intro q h o ho
    rw [← (Prod.mk.inj (Except.ok.inj h)).2] at ho
    rw [List.mem_singleton.mp ho]
    exact hl
  have two : ∀ {a b : Txt} {ws : List Txt} {q : St}, fields (strip l) = a :: b :: ws →
      (Except.ok (q, [a ++ [' '] ++ b]) : Exec (St × List Txt)) = .ok (s', out) → ∀ o ∈ out, Flat o := by
    intro a b ws q hf h o ho
    have hr := reads_mem (reads_of hf)
    rw [← (Prod.mk.inj (Except.ok.inj h)).2] at ho
    rw [List.mem_singleton.mp ho]
    intro c hc
    rcases List.mem_append.mp hc with hc | hc
    · rcases List.mem_append.mp hc with hc | hc
      · exact hl c (hr a List.mem_cons_self c hc)
      · rw [List.mem_singleton.mp hc]; decide
    · exact hl c (hr b (List.mem_cons_of_mem _ List.mem_cons_self) c hc)
  unfold pruneLine at h
  cases s with
  | begin =>
    simp only at h
    split at h
    · exact none h
    · split at h
      · exact none h
      · split at h
        · exact same h
        · cases h
  | data =>
    simp only at h
    split at h
    · exact same h
    · split at h
      · split at h
        · exact same h
        · exact none h
      · split at h
        · exact same h
        · cases h
  | unigram =>
    simp only at h
    split at h
    · exact same h
    · split at h
      · exact none h
      · split at h
        · rename_i hf
          exact two hf h
        · rename_i hf
          exact two hf h
        · cases h
  | ngram =>
    simp only at h
    split at h
    · exact same h
    · exact none h
  | fin =>
    exact none h

theorem pruneFrom_flat : ∀ {lines : List Txt} {s s' : St} {out : List Txt}, (∀ l ∈ lines, Flat (strip l)) →
    pruneFrom s lines = .ok (s', out) → ∀ o ∈ out, Flat o
  | [], s, s', out, _, h => by
    intro o ho
    rw [← (Prod.mk.inj (Except.ok.inj h)).2] at ho
    cases ho
  | l :: lines, s, s', out, hl, h => by
    unfold pruneFrom at h
    cases h1 : pruneLine s l with
    | error e => rw [h1] at h; cases h
    | ok p =>
      obtain ⟨s1, o1⟩ := p
      rw [h1, ok_bind] at h
      simp only at h
      cases h2 : pruneFrom s1 lines with
      | error e => rw [h2] at h; cases h
      | ok p =>
        obtain ⟨s2, o2⟩ := p
        rw [h2, ok_bind] at h
        simp only at h
        intro o ho
        rw [← (Prod.mk.inj (Except.ok.inj h)).2] at ho
        rcases List.mem_append.mp ho with ho | ho
        · exact pruneLine_flat (hl l List.mem_cons_self) h1 o ho
        · exact pruneFrom_flat (fun x hx => hl x (List.mem_cons_of_mem _ hx)) h2 o ho

/-- What the pruner prints is read as it is printed, each line with its end. -/
theorem printed_lines {t : Txt} {out : List Txt} (h : prune (fileLines t) = .ok out) :
    fileLines (printed out) = out.map fun l => l ++ ['\n'] := by
  unfold prune at h
  cases h1 : pruneFrom .begin (fileLines t) with
  | error e => rw [h1] at h; cases h
  | ok p =>
    obtain ⟨s, o⟩ := p
    rw [h1, ok_bind] at h
    simp only at h
    split at h
    · rw [← Except.ok.inj h]
      exact fileLines_flat (pruneFrom_flat (fun l hl => flat_strip hl) h1)
    · cases h

theorem unigramLine_end (num : Num R) (acc : St × List (Txt × R)) (l : Txt) :
    unigramLine num acc (l ++ ['\n']) = unigramLine num acc l := by
  unfold unigramLine
  rw [strip_end]

theorem readUnigram_ends (num : Num R) (ls : List Txt) :
    readUnigram num (ls.map fun l => l ++ ['\n']) = readUnigram num ls := by
  unfold readUnigram
  rw [List.foldlM_map]
  simp only [unigramLine_end]

theorem costsOf_ends (num : Num R) (ls vocab : List Txt) :
    costsOf num (ls.map fun l => l ++ ['\n']) vocab = costsOf num ls vocab := by
  unfold costsOf
  rw [readUnigram_ends]

/-! ## The property -/

/-- C120: for a language model with pairs of words, of which the vocabulary has all words, the script leaves a vector with the cost of
each word at the place of its id, whatever was in the file before. -/
theorem C120_costs (num : Num R) {lm words : Txt} {marks lines counts : List Txt} {es : List (Txt × Txt)} {us : List (Txt × R)}
    {vs : List (Txt × Nat)} (hl : fileLines lm = marks ++ lines) (hm : ∀ l ∈ marks, Blank l ∨ Says l "iARPA".toList)
    (hlm : ArpaN counts es lines) (hval : Valued num.parse es us) (hvoc : IsVocab (fileLines words) vs)
    (hknown : ∀ w c, (w, c) ∈ us → w = "<unk>".toList ∨ ∃ i, (w, i) ∈ vs) (hbos : ∃ i, ("<s>".toList, i) ∈ vs)
    (hinj : ∀ w w' i, LastIs vs w i → LastIs vs w' i → w = w')
    (hpack : num.pack num.inf ≠ none ∧ num.pack (num.cost num.zero) ≠ none ∧
      ∀ w c, (w, c) ∈ us → num.pack (num.cost c) ≠ none)
    (hsize : ∀ w i, (w, i) ∈ vs → i * 4 + 8 ≤ 2147483647) (old : Option (List UInt8)) :
    ∃ (ws : List Nat) (bytes : List UInt8), unigramPart num lm words old = .on (some bytes) ∧
      (∀ rest, Ser.readVec (bytes ++ rest) = .ok (ws.map some, rest)) ∧ (∀ w i, LastIs vs w i → i < ws.length) ∧
      ∀ i, i < ws.length → ∃ c b, CostAt num.cost num.zero num.inf us vs i c ∧ num.pack c = some b ∧ ws[i]? = some b.toNat := by
  obtain ⟨counts', out, hp, ha, -⟩ := C73_prunes_partial hm hlm
  rw [← hl] at hp
  obtain ⟨ws, h1, h2, h3, -, h5⟩ := C74_costs_of_words num (.inl ha) hval hvoc hknown hbos hinj hpack hsize
  refine ⟨ws, Ser.writeVec ws, ?_, h2, h3, h5⟩
  have h1' : (costsOf num out (fileLines words) >>= writeCosts num) = .ok (Ser.writeVec ws) := by
    rw [← h1]
    unfold costsOf convertUnigram
    simp only [bind_assoc]
  unfold unigramPart
  rw [hp]
  simp only
  rw [printed_lines hp, costsOf_ends]
  cases hc : costsOf num out (fileLines words) with
  | error e => rw [hc] at h1'; cases h1'
  | ok costs =>
    rw [hc, ok_bind] at h1'
    simp only
    rw [h1']

/-- C120: a language model of words only, which the converter could read, ends the script. -/
theorem C120_words_only (num : Num R) {lm words : Txt} {marks lines counts tail : List Txt} {es : List (Txt × Txt)}
    (hl : fileLines lm = marks ++ lines) (hm : ∀ l ∈ marks, Blank l ∨ Says l "iARPA".toList) (hlm : Arpa1 counts es tail lines)
    (ht : ∀ l ∈ tail, ¬ Says l "\\end\\".toList) (old : Option (List UInt8)) : unigramPart num lm words old = .exit 22 := by
  unfold unigramPart
  rw [hl, C73_words_only_refused hm hlm ht]

/-- C120 fails for a vocabulary that lacks a word of the language model: the converter's exception is not noticed, and the script goes
on with what was in `lm.1order.bin` before, be it another model's costs or nothing. -/
theorem C120_stale (num : Num R) {lm words : Txt} {marks lines counts : List Txt} {es : List (Txt × Txt)} {us : List (Txt × R)}
    {vs : List (Txt × Nat)} (hl : fileLines lm = marks ++ lines) (hm : ∀ l ∈ marks, Blank l ∨ Says l "iARPA".toList)
    (hlm : ArpaN counts es lines) (hval : Valued num.parse es us) (hvoc : IsVocab (fileLines words) vs) {w : Txt} {c : R}
    (hw : (w, c) ∈ us) (hunk : w ≠ "<unk>".toList) (hno : ∀ i, (w, i) ∉ vs) (old : Option (List UInt8)) :
    unigramPart num lm words old = .on old := by
  obtain ⟨counts', out, hp, ha, -⟩ := C73_prunes_partial hm hlm
  rw [← hl] at hp
  have eunk : "<unk>".toList = tUnk := by decide
  rw [eunk] at hunk
  have hn : dictGet (dictAll [] (asInt vs)) w = none := dictGet_none_iff.mpr fun q hq e => by
    obtain ⟨p, hp, rfl⟩ := List.mem_map.mp hq
    exact hno p.2 (e ▸ hp)
  obtain ⟨c', hc'⟩ := last_of_mem hw
  have ou : Once (dictSet (dictAll [] us) tBos num.zero) := once_set (once_all _ _ List.Pairwise.nil) _ _
  have hex : ∃ x, (w, x) ∈ dictSet (dictAll [] us) tBos num.zero := by
    by_cases hb : w = tBos
    · exact ⟨num.zero, (once_get ou).mpr (by rw [dictGet_set, if_pos hb])⟩
    · exact ⟨c', (once_get ou).mpr (by rw [dictGet_set, if_neg hb]; exact dictGet_iff.mpr hc')⟩
  obtain ⟨x, hx⟩ := hex
  have hb : buildCost num (dictAll [] (asInt vs)) (dictSet (dictAll [] us) tBos num.zero) = .error .throw := by
    unfold buildCost
    cases maxValue (dictAll [] (asInt vs)) with
    | none => rfl
    | some m =>
      simp only
      refine foldlM_fails (costWord_throw num _) (x := (w, x)) (fun d => ?_) _ _ hx
      unfold costWord
      simp only [hn]
      rw [if_neg hunk]
  have hc : costsOf num out (fileLines words) = .error .throw := by
    unfold costsOf
    rw [readVocab_ok hvoc, ok_bind, readUnigram_arpa1 num ha hval, ok_bind, hb]
  unfold unigramPart
  rw [hp]
  simp only
  rw [printed_lines hp, costsOf_ends, hc]

theorem packAll_none (num : Num R) : ∀ xs : List R, ∀ x ∈ xs, num.pack x = none → packAll num xs = .error .throw
  | y :: xs, x, hx, h => by
    unfold packAll
    rcases List.mem_cons.mp hx with rfl | hx
    · rw [h]
    · cases num.pack y with
      | none => rfl
      | some b =>
        simp only
        rw [packAll_none num xs x hx h]
        rfl

/-- C120 fails for a cost that is no float: the converter ends within the vector, and the script goes on with what is written of it. -/
theorem C120_torn (num : Num R) {lm words : Txt} {marks lines counts : List Txt} {es : List (Txt × Txt)} {us : List (Txt × R)}
    {vs : List (Txt × Nat)} (hl : fileLines lm = marks ++ lines) (hm : ∀ l ∈ marks, Blank l ∨ Says l "iARPA".toList)
    (hlm : ArpaN counts es lines) (hval : Valued num.parse es us) (hvoc : IsVocab (fileLines words) vs)
    (hknown : ∀ w c, (w, c) ∈ us → w = "<unk>".toList ∨ ∃ i, (w, i) ∈ vs) (hbos : ∃ i, ("<s>".toList, i) ∈ vs)
    (hinj : ∀ w w' i, LastIs vs w i → LastIs vs w' i → w = w') {w : Txt} {c : R} {i : Nat} (hw : w ≠ "<s>".toList)
    (hc : LastIs us w c) (hi : LastIs vs w i) (hbad : num.pack (num.cost c) = none) (old : Option (List UInt8)) :
    unigramPart num lm words old = .torn := by
  obtain ⟨counts', out, hp, ha, -⟩ := C73_prunes_partial hm hlm
  rw [← hl] at hp
  have ebos : "<s>".toList = tBos := by decide
  have eunk : "<unk>".toList = tUnk := by decide
  rw [ebos] at hbos hw
  rw [eunk] at hknown
  -- the vocabulary
  have hv : ∀ {w : Txt} {i : Nat}, dictGet (dictAll [] (asInt vs)) w = some (i : Int) ↔ LastIs vs w i := by
    intro w i
    rw [dictGet_iff, last_asInt]
    constructor
    · rintro ⟨j, e, h⟩
      have : i = j := by omega
      exact this ▸ h
    · exact fun h => ⟨i, rfl, h⟩
  have ov : Once (dictAll [] (asInt vs)) := once_all _ _ List.Pairwise.nil
  have hvne : dictAll [] (asInt vs) ≠ [] := by
    obtain ⟨i, hi⟩ := hbos
    obtain ⟨j, hj⟩ := last_of_mem hi
    intro e
    have := hv.mpr hj
    rw [e] at this
    cases this
  obtain ⟨m, m1, m2, q, m3, m4⟩ := maxValue_spec hvne
  have hq : ∃ i : Nat, m = i ∧ LastIs vs q.1 i := by
    have h := (once_get (k := q.1) (v := q.2) ov).mp m3
    rw [m4] at h
    exact last_asInt.mp (dictGet_iff.mp h)
  obtain ⟨M, rfl, hM⟩ := hq
  have hlt : ∀ {w : Txt} {i : Nat}, LastIs vs w i → i < M + 1 := by
    intro w i h
    have := m2 _ ((once_get ov).mpr (hv.mpr h))
    simp only at this
    omega
  -- the dictionary of the language model
  have hset : dictSet (dictAll [] us) tBos num.zero = dictAll [] (us ++ [(tBos, num.zero)]) := by
    rw [dictAll_append]; rfl
  have ou : Once (dictSet (dictAll [] us) tBos num.zero) := once_set (once_all _ _ List.Pairwise.nil) _ _
  have hu : ∀ {w : Txt} {c : R}, (w, c) ∈ dictSet (dictAll [] us) tBos num.zero ↔
      (w = tBos ∧ c = num.zero) ∨ (w ≠ tBos ∧ LastIs us w c) := by
    intro w c
    rw [once_get ou, dictGet_set]
    by_cases hw : w = tBos
    · rw [if_pos hw]; simp [hw, eq_comm]
    · rw [if_neg hw, dictGet_iff]; simp [hw]
  have hpw : (dictSet (dictAll [] us) tBos num.zero).Pairwise fun p q => ∀ i,
      dictGet (dictAll [] (asInt vs)) p.1 = some i → dictGet (dictAll [] (asInt vs)) q.1 ≠ some i := by
    refine List.Pairwise.imp (fun {p q} hne i h1 h2 => ?_) ou
    obtain ⟨j, rfl, k1⟩ := last_asInt.mp (dictGet_iff.mp h1)
    exact hne (hinj _ _ _ k1 (hv.mp h2))
  have hin : ∀ p ∈ dictSet (dictAll [] us) tBos num.zero,
      (p.1 = tUnk ∧ dictGet (dictAll [] (asInt vs)) p.1 = none) ∨
      ∃ i : Nat, dictGet (dictAll [] (asInt vs)) p.1 = some (i : Int) ∧
        i < (List.replicate ((M : Int) + 1).toNat num.inf).length := by
    rintro ⟨w, c⟩ hp
    have found : (∃ i, (w, i) ∈ vs) → ∃ i : Nat, dictGet (dictAll [] (asInt vs)) w = some (i : Int) ∧
        i < (List.replicate ((M : Int) + 1).toNat num.inf).length := by
      rintro ⟨i, hi⟩
      obtain ⟨j, hj⟩ := last_of_mem hi
      refine ⟨j, hv.mpr hj, ?_⟩
      rw [List.length_replicate]
      have := hlt hj
      omega
    rcases hu.mp hp with ⟨rfl, -⟩ | ⟨-, hl⟩
    · exact .inr (found hbos)
    · by_cases hex : ∃ i, (w, i) ∈ vs
      · exact .inr (found hex)
      · rcases hknown w c hl.mem with hk | hk
        · refine .inl ⟨hk, dictGet_none_iff.mpr ?_⟩
          intro q hq e
          obtain ⟨p, hp, rfl⟩ := List.mem_map.mp hq
          have e : p.1 = w := e
          exact hex ⟨p.2, e ▸ hp⟩
        · exact absurd hk hex
  obtain ⟨arr, a1, a2, a3, a4⟩ := costs_fold num _ _ _ hpw hin
  have hb : buildCost num (dictAll [] (asInt vs)) (dictSet (dictAll [] us) tBos num.zero) = .ok arr := by
    unfold buildCost
    rw [m1]
    exact a1
  have hat := a3 _ (hu.mpr (.inr ⟨hw, hc⟩)) i (hv.mpr hi)
  have hcs : costsOf num out (fileLines words) = .ok arr := by
    unfold costsOf
    rw [readVocab_ok hvoc, ok_bind, readUnigram_arpa1 num ha hval, ok_bind, hb]
  have hwr : writeCosts num arr = .error .throw := by
    unfold writeCosts
    split
    · rw [packAll_none num arr _ (List.mem_of_getElem? hat) hbad]
      rfl
    · rfl
  unfold unigramPart
  rw [hp]
  simp only
  rw [printed_lines hp, costsOf_ends, hcs]
  simp only
  rw [hwr]

/-! ## Examples -/

/-- A line with its end. -/
def ended (l : String) : Txt := l.toList ++ ['\n']

/-- The text of the language model, with ends of lines of another system, and its lines. -/
def demoLmText : Txt := "\\data\\\r\nngram 1=3\r\nngram 2 = 1\n\n\\1-grams:\n-1 <s> -2\n\t-3 a\n-4  b -1 \n\n\\2-grams:\n-1 a b\n\n\\end\\ \n".toList

/-- Its lines up to the words. -/
def demoHeadLines : List Txt := ["\\data\\", "ngram 1=3", "ngram 2 = 1", "", "\\1-grams:", "-1 <s> -2", "\t-3 a", "-4  b -1 ", ""].map ended

theorem demoText_lines : fileLines demoLmText = [] ++ (demoHeadLines ++ (["\\2-grams:", "-1 a b", "", "\\end\\ "].map ended)) := by
  decide +kernel

theorem demoHeadLines_is : Head (["ngram 1=3", "ngram 2 = 1", ""].map ended) demoEntries demoHeadLines := by
  refine ⟨ended "\\data\\", ended "\\1-grams:", ["-1 <s> -2", "\t-3 a", "-4  b -1 ", ""].map ended, by decide,
    says_of (by decide) (by decide), ?_, says_of (by decide) (by decide), ?_⟩
  · unfold IsCount; decide
  · exact .entry ⟨by decide, .inr ⟨"-2".toList, reads_of (by decide)⟩⟩ (.entry ⟨by decide, .inl (reads_of (by decide))⟩
      (.entry ⟨by decide, .inr ⟨"-1".toList, reads_of (by decide)⟩⟩ (.blank (by decide) .nil)))

theorem demoText_is : ArpaN (["ngram 1=3", "ngram 2 = 1", ""].map ended) demoEntries
    (demoHeadLines ++ (["\\2-grams:", "-1 a b", "", "\\end\\ "].map ended)) :=
  ⟨demoHeadLines, ended "\\2-grams:", "\\2-grams:".toList, ["-1 a b", ""].map ended, ended "\\end\\ ", [], by decide, demoHeadLines_is,
    says_of (by decide) (by decide), by decide, by decide, says_of (by decide) (by decide)⟩

theorem demoVocabText_is : IsVocab (fileLines "<eps> 0\n<s> 1\na 2\nb 4\n".toList) demoIds := by
  have e : fileLines "<eps> 0\n<s> 1\na 2\nb 4\n".toList = ["<eps> 0", "<s> 1", "a 2", "b 4"].map ended := by decide +kernel
  rw [e]
  exact .entry (reads_of (by decide)) (.entry (reads_of (by decide)) (.entry (reads_of (by decide)) (.entry (reads_of (by decide)) .nil)))

example : ∃ (ws : List Nat) (bytes : List UInt8), unigramPart demoNum demoLmText "<eps> 0\n<s> 1\na 2\nb 4\n".toList (some [1, 2, 3]) = .on (some bytes) ∧
    Ser.readVec bytes = .ok (ws.map some, []) ∧ 4 < ws.length := by
  obtain ⟨ws, bytes, h1, h2, h3, -⟩ := C120_costs demoNum (words := "<eps> 0\n<s> 1\na 2\nb 4\n".toList) demoText_lines
    (by intro l h; cases h) demoText_is demo_valued demoVocabText_is
    (by
      intro w c h
      simp only [List.mem_cons, Prod.mk.injEq, List.not_mem_nil, or_false] at h
      rcases h with ⟨rfl, -⟩ | ⟨rfl, -⟩ | ⟨rfl, -⟩
      · exact .inr ⟨1, by decide⟩
      · exact .inr ⟨2, by decide⟩
      · exact .inr ⟨4, by decide⟩)
    ⟨1, by decide⟩ demoIds_inj ⟨by simp [demoNum], by simp [demoNum], by simp [demoNum]⟩
    (by
      intro w i h
      simp only [demoIds, List.mem_cons, Prod.mk.injEq, List.not_mem_nil, or_false] at h
      rcases h with ⟨-, rfl⟩ | ⟨-, rfl⟩ | ⟨-, rfl⟩ | ⟨-, rfl⟩ <;> decide) (some [1, 2, 3])
  refine ⟨ws, bytes, h1, ?_, h3 "b".toList 4 ⟨[("<eps>".toList, 0), ("<s>".toList, 1), ("a".toList, 2)], [], by decide, by intro q h; cases h⟩⟩
  have := h2 []
  rwa [List.append_nil] at this

-- words only
example : unigramPart demoNum "\\data\\\nngram 1=1\n\\1-grams:\n-1 a\n\\end\\\n".toList [] none = .exit 22 :=
  C120_words_only demoNum (marks := []) (lines := ["\\data\\", "ngram 1=1", "\\1-grams:", "-1 a", "\\end\\"].map ended)
    (counts := [ended "ngram 1=1"]) (tail := []) (es := [("-1".toList, "a".toList)]) (by decide +kernel) (by intro l h; cases h)
    ⟨["\\data\\", "ngram 1=1", "\\1-grams:", "-1 a"].map ended, ended "\\end\\", by decide,
      ⟨ended "\\data\\", ended "\\1-grams:", [ended "-1 a"], by decide, says_of (by decide) (by decide), by unfold IsCount; decide,
        says_of (by decide) (by decide), .entry ⟨by decide, .inl (reads_of (by decide))⟩ .nil⟩,
      says_of (by decide) (by decide)⟩ (by intro l h; cases h) none

-- a vocabulary without `b`: the bytes of before stay
example : unigramPart demoNum demoLmText "<s> 1\na 2\n".toList (some [1, 2, 3]) = .on (some [1, 2, 3]) := by
  have e : fileLines "<s> 1\na 2\n".toList = ["<s> 1", "a 2"].map ended := by decide +kernel
  refine C120_stale demoNum (vs := [("<s>".toList, 1), ("a".toList, 2)]) (w := "b".toList) (c := -4) demoText_lines
    (by intro l h; cases h) demoText_is demo_valued ?_ (by decide) (by decide) (by
      intro i h
      simp at h) _
  rw [e]
  exact .entry (reads_of (by decide)) (.entry (reads_of (by decide)) .nil)

/-- Numbers of which the last cost of `demoLmText` is none that can be written. -/
def tornNum : Num Int := { demoNum with pack := fun x => if x = demoNum.cost (-4) then none else demoNum.pack x }

example : unigramPart tornNum demoLmText "<eps> 0\n<s> 1\na 2\nb 4\n".toList (some [1, 2, 3]) = .torn :=
  C120_torn tornNum (w := "b".toList) (c := -4) (i := 4) demoText_lines (by intro l h; cases h) demoText_is demo_valued demoVocabText_is
    (by
      intro w c h
      simp only [List.mem_cons, Prod.mk.injEq, List.not_mem_nil, or_false] at h
      rcases h with ⟨rfl, -⟩ | ⟨rfl, -⟩ | ⟨rfl, -⟩
      · exact .inr ⟨1, by decide⟩
      · exact .inr ⟨2, by decide⟩
      · exact .inr ⟨4, by decide⟩)
    ⟨1, by decide⟩ demoIds_inj (by decide)
    ⟨[("<s>".toList, -1), ("a".toList, -3)], [], by decide, by intro q h; cases h⟩
    ⟨[("<eps>".toList, 0), ("<s>".toList, 1), ("a".toList, 2)], [], by decide, by intro q h; cases h⟩
    (by simp [tornNum]) _

end Verif.Tool
