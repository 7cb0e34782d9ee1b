import Verif.ToolModel
import Verif.ToolCosts
import Verif.InitLemmas

/-!
# Properties of the converters that read text: C73, C74, C75
-/

namespace Verif.Tool

open Verif Verif.App.Spec

variable {R : Type}

/-! ## A small language model -/

/-- Numbers for the examples: integers; infinity is 1000. -/
def demoNum : Num Int := ⟨pyInt, 0, 1000, fun c => -c, fun x => some (UInt32.ofNat x.toNat)⟩

/-- Up to the words. -/
def demoHead : List Txt := ["\\data\\", "ngram 1=3", "ngram 2 = 1", "", "\\1-grams:", "-1 <s> -2", "\t-3 a", "-4  b -1 ",
  ""].map String.toList

/-- A file with words and pairs of words. -/
def demoLm : List Txt := demoHead ++ (["\\2-grams:", "-1 a b", "", "\\end\\ "].map String.toList)

/-- A file with words only. -/
def demoWords : List Txt := demoHead ++ (["\\end\\", ""].map String.toList)

/-- The counts of the files. -/
def demoCounts : List Txt := ["ngram 1=3", "ngram 2 = 1", ""].map String.toList

/-- The words of the files. -/
def demoEntries : List (Txt × Txt) :=
  [("-1".toList, "<s>".toList), ("-3".toList, "a".toList), ("-4".toList, "b".toList)]

/-- The vocabulary; the id 3 is not used. -/
def demoVocab : List Txt := ["<eps> 0", "<s> 1", "a 2", "b 4", ""].map String.toList

/-- Its words and ids. -/
def demoIds : List (Txt × Nat) := [("<eps>".toList, 0), ("<s>".toList, 1), ("a".toList, 2), ("b".toList, 4)]

theorem reads_of {l : Txt} {ws : List Txt} (h : fields l = ws) : Reads l ws := h ▸ reads_fields l

theorem says_of {l m : Txt} (h : strip l = m) (hm : m ≠ []) : Says l m := (strip_eq_iff hm).mp h

theorem demoHead_is : Head demoCounts demoEntries demoHead := by
  refine ⟨"\\data\\".toList, "\\1-grams:".toList,
    ["-1 <s> -2".toList, "\t-3 a".toList, "-4  b -1 ".toList, [] ], by decide, says_of (by decide) (by decide), ?_,
    says_of (by decide) (by decide), ?_⟩
  · unfold IsCount; decide
  · exact .entry ⟨by decide, .inr ⟨"-2".toList, reads_of (by decide)⟩⟩ (.entry ⟨by decide, .inl (reads_of (by decide))⟩
      (.entry ⟨by decide, .inr ⟨"-1".toList, reads_of (by decide)⟩⟩ (.blank (by decide) .nil)))

theorem demoLm_is : ArpaN demoCounts demoEntries demoLm :=
  ⟨demoHead, "\\2-grams:".toList, "\\2-grams:".toList, ["-1 a b".toList, [] ], "\\end\\ ".toList, [], by decide, demoHead_is,
    says_of (by decide) (by decide), by decide, by decide, says_of (by decide) (by decide)⟩

theorem demoWords_is : Arpa1 demoCounts demoEntries [[]] demoWords :=
  ⟨demoHead, "\\end\\".toList, by decide, demoHead_is, says_of (by decide) (by decide)⟩

theorem demo_valued : Valued demoNum.parse demoEntries [("<s>".toList, -1), ("a".toList, -3), ("b".toList, -4)] :=
  .cons (by decide) (.cons (by decide) (.cons (by decide) .nil))

theorem demoVocab_is : IsVocab demoVocab demoIds :=
  .entry (reads_of (by decide)) (.entry (reads_of (by decide)) (.entry (reads_of (by decide)) (.entry (reads_of (by decide))
    (.blank (by decide) .nil))))

/-- The ids are distinct. -/
theorem demoIds_inj : ∀ w w' i, LastIs demoIds w i → LastIs demoIds w' i → w = w' := by
  intro w w' i h h'
  have k := h.mem
  have k' := h'.mem
  simp only [demoIds, List.mem_cons, Prod.mk.injEq, List.not_mem_nil, or_false] at k k'
  rcases k with ⟨rfl, rfl⟩ | ⟨rfl, rfl⟩ | ⟨rfl, rfl⟩ | ⟨rfl, rfl⟩ <;> rcases k' with ⟨rfl, e⟩ | ⟨rfl, e⟩ | ⟨rfl, e⟩ | ⟨rfl, e⟩ <;>
    first | rfl | cases e

/-! ## C73: `tool/prune_lm.py` -/

/-- C73: if the pruner accepts a file, its output gives `convert_unigram.py` the very dictionary (or the very exception)
that the file gives from `\data\` on. -/
theorem C73_same_unigrams (num : Num R) {lines out : List Txt} (h : prune lines = .ok out) :
    ∃ marks d rest, lines = marks ++ d :: rest ∧ (∀ l ∈ marks, Blank l ∨ Says l "iARPA".toList) ∧
      Says d "\\data\\".toList ∧ readUnigram num out = readUnigram num (d :: rest) := by
  unfold prune at h
  cases hp : pruneFrom .begin lines with
  | error e => rw [hp] at h; cases h
  | ok p =>
    obtain ⟨s, o⟩ := p
    rw [hp, ok_bind] at h
    simp only at h
    split at h
    · rename_i hs
      cases h
      subst hs
      obtain ⟨marks, d, rest, h1, h2, h3, h4⟩ := sim_begin num lines hp
      refine ⟨marks, d, rest, h1, h2, h3, ?_⟩
      unfold readUnigram
      exact congrArg (· >>= _) h4
    · cases h

/-- The pruner accepts the file, here with a mark in front, and prints the words. -/
example : prune ("iARPA".toList :: demoLm) = .ok (["\\data\\", "ngram 1=3", "", "\\1-grams:", "-1 <s>", "-3 a", "-4 b", "",
    "\\end\\"].map String.toList) := by decide

/-- C73 (files of words only, for which it is false, are missing): every ARPA file that goes beyond words is accepted,
and the output is an ARPA file of the same words with the same numbers; of the counts that of the words is kept and the
others are dropped. -/
theorem C73_prunes_partial {marks counts : List Txt} {es : List (Txt × Txt)} {lines : List Txt}
    (hm : ∀ l ∈ marks, Blank l ∨ Says l "iARPA".toList) (h : ArpaN counts es lines) :
    ∃ counts' out, prune (marks ++ lines) = .ok out ∧ Arpa1 counts' es [] out ∧
      (∀ l ∈ counts', Blank l ∨ IsCount1 l) ∧ ∀ l ∈ counts, IsCount1 l → ∃ l' ∈ counts', Says l l' := by
  obtain ⟨hd, g, m, mid, e, tail, rfl, h, hg, hm', hne, he⟩ := h
  obtain ⟨counts', out, p1, p2, p3, p4⟩ := prune_head h
  have ee := strip_of_says he
  have eg := strip_of_says hg
  rw [tEnd_eq] at ee hne
  have hg' : pruneLine .unigram g = .ok (.ngram, []) := by
    unfold pruneLine; simp only
    rw [if_neg (by rw [eg]; intro e; rw [e] at hm'; cases hm'), if_pos (by rw [eg]; exact hm')]
  have := pruneFrom_append (prune_marks hm) (pruneFrom_append p1 (pruneFrom_step hg' (prune_ngram mid tail ee)))
  refine ⟨counts', out ++ [tEnd], ?_, ⟨out, tEnd, rfl, p2, ?_⟩, p3, p4⟩
  · unfold prune
    rw [this, ok_bind]
    rfl
  · rw [tEnd_eq]
    exact ⟨[], [], by simp, Blank.nil, Blank.nil, by decide, by decide, by decide⟩

/-- The file has this form. -/
example : ∃ counts' out, prune (["iARPA".toList] ++ demoLm) = .ok out ∧ Arpa1 counts' demoEntries [] out ∧
    (∀ l ∈ counts', Blank l ∨ IsCount1 l) ∧ ∀ l ∈ demoCounts, IsCount1 l → ∃ l' ∈ counts', Says l l' :=
  C73_prunes_partial (by intro l h; exact .inr (says_of (by rw [List.mem_singleton.mp h]; decide) (by decide))) demoLm_is

/-- C73, negation: an ARPA file of words only, which `convert_unigram.py` reads, is refused ("unexpected
end-of-file"): the pruner takes its `\end\` for the start of the longer n-grams. -/
theorem C73_words_only_refused {marks counts : List Txt} {es : List (Txt × Txt)} {tail lines : List Txt}
    (hm : ∀ l ∈ marks, Blank l ∨ Says l "iARPA".toList) (h : Arpa1 counts es tail lines)
    (ht : ∀ l ∈ tail, ¬ Says l "\\end\\".toList) : prune (marks ++ lines) = .error .throw := by
  obtain ⟨hd, e, rfl, h, he⟩ := h
  obtain ⟨counts', out, p1, -⟩ := prune_head h
  have ee := strip_of_says he
  rw [tEnd_eq] at ee
  have he' : pruneLine .unigram e = .ok (.ngram, []) := by
    unfold pruneLine; simp only
    rw [if_neg (by rw [ee]; decide), if_pos (by rw [ee]; decide)]
  have := pruneFrom_append (prune_marks hm) (pruneFrom_append p1 (pruneFrom_step he' (prune_ngram_open ht)))
  unfold prune
  rw [this, ok_bind]
  rfl

/-- The file of words only is refused. -/
example : prune ([] ++ demoWords) = .error .throw :=
  C73_words_only_refused (by intro l h; cases h) demoWords_is (by
    intro l h k
    rw [List.mem_singleton.mp h] at k
    exact absurd (strip_of_says k) (by decide))

/-- The reader does read it. -/
theorem C73_words_only_readable (num : Num R) {counts : List Txt} {es : List (Txt × Txt)} {tail lines : List Txt}
    (h : Arpa1 counts es tail lines) {us : List (Txt × R)} (hv : Valued num.parse es us) :
    ∃ d, readUnigram num lines = .ok d ∧ ∀ w c, dictGet d w = some c ↔ LastIs us w c :=
  ⟨_, readUnigram_arpa1 num h hv, fun _ _ => dictGet_iff⟩

/-- What the reader finds in it. -/
example : ∃ d, readUnigram demoNum demoWords = .ok d ∧
    ∀ w c, dictGet d w = some c ↔ LastIs [("<s>".toList, -1), ("a".toList, -3), ("b".toList, -4)] w c :=
  C73_words_only_readable demoNum demoWords_is demo_valued

/-- C73: what the pruner prints it refuses itself. -/
theorem C73_not_twice {marks counts : List Txt} {es : List (Txt × Txt)} {lines out : List Txt}
    (hm : ∀ l ∈ marks, Blank l ∨ Says l "iARPA".toList) (h : ArpaN counts es lines) (hp : prune (marks ++ lines) = .ok out) :
    prune out = .error .throw := by
  obtain ⟨counts', out', h1, h2, -⟩ := C73_prunes_partial hm h
  rw [hp] at h1
  cases h1
  exact C73_words_only_refused (marks := []) (by intro l h; cases h) h2 (by intro l h; cases h)

/-- Pruning the file above twice. -/
example : (prune ([] ++ demoLm) >>= prune) = .error .throw := by
  obtain ⟨-, out, h, -⟩ := C73_prunes_partial (marks := []) (by intro l h; cases h) demoLm_is
  rw [h, ok_bind]
  exact C73_not_twice (by intro l h; cases h) demoLm_is h

/-! ## C74: `tool/convert_unigram.py` -/

/-- C74: from an ARPA file and a vocabulary in which no two words have the same id, the converter writes a vector that
`Vector::Read` reads, with a place for each id of the vocabulary and at each place the cost of the word with this id. -/
theorem C74_costs_of_words (num : Num R) {counts : List Txt} {es : List (Txt × Txt)} {tail lm vocab : List Txt}
    {us : List (Txt × R)} {vs : List (Txt × Nat)}
    (hlm : Arpa1 counts es tail lm ∨ ArpaN counts es lm) (hval : Valued num.parse es us) (hvoc : IsVocab vocab vs)
    (hknown : ∀ w c, (w, c) ∈ us → w = "<unk>".toList ∨ ∃ i, (w, i) ∈ vs) (hbos : ∃ i, ("<s>".toList, i) ∈ vs)
    (hinj : ∀ w w' i, LastIs vs w i → LastIs vs w' i → w = w')
    (hpack : num.pack num.inf ≠ none ∧ num.pack (num.cost num.zero) ≠ none ∧
      ∀ w c, (w, c) ∈ us → num.pack (num.cost c) ≠ none)
    (hsize : ∀ w i, (w, i) ∈ vs → i * 4 + 8 ≤ 2147483647) :
    ∃ ws, convertUnigram num lm vocab = .ok (Ser.writeVec ws) ∧
      (∀ rest, Ser.readVec (Ser.writeVec ws ++ rest) = .ok (ws.map some, rest)) ∧
      (∀ w i, LastIs vs w i → i < ws.length) ∧ (∃ w i, LastIs vs w i ∧ ws.length = i + 1) ∧
      ∀ i, i < ws.length → ∃ c b, CostAt num.cost num.zero num.inf us vs i c ∧ num.pack c = some b ∧
        ws[i]? = some b.toNat := by
  have ebos : "<s>".toList = tBos := by decide
  have eunk : "<unk>".toList = tUnk := by decide
  rw [ebos] at hbos
  rw [eunk] at hknown
  have hread : readUnigram num lm = .ok (dictAll [] us) := by
    rcases hlm with h | h
    · exact readUnigram_arpa1 num h hval
    · exact readUnigram_arpaN num h hval
  -- the vocabulary
  have hv : ∀ {w : Txt} {i : Nat}, dictGet (dictAll [] (asInt vs)) w = some (i : Int) ↔ LastIs vs w i := by
    intro w i
    rw [dictGet_iff, last_asInt]
    constructor
    · rintro ⟨j, e, h⟩
      have : i = j := by omega
      exact this ▸ h
    · exact fun h => ⟨i, rfl, h⟩
  have ov : Once (dictAll [] (asInt vs)) := once_all _ _ List.Pairwise.nil
  have hvne : dictAll [] (asInt vs) ≠ [] := by
    obtain ⟨i, hi⟩ := hbos
    obtain ⟨j, hj⟩ := last_of_mem hi
    intro e
    have := hv.mpr hj
    rw [e] at this
    cases this
  obtain ⟨m, m1, m2, q, m3, m4⟩ := maxValue_spec hvne
  have hq : ∃ i : Nat, m = i ∧ LastIs vs q.1 i := by
    have h := (once_get (k := q.1) (v := q.2) ov).mp m3
    rw [m4] at h
    exact last_asInt.mp (dictGet_iff.mp h)
  obtain ⟨M, rfl, hM⟩ := hq
  have hlt : ∀ {w : Txt} {i : Nat}, LastIs vs w i → i < M + 1 := by
    intro w i h
    have := m2 _ ((once_get ov).mpr (hv.mpr h))
    simp only at this
    omega
  -- the dictionary of the language model
  have hset : dictSet (dictAll [] us) tBos num.zero = dictAll [] (us ++ [(tBos, num.zero)]) := by
    rw [dictAll_append]; rfl
  have ou : Once (dictSet (dictAll [] us) tBos num.zero) := once_set (once_all _ _ List.Pairwise.nil) _ _
  have hu : ∀ {w : Txt} {c : R}, (w, c) ∈ dictSet (dictAll [] us) tBos num.zero ↔
      (w = tBos ∧ c = num.zero) ∨ (w ≠ tBos ∧ LastIs us w c) := by
    intro w c
    rw [once_get ou, dictGet_set]
    by_cases hw : w = tBos
    · rw [if_pos hw]; simp [hw, eq_comm]
    · rw [if_neg hw, dictGet_iff]; simp [hw]
  have hpw : (dictSet (dictAll [] us) tBos num.zero).Pairwise fun p q => ∀ i,
      dictGet (dictAll [] (asInt vs)) p.1 = some i → dictGet (dictAll [] (asInt vs)) q.1 ≠ some i := by
    refine List.Pairwise.imp (fun {p q} hne i h1 h2 => ?_) ou
    obtain ⟨j, rfl, k1⟩ := last_asInt.mp (dictGet_iff.mp h1)
    exact hne (hinj _ _ _ k1 (hv.mp h2))
  have hin : ∀ p ∈ dictSet (dictAll [] us) tBos num.zero,
      (p.1 = tUnk ∧ dictGet (dictAll [] (asInt vs)) p.1 = none) ∨
      ∃ i : Nat, dictGet (dictAll [] (asInt vs)) p.1 = some (i : Int) ∧
        i < (List.replicate ((M : Int) + 1).toNat num.inf).length := by
    rintro ⟨w, c⟩ hp
    have found : (∃ i, (w, i) ∈ vs) → ∃ i : Nat, dictGet (dictAll [] (asInt vs)) w = some (i : Int) ∧
        i < (List.replicate ((M : Int) + 1).toNat num.inf).length := by
      rintro ⟨i, hi⟩
      obtain ⟨j, hj⟩ := last_of_mem hi
      refine ⟨j, hv.mpr hj, ?_⟩
      rw [List.length_replicate]
      have := hlt hj
      omega
    rcases hu.mp hp with ⟨rfl, -⟩ | ⟨-, hl⟩
    · exact .inr (found hbos)
    · by_cases hex : ∃ i, (w, i) ∈ vs
      · exact .inr (found hex)
      · rcases hknown w c hl.mem with hk | hk
        · refine .inl ⟨hk, dictGet_none_iff.mpr ?_⟩
          intro q hq e
          obtain ⟨p, hp, rfl⟩ := List.mem_map.mp hq
          have e : p.1 = w := e
          exact hex ⟨p.2, e ▸ hp⟩
        · exact absurd hk hex
  obtain ⟨arr, a1, a2, a3, a4⟩ := costs_fold num _ _ _ hpw hin
  rw [List.length_replicate] at a2
  have hlen : arr.length = M + 1 := by omega
  have hat : ∀ i, i < arr.length → ∃ c, CostAt num.cost num.zero num.inf us vs i c ∧ arr[i]? = some c ∧
      num.pack c ≠ none := by
    intro i hi
    by_cases hex : ∃ p ∈ dictSet (dictAll [] us) tBos num.zero, dictGet (dictAll [] (asInt vs)) p.1 = some (i : Int)
    · obtain ⟨⟨w, c⟩, hp, hpi⟩ := hex
      have hc := a3 _ hp i hpi
      rcases hu.mp hp with ⟨rfl, rfl⟩ | ⟨hw, hl⟩
      · exact ⟨_, .bos (by rw [ebos]; exact hv.mp hpi), hc, hpack.2.1⟩
      · exact ⟨_, .word (by rw [ebos]; exact hw) (hv.mp hpi) hl, hc, hpack.2.2 w c hl.mem⟩
    · refine ⟨num.inf, .absent fun w hw => ⟨?_, fun c hc => ?_⟩, ?_, hpack.1⟩
      · rw [ebos]
        rintro rfl
        exact hex ⟨_, hu.mpr (.inl ⟨rfl, rfl⟩), hv.mpr hw⟩
      · obtain ⟨c', hc'⟩ := last_of_mem hc
        by_cases hb : w = tBos
        · exact hex ⟨_, hu.mpr (.inl ⟨hb, rfl⟩), hv.mpr hw⟩
        · exact hex ⟨(w, c'), hu.mpr (.inr ⟨hb, hc'⟩), hv.mpr hw⟩
      · rw [a4 i fun p hp e => hex ⟨p, hp, e⟩, List.getElem?_replicate, if_pos (by omega)]
  obtain ⟨ws, w1, w2, w3, w4⟩ := packAll_ok num arr (by
    intro x hx
    obtain ⟨i, hi, e⟩ := List.mem_iff_getElem.mp hx
    obtain ⟨c, -, k2, k3⟩ := hat i hi
    rw [List.getElem?_eq_getElem hi, e] at k2
    cases k2
    exact k3)
  have hfit : arr.length * 4 + 4 ≤ 2147483647 := by
    have := hsize _ _ hM.mem
    omega
  refine ⟨ws, ?_, ?_, ?_, ⟨q.1, M, hM, by omega⟩, ?_⟩
  · unfold convertUnigram
    rw [readVocab_ok hvoc, ok_bind, hread, ok_bind]
    have hb : buildCost num (dictAll [] (asInt vs)) (dictSet (dictAll [] us) tBos num.zero) = .ok arr := by
      unfold buildCost
      rw [m1]
      exact a1
    rw [hb, ok_bind]
    unfold writeCosts
    rw [if_pos hfit, w1, ok_bind]
  · intro rest
    refine Ser.C31_vector ws ⟨?_, by omega, w3⟩ rest
    intro e
    rw [e] at w2
    simp at w2
    omega
  · intro w i h
    have := hlt h
    omega
  · intro i hi
    obtain ⟨c, k1, k2, -⟩ := hat i (by omega)
    obtain ⟨b, b1, b2⟩ := w4 i c k2
    exact ⟨c, b, k1, b1, b2⟩

/-- The hypotheses hold of the files above; the costs are those of the words, zero for `<s>`, infinity elsewhere. -/
example : (∃ ws, convertUnigram demoNum demoLm demoVocab = .ok (Ser.writeVec ws) ∧ ws.length = 5) ∧
    convertUnigram demoNum demoLm demoVocab = .ok (Ser.writeVec [1000, 0, 3, 1000, 4]) := by
  refine ⟨?_, by decide +kernel⟩
  obtain ⟨ws, h1, -, h3, ⟨w, i, h4, h5⟩, -⟩ := C74_costs_of_words demoNum (tail := []) (.inr demoLm_is) demo_valued
    demoVocab_is
    (by
      intro w c h
      simp only [List.mem_cons, Prod.mk.injEq, List.not_mem_nil, or_false] at h
      rcases h with ⟨rfl, -⟩ | ⟨rfl, -⟩ | ⟨rfl, -⟩
      · exact .inr ⟨1, by decide⟩
      · exact .inr ⟨2, by decide⟩
      · exact .inr ⟨4, by decide⟩)
    ⟨1, by decide⟩ demoIds_inj ⟨by simp [demoNum], by simp [demoNum], by simp [demoNum]⟩
    (by
      intro w i h
      simp only [demoIds, List.mem_cons, Prod.mk.injEq, List.not_mem_nil, or_false] at h
      omega)
  refine ⟨ws, h1, ?_⟩
  have := h3 "b".toList 4 ⟨demoIds.take 3, [], by decide, by intro q h; cases h⟩
  have k := h4.mem
  simp only [demoIds, List.mem_cons, Prod.mk.injEq, List.not_mem_nil, or_false] at k
  omega

/-- C74: a vocabulary without `<s>` is refused, whatever the language model. -/
theorem C74_needs_start (num : Num R) {lm vocab : List Txt} {vs : List (Txt × Nat)} (hvoc : IsVocab vocab vs)
    (hbos : ∀ i, ("<s>".toList, i) ∉ vs) : convertUnigram num lm vocab = .error .throw := by
  have ebos : "<s>".toList = tBos := by decide
  rw [ebos] at hbos
  unfold convertUnigram
  rw [readVocab_ok hvoc, ok_bind]
  cases hr : readUnigram num lm with
  | error e => rw [readUnigram_throw num hr]; rfl
  | ok u =>
    rw [ok_bind]
    have : buildCost num (dictAll [] (asInt vs)) (dictSet u tBos num.zero) = .error .throw := by
      unfold buildCost
      cases maxValue (dictAll [] (asInt vs)) with
      | none => rfl
      | some m =>
        simp only
        have hmem : (tBos, num.zero) ∈ dictSet u tBos num.zero := by
          clear hr
          induction u with
          | nil => exact List.mem_cons_self
          | cons p u ih =>
            unfold dictSet
            split
            · exact List.mem_cons_self
            · exact List.mem_cons_of_mem _ ih
        refine foldlM_fails (costWord_throw num _) (x := (tBos, num.zero)) (fun d => ?_) _ _ hmem
        unfold costWord
        have hn : dictGet (dictAll [] (asInt vs)) tBos = none := dictGet_none_iff.mpr fun q hq e => by
          obtain ⟨p, hp, rfl⟩ := List.mem_map.mp hq
          exact hbos p.2 (e ▸ hp)
        simp only [hn]
        rw [if_neg (by decide)]
    rw [this]
    rfl

/-- A vocabulary without `<s>`. -/
example : convertUnigram demoNum demoLm ["a 2".toList] = .error .throw :=
  C74_needs_start demoNum (vs := [("a".toList, 2)]) (.entry (reads_of (by decide)) .nil) (by
    intro i h
    simp at h)

/-- C74: a language model with a word that the vocabulary lacks is refused, unless the word is `<unk>`. -/
theorem C74_unknown_word_refused (num : Num R) {counts : List Txt} {es : List (Txt × Txt)} {tail lm vocab : List Txt}
    {us : List (Txt × R)} {vs : List (Txt × Nat)} (hlm : Arpa1 counts es tail lm ∨ ArpaN counts es lm)
    (hval : Valued num.parse es us) (hvoc : IsVocab vocab vs) {w : Txt} {c : R} (hw : (w, c) ∈ us)
    (hunk : w ≠ "<unk>".toList) (hno : ∀ i, (w, i) ∉ vs) : convertUnigram num lm vocab = .error .throw := by
  have eunk : "<unk>".toList = tUnk := by decide
  rw [eunk] at hunk
  have hread : readUnigram num lm = .ok (dictAll [] us) := by
    rcases hlm with h | h
    · exact readUnigram_arpa1 num h hval
    · exact readUnigram_arpaN num h hval
  unfold convertUnigram
  rw [readVocab_ok hvoc, ok_bind, hread, ok_bind]
  have hn : dictGet (dictAll [] (asInt vs)) w = none := dictGet_none_iff.mpr fun q hq e => by
    obtain ⟨p, hp, rfl⟩ := List.mem_map.mp hq
    exact hno p.2 (e ▸ hp)
  obtain ⟨c', hc'⟩ := last_of_mem hw
  have ou : Once (dictSet (dictAll [] us) tBos num.zero) := once_set (once_all _ _ List.Pairwise.nil) _ _
  have hex : ∃ x, (w, x) ∈ dictSet (dictAll [] us) tBos num.zero := by
    by_cases hb : w = tBos
    · exact ⟨num.zero, (once_get ou).mpr (by rw [dictGet_set, if_pos hb])⟩
    · exact ⟨c', (once_get ou).mpr (by rw [dictGet_set, if_neg hb]; exact dictGet_iff.mpr hc')⟩
  obtain ⟨x, hx⟩ := hex
  have : buildCost num (dictAll [] (asInt vs)) (dictSet (dictAll [] us) tBos num.zero) = .error .throw := by
    unfold buildCost
    cases maxValue (dictAll [] (asInt vs)) with
    | none => rfl
    | some m =>
      simp only
      refine foldlM_fails (costWord_throw num _) (x := (w, x)) (fun d => ?_) _ _ hx
      unfold costWord
      simp only [hn]
      rw [if_neg hunk]
  rw [this]
  rfl

/-- A vocabulary without the word `b` of the language model. -/
example : convertUnigram demoNum demoLm ["<s> 1".toList, "a 2".toList] = .error .throw :=
  C74_unknown_word_refused demoNum (tail := []) (vs := [("<s>".toList, 1), ("a".toList, 2)]) (w := "b".toList) (c := -4)
    (.inr demoLm_is) demo_valued (.entry (reads_of (by decide)) (.entry (reads_of (by decide)) .nil)) (by decide)
    (by decide) (by
    intro i h
    simp at h)

/-- C73 and C74: converting the pruned file gives the bytes that converting the file gives. -/
theorem C73_same_costs (num : Num R) {lines out : List Txt} (h : prune lines = .ok out) (vocab : List Txt) :
    ∃ marks d rest, lines = marks ++ d :: rest ∧ (∀ l ∈ marks, Blank l ∨ Says l "iARPA".toList) ∧
      Says d "\\data\\".toList ∧ convertUnigram num out vocab = convertUnigram num (d :: rest) vocab := by
  obtain ⟨marks, d, rest, h1, h2, h3, h4⟩ := C73_same_unigrams num h
  refine ⟨marks, d, rest, h1, h2, h3, ?_⟩
  unfold convertUnigram
  rw [h4]

/-- The costs from the pruned file. -/
example : (prune demoLm >>= fun out => convertUnigram demoNum out demoVocab) =
    .ok (Ser.writeVec [1000, 0, 3, 1000, 4]) := by decide +kernel

/-! ## C75: `tool/convert_trans.py` -/

theorem one_number {l : Txt} {x : Int} (h : Reads l [(toString x).toList]) : pyInt (strip l) = some x := by
  have hw := (pyInt_int x).1
  have hx := (pyInt_int x).2
  have hs : Says l (toString x).toList := by
    generalize (toString x).toList = w at h hw
    cases h with
    | cons hs hw' hr h =>
      cases h with
      | nil hr' =>
        exact ⟨_, _, rfl, hs, hr', hw.1, fun c hc => hw.2 c (List.mem_of_mem_head? hc),
          fun c hc => hw.2 c (List.mem_of_getLast? hc)⟩
  rw [strip_of_says hs, hx]

/-- C75: from the text that `extract_id2pdf` prints, the converter writes the vector from which the acoustic model takes
its map: at each transition id the pdf of the id's last line, zero if it has none. -/
theorem C75_transition_map {a b : Txt} {lines : List Txt} {pdfs : Int} {n : Nat} {ps : List (Nat × Int)}
    (ha : Reads a [(toString pdfs).toList]) (hb : Reads b [(toString n).toList]) (hl : IsMap lines ps)
    (hp : ∀ p ∈ ps, p.1 ≤ n ∧ InI32 p.2) (hn : (n + 1) * 4 + 4 ≤ 2147483647) :
    ∃ m : List Int, convertTrans (a :: b :: lines) = .ok (Ser.writeVec (intWords m)) ∧
      (∀ rest, Ser.readVec (Ser.writeVec (intWords m) ++ rest) = .ok ((intWords m).map some, rest)) ∧
      App.ints ((intWords m).map some) = .ok m ∧ m.length = n + 1 ∧
      (∀ (i : Nat) x, LastIs ps i x → m[i]? = some x) ∧ ∀ i : Nat, i ≤ n → (∀ x, (i, x) ∉ ps) → m[i]? = some 0 := by
  obtain ⟨m, h1, h2, h3, h4⟩ := trans_fold hl (List.replicate ((n : Int) + 1).toNat 0) (by
    intro p h
    have := (hp p h).1
    rw [List.length_replicate]
    omega)
  rw [List.length_replicate] at h2
  have hlen : m.length = n + 1 := by omega
  have zero : ∀ i : Nat, i ≤ n → (∀ x, (i, x) ∉ ps) → m[i]? = some 0 := by
    intro i hi hno
    rw [h4 i fun p hp e => hno p.2 (e ▸ hp), List.getElem?_replicate, if_pos (by omega)]
  have hall : ∀ x ∈ m, InI32 x := by
    intro x hx
    obtain ⟨i, hi, e⟩ := List.mem_iff_getElem.mp hx
    rcases last_or_none i ps with ⟨y, hy⟩ | hno
    · have := h3 i y hy
      rw [List.getElem?_eq_getElem hi, e] at this
      cases this
      exact (hp _ hy.mem).2
    · have := zero i (by omega) fun y hy => hno _ hy rfl
      rw [List.getElem?_eq_getElem hi, e] at this
      cases this
      decide
  have hne : m ≠ [] := by
    intro e
    rw [e] at hlen
    cases hlen
  refine ⟨m, ?_, fun rest => Ser.C31_vector _ (App.intWords_ok ⟨hne, by omega, hall⟩) rest, App.ints_words m hall, hlen, h3, zero⟩
  · unfold convertTrans
    rw [List.map_cons, List.map_cons]
    simp only
    have hb' : pyInt (strip b) = some (n : Int) := one_number (x := (n : Int)) hb
    rw [one_number ha, hb']
    simp only
    rw [h1, ok_bind, if_pos ⟨by omega, hall⟩]
    rfl

/-- A map of three transitions; the line of transition 0 is missing, transition 2 has two lines. -/
example : (∃ m : List Int, convertTrans (["2", " 3", "1 0", "2 7", "3 1", "2 1"].map String.toList) =
      .ok (Ser.writeVec (intWords m)) ∧ m.length = 4 ∧ m[2]? = some 1 ∧ m[0]? = some 0) ∧
    convertTrans (["2", " 3", "1 0", "2 7", "3 1", "2 1"].map String.toList) = .ok (Ser.writeVec [0, 0, 1, 1]) := by
  refine ⟨?_, by decide +kernel⟩
  obtain ⟨m, h1, -, -, h2, h3, h4⟩ := C75_transition_map (a := "2".toList) (b := " 3".toList) (pdfs := 2) (n := 3)
    (lines := ["1 0".toList, "2 7".toList, "3 1".toList, "2 1".toList]) (ps := [(1, 0), (2, 7), (3, 1), (2, 1)])
    (reads_of (by decide)) (reads_of (by decide))
    (.entry (reads_of (by decide)) (.entry (reads_of (by decide)) (.entry (reads_of (by decide)) (.entry (reads_of (by decide))
      .nil)))) (by decide) (by decide)
  exact ⟨m, h1, h2, h3 2 1 ⟨[(1, 0), (2, 7), (3, 1)], [], rfl, by intro q h; cases h⟩, h4 0 (by omega) (by simp)⟩

/-- C75: a blank line after the first two, as at the end of a file, is refused. -/
theorem C75_blank_line_refused {a b l : Txt} {lines : List Txt} (h : l ∈ lines) (hl : Blank l) :
    convertTrans (a :: b :: lines) = .error .throw := by
  unfold convertTrans
  rw [List.map_cons, List.map_cons]
  simp only
  split
  · have : ∀ m : List Int, (lines.map strip).foldlM transLine m = .error .throw := by
      intro m
      refine foldlM_fails transLine_throw (x := strip l) (fun d => ?_) _ _ (List.mem_map.mpr ⟨l, h, rfl⟩)
      rw [strip_of_blank hl]
      rfl
    rw [this]
    rfl
  · rfl

/-- A blank line at the end. -/
example : convertTrans (["1", "1", "0 0", "1 0", ""].map String.toList) = .error .throw :=
  C75_blank_line_refused (l := []) (by decide) Blank.nil

theorem trans_over {lines : List Txt} {ps : List (Nat × Int)} (h : IsMap lines ps) : ∀ m : List Int,
    (∃ p ∈ ps, m.length ≤ p.1) → (lines.map strip).foldlM transLine m = .error .throw := by
  induction h with
  | nil =>
    rintro m ⟨p, hp, -⟩
    cases hp
  | entry hl _ ih =>
    rename_i l ls ps i x _
    intro m hm
    have e : transLine m (strip l) = pySet m i x := by
      unfold transLine
      rw [fields_strip, fields_of_reads hl]
      simp only [pyInt_nat, (pyInt_int x).2]
    rw [List.map_cons, List.foldlM_cons, e]
    by_cases hi : i < m.length
    · rw [pySet_nat hi, ok_bind]
      refine ih _ ?_
      obtain ⟨p, hp, hle⟩ := hm
      rcases List.mem_cons.mp hp with rfl | hp
      · exact absurd hi (by simp only at hle; omega)
      · exact ⟨p, hp, by rw [List.length_set]; exact hle⟩
    · have : pySet m (i : Int) x = .error .throw := by
        unfold pySet
        rw [if_pos (by omega), if_neg (by omega)]
      rw [this]
      rfl

/-- C75: a map with an id above the announced number of transitions is refused; no vector is written. -/
theorem C75_large_id_refused {a b : Txt} {lines : List Txt} {pdfs : Int} {n : Nat} {ps : List (Nat × Int)}
    (ha : Reads a [(toString pdfs).toList]) (hb : Reads b [(toString n).toList]) (hl : IsMap lines ps)
    (hp : ∃ p ∈ ps, n < p.1) : convertTrans (a :: b :: lines) = .error .throw := by
  have hb' : Reads b [(toString (n : Int)).toList] := hb
  unfold convertTrans
  rw [List.map_cons, List.map_cons]
  simp only [one_number ha, one_number hb']
  rw [trans_over hl _ (by
    obtain ⟨p, h1, h2⟩ := hp
    exact ⟨p, h1, by rw [List.length_replicate]; omega⟩)]
  rfl

/-- Two transitions are announced, and there is a line for the third. -/
example : convertTrans (["1", "2", "3 0"].map String.toList) = .error .throw :=
  C75_large_id_refused (a := "1".toList) (b := "2".toList) (lines := ["3 0".toList]) (pdfs := 1) (n := 2) (ps := [(3, 0)])
    (reads_of (by decide)) (reads_of (by decide)) (.entry (reads_of (by decide)) .nil) ⟨_, List.mem_cons_self, by decide⟩

/-- C75: a number written with a plus sign is read as the number. -/
theorem C75_plus_sign (n : Nat) : pyInt ('+' :: (toString n).toList) = some (n : Int) := by
  have hw : IsWord ('+' :: (toString n).toList) := by
    refine ⟨by simp, fun c h => ?_⟩
    rcases List.mem_cons.mp h with h | h
    · subst h; exact not_white_of (by decide)
    · exact (isWord_nat n).2 c h
  unfold pyInt
  rw [strip_of_word hw, nat_toList]
  simp only [if_true, if_neg Nat.toDigits_ne_nil, digits_toDigits, Option.map_some]
  rfl

/-- One transition, whose id and pdf are written with plus signs. -/
example : convertTrans (["+1", "+2", "+2 +7"].map String.toList) = .ok (Ser.writeVec (intWords [0, 0, 7])) := by decide +kernel

end Verif.Tool
