import Verif.SymbolLemmas

/-!
# Properties of configurations and symbol tables: C38, C39, C40, C53 (symbol part), C56, C57
-/

namespace Verif.Text

open Verif

/-! ## C38: configuration -/

/-- The bytes of a configuration file: entries with their line ends, and a last line without line end. -/
def confBytes (es : List ConfEntry) (tail : Str) : Str := (es.map (fun e => e.line ++ e.eol)).flatten ++ tail

/-- C38: a configuration of blank lines, comments and definitions (the last line may lack its newline) is read
successfully.  Afterwards a key, in any letter case, has the value of its last definition, and a key that is not
defined has what it had before reading, so the default when the configuration was empty. -/
theorem C38_lookup (c : Config) (filename tail : Str) (es : List ConfEntry) (tailMean : Option (Str × Str))
    (hes : ∀ e ∈ es, e.Good) (ht : GoodTail tail) (hm : ConfLine tail tailMean) :
    ∃ c', c.read filename (confBytes es tail) = .ok c' ∧ c'.file = filename ∧
      ∀ key dflt,
        (∀ pre k v post, es.filterMap ConfEntry.mean ++ tailMean.toList = pre ++ (k, v) :: post →
          SameKey k key → (∀ p ∈ post, ¬ SameKey p.1 key) → c'.getStringOrElse key dflt = v) ∧
        ((∀ p ∈ es.filterMap ConfEntry.mean ++ tailMean.toList, ¬ SameKey p.1 key) →
          c'.getStringOrElse key dflt = c.getStringOrElse key dflt) := by
  have hlines := readLines_file (es.map (fun e => (e.line, e.eol))) tail (by
    intro p hp
    obtain ⟨e, he, rfl⟩ := List.mem_map.1 hp
    exact (hes e he).1) ht
  simp only [List.map_map] at hlines
  change readLines ((confBytes es tail).length + 2) ⟨confBytes es tail, false⟩ = _ at hlines
  have hfold : ∃ os : List (Str × Option (Str × Str)),
      (es.map (Prod.fst ∘ fun e => (e.line, e.eol)) ++ if tail = [] then [] else [tail]) = os.map Prod.fst ∧
      (∀ o ∈ os, ConfLine o.1 o.2) ∧
      (os.map Prod.snd).filterMap id = es.filterMap ConfEntry.mean ++ tailMean.toList := by
    have hes' : (es.map (fun e => (e.line, e.mean))).map Prod.snd = es.map ConfEntry.mean := by
      rw [List.map_map]; rfl
    have hff : ∀ l : List ConfEntry, (l.map ConfEntry.mean).filterMap id = l.filterMap ConfEntry.mean := by
      intro l; rw [List.filterMap_map]; rfl
    by_cases htl : tail = []
    · refine ⟨es.map (fun e => (e.line, e.mean)), ?_, ?_, ?_⟩
      · rw [if_pos htl, List.map_map, List.append_nil]; rfl
      · intro o ho
        obtain ⟨e, he, rfl⟩ := List.mem_map.1 ho
        exact (hes e he).2
      · have : tailMean = none := by
          rw [htl] at hm
          generalize hx : ([] : Str) = x at hm
          cases hm with
          | blank => rfl
          | comment w r => simp at hx
          | define w0 k w1 w2 v w3 => simp at hx
        rw [hes', hff, this]; simp
    · refine ⟨es.map (fun e => (e.line, e.mean)) ++ [(tail, tailMean)], ?_, ?_, ?_⟩
      · rw [if_neg htl, List.map_append, List.map_map]; rfl
      · intro o ho
        rcases List.mem_append.1 ho with ho | ho
        · obtain ⟨e, he, rfl⟩ := List.mem_map.1 ho
          exact (hes e he).2
        · rw [List.mem_singleton] at ho; subst ho; exact hm
      · rw [List.map_append, hes', List.filterMap_append, hff]
        cases tailMean <;> rfl
  obtain ⟨os, ho1, ho2, ho3⟩ := hfold
  rw [ho1] at hlines
  have hread : c.read filename (confBytes es tail) =
      .ok ⟨filename, ((es.filterMap ConfEntry.mean ++ tailMean.toList).map
        (fun p => (tolower p.1, p.2))).reverse ++ c.table⟩ := by
    unfold Config.read
    rw [configLoop_fold _ _ c.table _ _ hlines, configFold_mean os c.table ho2, foldl_addDef, ho3]
    rfl
  refine ⟨_, hread, rfl, fun key dflt => ⟨fun pre k v post he hk hpost => ?_, fun hno => ?_⟩⟩
  · unfold Config.getStringOrElse
    simp only
    rw [mapFind_append, mapFind_eq, List.reverse_reverse]
    have : lastOf ((es.filterMap ConfEntry.mean ++ tailMean.toList).map (fun p => (tolower p.1, p.2)))
        (tolower key) = some v := by
      rw [lastOf_some]
      refine ⟨pre.map (fun p => (tolower p.1, p.2)), post.map (fun p => (tolower p.1, p.2)), ?_, ?_⟩
      · rw [he, List.map_append, List.map_cons, (tolower_eq k key).2 hk]
      · intro p hp
        obtain ⟨q, hq, rfl⟩ := List.mem_map.1 hp
        exact fun h => hpost q hq ((tolower_eq _ _).1 h)
    rw [this]; rfl
  · unfold Config.getStringOrElse
    simp only
    rw [mapFind_append, mapFind_eq, List.reverse_reverse]
    have : lastOf ((es.filterMap ConfEntry.mean ++ tailMean.toList).map (fun p => (tolower p.1, p.2)))
        (tolower key) = none := by
      rw [lastOf_none]
      intro p hp
      obtain ⟨q, hq, rfl⟩ := List.mem_map.1 hp
      exact fun h => hno q hq ((tolower_eq _ _).1 h)
    rw [this]; rfl

/-- C38: reading any file at all ends with OK or `Corruption`, never with a fault. -/
theorem C38_read_never_faults (c : Config) (filename content : Str) :
    (∃ c', c.read filename content = .ok c') ∨ c.read filename content = bad .corruption := by
  obtain ⟨ls, b, hl⟩ := readLines_content content
  unfold Config.read
  rw [configLoop_fold _ _ c.table _ _ hl]
  rcases configFold_status ls c.table with ⟨t, h⟩ | h
  · rw [h]; exact Or.inl ⟨_, rfl⟩
  · rw [h]; exact Or.inr rfl

/-- C38: an absolute path is returned as it is, a relative one is put behind the directory of the
configuration file.
Missing for the full property: a value that is the string `kDefaultString` itself, see
`C38_sentinel_value_lost`. -/
theorem C38_path_partial (c : Config) (key v dflt : Str) (hv : c.getStringOrElse key kDefault = v)
    (hs : v ≠ kDefault) (hne : v ≠ []) :
    (v.head? = some 47 → c.getPathOrElse key dflt = .ok v) ∧
    (v.head? ≠ some 47 → 47 ∉ c.file → c.getPathOrElse key dflt = .ok v) ∧
    (v.head? ≠ some 47 → ∀ dir base, c.file = dir ++ [47] ++ base → 47 ∉ base →
      c.getPathOrElse key dflt = .ok (dir ++ [47] ++ v)) := by
  unfold Config.getPathOrElse
  rw [hv]
  simp only [if_neg hs]
  cases v with
  | nil => exact absurd rfl hne
  | cons x v =>
    refine ⟨fun h => ?_, fun h hf => ?_, fun h dir base hf hb => ?_⟩
    · have : x = 47 := by simpa using h
      simp only [this, if_true]
    · have hx : x ≠ 47 := fun h' => h (by rw [h']; rfl)
      simp only [if_neg hx, rfindSlash_none hf]
    · have hx : x ≠ 47 := fun h' => h (by rw [h']; rfl)
      have e : c.file = dir ++ 47 :: base := by rw [hf]; simp
      simp only [if_neg hx]
      rw [e, rfindSlash_some hb]
      simp only
      rw [show dir ++ 47 :: base = (dir ++ [47]) ++ base by simp,
        show dir.length + 1 = (dir ++ [47]).length by simp, List.take_left]

/-- C38: a key that is not defined gives the default path. -/
theorem C38_path_default (c : Config) (key dflt : Str) (h : mapFind c.table (tolower key) = none) :
    c.getPathOrElse key dflt = .ok dflt := by
  unfold Config.getPathOrElse Config.getStringOrElse
  rw [h]
  rfl

/-- C38: path lookups in a configuration that was read from a file are never undefined (the value whose first
character is inspected is never empty). -/
theorem C38_path_never_faults (filename content key dflt : Str) (c : Config)
    (h : Config.read ⟨[], []⟩ filename content = .ok c) : ∃ p, c.getPathOrElse key dflt = .ok p := by
  obtain ⟨ls, b, hl⟩ := readLines_content content
  unfold Config.read at h
  rw [configLoop_fold _ _ [] _ _ hl] at h
  obtain ⟨t, ht, h⟩ := io_bind_ok h
  cases h
  have hn : NonemptyVals t := configFold_nonempty ht (by intro p hp; simp at hp)
  unfold Config.getPathOrElse
  generalize hs : Config.getStringOrElse ⟨filename, t⟩ key kDefault = path
  simp only
  by_cases hd : path = kDefault
  · exact ⟨_, if_pos hd⟩
  · rw [if_neg hd]
    cases path with
    | nil =>
      exfalso
      unfold Config.getStringOrElse at hs
      cases hm : mapFind t (tolower key) with
      | none => simp only [hm] at hs; exact hd hs.symm
      | some v =>
        simp only [hm] at hs
        exact hn _ (mapFind_mem hm) hs
    | cons x path =>
      simp only
      by_cases hx : x = 47
      · exact ⟨_, if_pos hx⟩
      · rw [if_neg hx]
        cases rfindSlash filename <;> exact ⟨_, rfl⟩

/-- C38, negative part: a key whose value is the string the program uses for "not found" is reported missing by
`GetString`, and the default is returned for it as a path, although it is defined. -/
theorem C38_sentinel_value_lost (key dflt : Str) (c : Config)
    (h : mapFind c.table (tolower key) = some kDefault) :
    c.getStringOrElse key dflt = kDefault ∧ c.getString key = bad .corruption ∧
      c.getPathOrElse key dflt = .ok dflt := by
  unfold Config.getString Config.getPathOrElse Config.getStringOrElse
  rw [h]
  exact ⟨rfl, rfl, rfl⟩

/-- The configuration `"# c\nFst = a/b\n\nfst=/x"` read from `"d/e.conf"`. -/
example : ∃ c, Config.read ⟨[], []⟩ [100, 47, 101]
    (confBytes [⟨[35, 32, 99], [10], none⟩, ⟨[70, 115, 116, 32, 61, 32, 97, 47, 98], [13, 10], none⟩, ⟨[], [10], none⟩]
      [102, 115, 116, 61, 47, 120]) = .ok c ∧ c.getStringOrElse [70, 83, 84] [] = [47, 120] ∧
      c.getPathOrElse [102, 115, 116] [] = .ok [47, 120] :=
  ⟨⟨[100, 47, 101], [([102, 115, 116], [47, 120]), ([102, 115, 116], [97, 47, 98])]⟩, by decide +kernel,
    by decide +kernel, by decide +kernel⟩

/-- The same lines satisfy the hypotheses of `C38_lookup`. -/
example : (∀ e ∈ [(⟨[35, 32, 99], [10], none⟩ : ConfEntry),
      ⟨[70, 115, 116, 32, 61, 32, 97, 47, 98], [13, 10], some ([70, 115, 116], [97, 47, 98])⟩, ⟨[], [10], none⟩],
      e.Good) ∧ GoodTail [102, 115, 116, 61, 47, 120] ∧
    ConfLine [102, 115, 116, 61, 47, 120] (some ([102, 115, 116], [47, 120])) := by
  have tight : ∀ s : Str, (∀ c ∈ s, isSpace c = false) → Tight s := fun s h =>
    ⟨fun c hc hw => (by have := h c (List.mem_of_head? hc); rw [(isSpace_iff c).2 hw] at this; cases this),
     fun c hc hw => (by have := h c (List.mem_of_getLast? hc); rw [(isSpace_iff c).2 hw] at this; cases this)⟩
  have white : ∀ s : Str, (∀ c ∈ s, isSpace c = true) → ∀ c ∈ s, White c := fun s h c hc =>
    (isSpace_iff c).1 (h c hc)
  refine ⟨?_, ⟨by decide, by decide, by decide, by decide⟩, ?_⟩
  · intro e he
    simp only [List.mem_cons, List.not_mem_nil, or_false] at he
    rcases he with rfl | rfl | rfl
    · exact ⟨⟨by decide, by decide, by decide, Or.inl rfl, by decide⟩, ConfLine.comment [] [32, 99] (by simp)⟩
    · exact ⟨⟨by decide, by decide, by decide, Or.inr rfl, by decide⟩,
        ConfLine.define [] [70, 115, 116] [32] [32] [97, 47, 98] [] (by simp) (white _ (by decide))
          (white _ (by decide)) (by simp) (by decide) (by decide) (tight _ (by decide)) (tight _ (by decide))
          (by decide) (by decide) (by decide)⟩
    · exact ⟨⟨by decide, by decide, by decide, Or.inl rfl, by decide⟩, ConfLine.blank [] (by simp)⟩
  · exact ConfLine.define [] [102, 115, 116] [] [] [47, 120] [] (by simp) (by simp) (by simp) (by simp)
      (by decide) (by decide) (tight _ (by decide)) (tight _ (by decide)) (by decide) (by decide) (by decide)

/-- A relative path. -/
example : Config.getPathOrElse ⟨[100, 47, 101], [([102], [97, 47, 98])]⟩ [70] [] = .ok [100, 47, 97, 47, 98] := by
  decide +kernel

example : Config.getStringOrElse ⟨[100, 47, 101], [([102], [97, 47, 98])]⟩ [70] kDefault = [97, 47, 98] ∧
    ([97, 47, 98] : Str) ≠ kDefault ∧ ([97, 47, 98] : Str) ≠ [] := by decide +kernel

example : mapFind [([102], kDefault)] (tolower [70]) = some kDefault := by decide +kernel

/-! ## C56: integers in a configuration -/

/-- C56: an integer value written in decimal, optionally with a minus sign, within the range of `int`, is
returned; the smallest `int` is not (see `C56_int_min_lost`).
Missing for the full property: values that are not numbers do not give an error status,
see `C56_malformed_integer_throws` and `C56_trailing_garbage_ignored`. -/
theorem C56_integer_partial (c : Config) (key v : Str) (n : Nat) (hd : Decimal v n) (hn : n < 2147483648)
    (hv : mapFind c.table (tolower key) = some v) : c.getInteger key = .ok (n : Int) := by
  have hns : v ≠ kDefault := by
    rintro rfl
    have : Dec 126 := hd.2.1 126 (by decide)
    exact absurd this (by unfold Dec; decide)
  unfold Config.getInteger Config.getIntegerOrElse Config.getStringOrElse
  rw [hv]
  simp only [if_neg hns]
  have hs : sign v = (false, v) := by
    cases v with
    | nil => exact absurd rfl hd.1
    | cons x v => exact sign_dec (hd.2.1 x (List.mem_cons_self ..))
  have hst : stoi v = .ok (n : Int) := by
    unfold stoi
    rw [cstr_id hd.noNul, hs]
    cases hvv : v with
    | nil => exact absurd hvv hd.1
    | cons x xs =>
      have hx : Dec x := hd.2.1 x (by rw [hvv]; exact List.mem_cons_self ..)
      simp only [hx.digit, if_true]
      rw [← hvv, digits_dec v 0 hd.2.1]
      have : v.foldl (fun n c => n * 10 + (c.toNat - 48)) 0 = n := hd.2.2.2
      rw [this]
      simp only [Bool.false_eq_true, if_false]
      rw [if_pos (by omega)]
  have : Io.ofExec (stoi v) = .ok (n : Int) := by rw [hst]; rfl
  rw [this, io_ok_bind, if_neg (by omega)]

/-- C56, negative part: a value that does not begin with a number, or a number that does not fit, makes
`GetInteger` throw instead of returning a status; nothing in `ce_stt_init` catches it. -/
theorem C56_malformed_integer_throws :
    Config.getInteger ⟨[], [([107], [97])]⟩ [107] = .error (.fault .throw) ∧
    Config.getInteger ⟨[], [([107], [50, 49, 52, 55, 52, 56, 51, 54, 52, 56])]⟩ [107] = .error (.fault .throw) := by
  decide +kernel

/-- C56, negative part: what follows the digits is ignored: `12x` is read as 12. -/
theorem C56_trailing_garbage_ignored :
    Config.getInteger ⟨[], [([107], [49, 50, 120])]⟩ [107] = .ok 12 := by decide +kernel

/-- C56, negative part: the smallest `int`, `-2147483648`, is reported as a missing key. -/
theorem C56_int_min_lost :
    Config.getInteger ⟨[], [([107], [45, 50, 49, 52, 55, 52, 56, 51, 54, 52, 56])]⟩ [107] = bad .corruption := by
  decide +kernel

example : Decimal [49, 50, 48] 120 := ⟨by decide, by decide, Or.inr (by decide), by decide⟩

/-! ## C39: symbol tables -/

/-- The bytes of a symbol file. -/
def symBytes (es : List SymEntry) : Str := (es.map (fun e => e.line ++ e.eol)).flatten

/-- The words with their ids, in file order. -/
def symPairs (es : List SymEntry) : List (Str × Int) := es.map (fun e => (e.word, (e.id : Int)))

theorem symbolLoop_entries (es : List SymEntry) (h : ∀ e ∈ es, e.Ok ∧ GoodLine e.line e.eol) :
    ∃ t, symbolLoop ((symBytes es).length + 2) ⟨symBytes es, false⟩ ⟨[], [], 0, 0⟩ = .ok t ∧
      TInv (symPairs es) t := by
  have hlines := readLines_file (es.map (fun e => (e.line, e.eol))) [] (by
    intro p hp
    obtain ⟨e, he, rfl⟩ := List.mem_map.1 hp
    exact (h e he).2) ⟨by simp, by simp, by simp, by simp⟩
  simp only [List.map_map, if_true, List.append_nil] at hlines
  change readLines ((symBytes es).length + 2) ⟨symBytes es, false⟩ = _ at hlines
  obtain ⟨t, h1, h2⟩ := symbolFold_entries es ⟨[], [], 0, 0⟩ [] (fun e he => (h e he).1) TInv.empty
  refine ⟨t, ?_, by simpa [symPairs] using h2⟩
  rw [symbolLoop_fold _ _ _ _ _ hlines]
  have : es.map (Prod.fst ∘ fun e => (e.line, e.eol)) = es.map SymEntry.line := rfl
  rw [this, h1]
  rfl

theorem findBosEos_inv {t t' : Symbols} {es : List (Str × Int)} (h : TInv es t) (hf : findBosEos t = .ok t') :
    TInv es t' ∧ t'.bos = t'.getId kBos ∧ t'.eos = t'.getId kEos := by
  unfold findBosEos at hf
  split at hf
  · next b e hb he =>
    cases hf
    refine ⟨⟨h.range, h.top, h.word, h.id⟩, ?_, ?_⟩
    · simp [Symbols.getId, hb]
    · simp [Symbols.getId, he]
  · cases hf

/-- C39: a file of lines `word number` (decimal, below 2^31) is read successfully exactly if `<s>` and `</s>`
are among the words (otherwise `Corruption`), and then `Get` and `GetId` answer as the last lines for the id or
word say; `bos_id` and `eos_id` are the ids of `<s>` and `</s>`. -/
theorem C39_symbol_table (es : List SymEntry) (h : ∀ e ∈ es, e.Ok ∧ GoodLine e.line e.eol) :
    (sentBegin ∈ es.map SymEntry.word ∧ sentEnd ∈ es.map SymEntry.word →
      ∃ t, readSymbols (symBytes es) = .ok t ∧ Consistent t (symPairs es) ∧
        t.bos = t.getId sentBegin ∧ t.eos = t.getId sentEnd) ∧
    (¬ (sentBegin ∈ es.map SymEntry.word ∧ sentEnd ∈ es.map SymEntry.word) →
      readSymbols (symBytes es) = bad .corruption) := by
  rw [show sentBegin = kBos from rfl, show sentEnd = kEos from rfl]
  obtain ⟨t, h1, h2⟩ := symbolLoop_entries es h
  have hfind : ∀ w, mapFind t.ids w = none ↔ w ∉ es.map SymEntry.word := by
    intro w
    rw [h2.id w, Option.map_eq_none_iff, lastOf_none]
    constructor
    · intro hn hw
      obtain ⟨e, he, rfl⟩ := List.mem_map.1 hw
      exact hn (e.word, e.id) (List.mem_map.2 ⟨e, he, rfl⟩) rfl
    · intro hn p hp hw
      obtain ⟨e, he, rfl⟩ := List.mem_map.1 hp
      exact hn (List.mem_map.2 ⟨e, he, hw⟩)
  unfold readSymbols
  rw [h1, io_ok_bind]
  constructor
  · rintro ⟨hb, he⟩
    cases hb' : mapFind t.ids kBos with
    | none => exact absurd hb ((hfind _).1 hb')
    | some b =>
      cases he' : mapFind t.ids kEos with
      | none => exact absurd he ((hfind _).1 he')
      | some e =>
        have hf : findBosEos t = .ok { t with bos := b, eos := e } := by
          unfold findBosEos; rw [hb', he']
        obtain ⟨hi, hbos, heos⟩ := findBosEos_inv h2 hf
        exact ⟨_, hf, hi.consistent, hbos, heos⟩
  · intro hn
    unfold findBosEos
    cases hb' : mapFind t.ids kBos with
    | none => rfl
    | some b =>
      cases he' : mapFind t.ids kEos with
      | none => rfl
      | some e =>
        have b1 : kBos ∈ es.map SymEntry.word := Decidable.byContradiction fun h => by
          rw [(hfind _).2 h] at hb'; cases hb'
        have b2 : kEos ∈ es.map SymEntry.word := Decidable.byContradiction fun h => by
          rw [(hfind _).2 h] at he'; cases he'
        exact absurd ⟨b1, b2⟩ hn

/-- C39, for any file whatsoever: if it is accepted, every one of its lines is a word, a blank and a number that
is not negative (and possibly a blank after it), and the table answers as the last lines for each id or word
say. -/
theorem C39_any_accepted_file (content : Str) (t : Symbols) (h : readSymbols content = .ok t) :
    ∃ (ls : List Str) (ds : List (Str × Int)),
      readLines (content.length + 2) ⟨content, false⟩ = .ok (ls, false) ∧ ls.length = ds.length ∧
      (∀ p ∈ ls.zip ds, SymLine p.1 p.2.1 p.2.2) ∧ (∀ d ∈ ds, 0 ≤ d.2) ∧ Consistent t ds := by
  obtain ⟨ls, b, hl⟩ := readLines_content content
  unfold readSymbols at h
  obtain ⟨t1, h1, h⟩ := io_bind_ok h
  rw [symbolLoop_fold _ _ _ _ _ hl] at h1
  obtain ⟨t2, h2, h1⟩ := io_bind_ok h1
  cases b with
  | true => cases h1
  | false =>
    cases h1
    obtain ⟨ds, hd1, hd2, hd3, hd4⟩ := symbolFold_inv ls [] ⟨[], [], 0, 0⟩ _ TInv.empty h2
    rw [List.nil_append] at hd4
    exact ⟨ls, ds, hl, hd1, hd2, hd3, (findBosEos_inv hd4 h).1.consistent⟩

/-- The file `"<s> 1\n</s> 2\na 4\na 0\n"`. -/
example : ∃ t, readSymbols (symBytes [⟨sentBegin, [49], 1, [10]⟩, ⟨sentEnd, [50], 2, [10]⟩, ⟨[97], [52], 4, [10]⟩,
      ⟨[97], [48], 0, [10]⟩]) = .ok t ∧
    t.get 0 = .ok [97] ∧ t.get 1 = .ok sentBegin ∧ t.get 3 = .ok [] ∧ t.get 4 = .ok [97] ∧
    t.get 5 = .error .assert ∧ t.getId [97] = 0 ∧ t.getId [98] = -1 ∧ t.eos = 2 :=
  ⟨⟨[[97], sentBegin, sentEnd, [], [97]], [([97], 0), ([97], 4), (sentEnd, 2), (sentBegin, 1)], 1, 2⟩, by decide +kernel,
    by decide +kernel⟩

example : ∀ e ∈ [(⟨sentBegin, [49], 1, [10]⟩ : SymEntry), ⟨sentEnd, [50], 2, [10]⟩, ⟨[97], [52], 4, [10]⟩,
      ⟨[97], [48], 0, [10]⟩], e.Ok ∧ GoodLine e.line e.eol := by
  intro e he
  simp only [List.mem_cons, List.not_mem_nil, or_false] at he
  rcases he with rfl | rfl | rfl | rfl
  · exact ⟨⟨by decide, ⟨by decide, by decide, Or.inr (by decide), by decide⟩, by decide⟩,
      by decide, by decide, by decide, Or.inl rfl, by decide⟩
  · exact ⟨⟨by decide, ⟨by decide, by decide, Or.inr (by decide), by decide⟩, by decide⟩,
      by decide, by decide, by decide, Or.inl rfl, by decide⟩
  · exact ⟨⟨by decide, ⟨by decide, by decide, Or.inr (by decide), by decide⟩, by decide⟩,
      by decide, by decide, by decide, Or.inl rfl, by decide⟩
  · exact ⟨⟨by decide, ⟨by decide, by decide, Or.inl rfl, by decide⟩, by decide⟩,
      by decide, by decide, by decide, Or.inl rfl, by decide⟩

/-! ## C57: ids are decimal numbers -/

/-- C57, negative part: an id with a leading zero is read in octal: `a 010` gives the word the id 8; an id
missing after the blank is read as 0 when another blank follows it; hexadecimal ids are accepted. -/
theorem C57_leading_zero_octal :
    stringToLong [48, 49, 48] = .ok 8 ∧ stringToLong [] = .ok 0 ∧ stringToLong [48, 120, 49, 48] = .ok 16 := by
  decide +kernel

/-- C57: decimal numbers without superfluous zeros are read as their value.
Missing for the full property: numbers with leading zeros, for which it is false. -/
theorem C57_decimal_partial (x : Str) (n : Nat) (h : Decimal x n) (hn : n < 2 ^ 63) :
    stringToLong x = .ok (n : Int) := stringToLong_dec h hn

example : Decimal [52, 50] 42 := ⟨by decide, by decide, Or.inr (by decide), by decide⟩

/-! ## C40: the last line without newline -/

/-- C40 is false: every symbol file that reads well with its last newline is refused with `IOError` without
it. -/
theorem C40_missing_final_newline_rejected (es : List SymEntry) (e : SymEntry)
    (h : ∀ e ∈ es, e.Ok ∧ GoodLine e.line e.eol) (he : e.Ok) (ht : GoodTail e.line) :
    readSymbols (symBytes es ++ e.line) = bad .io := by
  have hne : e.line ≠ [] := by unfold SymEntry.line; simp
  have hlines := readLines_file (es.map (fun e => (e.line, e.eol))) e.line (by
    intro p hp
    obtain ⟨e, he, rfl⟩ := List.mem_map.1 hp
    exact (h e he).2) ht
  simp only [List.map_map, if_neg hne] at hlines
  change readLines ((symBytes es ++ e.line).length + 2) ⟨symBytes es ++ e.line, false⟩ = _ at hlines
  obtain ⟨t, h1, h2⟩ := symbolFold_entries (es ++ [e]) ⟨[], [], 0, 0⟩ [] (by
    intro e' he'
    rcases List.mem_append.1 he' with he' | he'
    · exact (h e' he').1
    · rw [List.mem_singleton] at he'; subst he'; exact he) TInv.empty
  unfold readSymbols
  rw [symbolLoop_fold _ _ _ _ _ hlines]
  have : es.map (Prod.fst ∘ fun e => (e.line, e.eol)) ++ [e.line] = (es ++ [e]).map SymEntry.line := by
    rw [List.map_append]; rfl
  rw [this, h1]
  simp [hne]

/-- The file `"<s> 1\n</s> 2"`; with the newline it is accepted. -/
example : readSymbols (symBytes [⟨sentBegin, [49], 1, [10]⟩] ++ SymEntry.line ⟨sentEnd, [50], 2, [10]⟩) = bad .io ∧
    ∃ t, readSymbols (symBytes [⟨sentBegin, [49], 1, [10]⟩, ⟨sentEnd, [50], 2, [10]⟩]) = .ok t :=
  ⟨by decide +kernel, ⟨[[], sentBegin, sentEnd], [(sentEnd, 2), (sentBegin, 1)], 1, 2⟩, by decide +kernel⟩

example : GoodTail (SymEntry.line ⟨sentEnd, [50], 2, [10]⟩) := ⟨by decide, by decide, by decide, by decide⟩

/-! ## C53, symbol part: negative ids -/

/-- C53 is false: after any good lines, a line `word -n` makes the reader write before the array (`n = 1`) or
throw an exception nothing catches (`n > 1`), instead of giving a non-OK status. -/
theorem C53_negative_symbol_id_faults (es : List SymEntry) (w x eol rest : Str) (n : Nat)
    (h : ∀ e ∈ es, e.Ok ∧ GoodLine e.line e.eol) (hw : 32 ∉ w) (hx : Decimal x n) (hn : 1 ≤ n)
    (hg : GoodLine (w ++ [32] ++ 45 :: x) eol) :
    readSymbols (symBytes es ++ (w ++ [32] ++ 45 :: x ++ eol) ++ rest) =
      .error (.fault (if n = 1 then .ub else .throw)) := by
  obtain ⟨t, h1, h2⟩ := symbolFold_entries es ⟨[], [], 0, 0⟩ [] (fun e he => (h e he).1) TInv.empty
  have hbad : symbolLine t (w ++ [32] ++ 45 :: x) = .error (.fault (if n = 1 then .ub else .throw)) := by
    have hs := split_entry (x := 45 :: x) hw (by
      intro hm
      rcases List.mem_cons.1 hm with hm | hm
      · cases hm
      · exact hx.noBlank hm) (by simp)
    unfold symbolLine
    rw [hs]
    show (stringToLong (45 :: x) >>= _) = _
    rw [stringToLong_neg hx, io_ok_bind]
    obtain ⟨v, hv, hr⟩ : ∃ v : Int, clamp 64 (-(n : Int)) = v ∧ (if n = 1 then v = -1 else -(2 ^ 63) ≤ v ∧ v < -1) := by
      refine ⟨_, rfl, ?_⟩
      split
      · next h1 => subst h1; rfl
      · unfold clamp
        simp only [Nat.reduceSub]
        split
        · omega
        · split <;> omega
    have hlen : t.words.length ≤ 2147483648 := by
      rcases h2.top with ht | ⟨p, hp, ht⟩
      · omega
      · rw [List.nil_append] at hp
        obtain ⟨e, he, rfl⟩ := List.mem_map.1 hp
        have := (h e he).1.small
        simp only at ht
        omega
    rw [hv]
    unfold growWords
    by_cases h1 : n = 1
    · rw [if_pos h1] at hr
      subst hr
      have hl : ((-1 : Int) % 2 ^ 64).toNat = 18446744073709551615 := by decide
      rw [if_neg (by decide : ¬ (-1 : Int) = 2 ^ 63 - 1), hl, if_pos (by omega), if_pos h1]
      have hz : resizeWords t.words (-1 + 1) = .ok [] := by
        unfold resizeWords
        simp
      rw [hz]
      rfl
    · rw [if_neg h1] at hr
      have e1 : (v % 2 ^ 64) = v + 2 ^ 64 := by omega
      have e2 : ((v + 1) % 2 ^ 64) = v + 1 + 2 ^ 64 := by omega
      rw [if_neg h1, e1, if_pos (by omega), if_neg (by omega)]
      unfold resizeWords
      rw [e2]
      simp only
      rw [if_pos (by omega)]
      rfl
  obtain ⟨ls', b, hl'⟩ := readLines_content rest
  have hlines := readLines_good (es.map (fun e => (e.line, e.eol)) ++ [(w ++ [32] ++ 45 :: x, eol)]) _ rest ls' b (by
    intro p hp
    rcases List.mem_append.1 hp with hp | hp
    · obtain ⟨e, he, rfl⟩ := List.mem_map.1 hp
      exact (h e he).2
    · rw [List.mem_singleton] at hp; subst hp; exact hg) hl'
  rw [← flatten_eq_fileOf] at hlines
  have hbytes : ((es.map (fun e : SymEntry => (e.line, e.eol)) ++ [(w ++ [32] ++ 45 :: x, eol)]).map
      (fun p : Str × Str => p.1 ++ p.2)).flatten ++ rest = symBytes es ++ (w ++ [32] ++ 45 :: x ++ eol) ++ rest := by
    simp [symBytes, Function.comp_def]
  rw [hbytes] at hlines
  have hlines := readLines_fuel hlines
  unfold readSymbols
  rw [symbolLoop_fold _ _ _ _ _ hlines, List.map_append, List.map_map, List.map_cons, List.map_nil,
    List.append_assoc, List.foldlM_append]
  have : es.map (Prod.fst ∘ fun e => (e.line, e.eol)) = es.map SymEntry.line := rfl
  rw [this, h1, io_ok_bind, List.singleton_append, List.foldlM_cons, hbad]
  rfl

/-- C53, symbol part: reading a file of good lines never faults.
Missing for the full property: lines with a negative id, for which it is false (and, with them, the ids of 2^31
and more, which need more memory than the model wants to judge). -/
theorem C53_symbols_partial (es : List SymEntry) (h : ∀ e ∈ es, e.Ok ∧ GoodLine e.line e.eol) :
    (∃ t, readSymbols (symBytes es) = .ok t) ∨ readSymbols (symBytes es) = bad .corruption := by
  obtain ⟨h1, h2⟩ := C39_symbol_table es h
  by_cases hb : sentBegin ∈ es.map SymEntry.word ∧ sentEnd ∈ es.map SymEntry.word
  · obtain ⟨t, ht, _⟩ := h1 hb
    exact Or.inl ⟨t, ht⟩
  · exact Or.inr (h2 hb)

/-- The lines `<s> 1` and `a -1`. -/
example : readSymbols (symBytes [⟨sentBegin, [49], 1, [10]⟩] ++ ([97] ++ [32] ++ 45 :: [49] ++ [10]) ++ []) =
    .error (.fault .ub) := by decide +kernel

example : (32 : UInt8) ∉ ([97] : Str) ∧ Decimal [49] 1 ∧ GoodLine ([97] ++ [32] ++ 45 :: [49]) [10] :=
  ⟨by decide, ⟨by decide, by decide, Or.inr (by decide), by decide⟩,
    by decide, by decide, by decide, Or.inl rfl, by decide⟩

end Verif.Text
