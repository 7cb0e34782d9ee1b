import Verif.InitSpec
import Verif.SerProps
import Verif.FstProps
import Verif.LmProps

/-!
# Lemmas about loading
-/

namespace Verif.App

open Verif Verif.Text Verif.App.Spec

variable {G : Type}

/-! ## Configuration -/

/-- What is known of a configuration that was read. -/
structure Knows (c : Config) (conf : Str) (defs : List (Str × Str)) : Prop where
  file : c.file = conf
  some : ∀ key v, Defines defs key v → mapFind c.table (tolower key) = some v
  none : ∀ key, Undefined defs key → mapFind c.table (tolower key) = none
  value : ∀ key v, Defines defs key v → v ≠ []

theorem mapFind_of_get {c : Config} {key v : Str} (h : ∀ d, c.getStringOrElse key d = v) :
    mapFind c.table (tolower key) = some v := by
  unfold Config.getStringOrElse at h
  cases hm : mapFind c.table (tolower key) with
  | none =>
    simp only [hm] at h
    have := (h [0]).trans (h [1]).symm
    cases this
  | some x =>
    simp only [hm] at h
    rw [h []]

theorem mapFind_of_default {c : Config} {key : Str} (h : ∀ d, c.getStringOrElse key d = d) :
    mapFind c.table (tolower key) = none := by
  unfold Config.getStringOrElse at h
  cases hm : mapFind c.table (tolower key) with
  | none => rfl
  | some x =>
    simp only [hm] at h
    have := (h [0]).symm.trans (h [1])
    cases this

theorem confLine_value {l : Str} {m : Option (Str × Str)} (h : ConfLine l m) : ∀ p, m = some p → p.2 ≠ [] := by
  cases h with
  | blank => intro p hp; cases hp
  | comment => intro p hp; cases hp
  | define w0 k w1 w2 v w3 _ _ _ _ _ hv => intro p hp; cases hp; exact hv

theorem readConf_knows {w : World G} {conf bytes : Str} {defs : List (Str × Str)} (hf : w.file conf = some bytes)
    (hc : IsConf bytes defs) : ∃ c, readConf w conf = .ok c ∧ Knows c conf defs := by
  obtain ⟨es, tail, tm, rfl, hes, ht, hm, rfl⟩ := hc.lines
  obtain ⟨c, h1, h2, h3⟩ := C38_lookup ⟨[], []⟩ conf tail es tm hes ht hm
  refine ⟨c, ?_, h2, ?_, ?_, ?_⟩
  · unfold readConf openFile
    rw [hf]
    exact h1
  · rintro key v ⟨pre, k, post, he, hk, hp⟩
    exact mapFind_of_get fun d => (h3 key d).1 pre k v post he hk hp
  · intro key hu
    exact mapFind_of_default fun d => (h3 key d).2 hu
  · rintro key v ⟨pre, k, post, he, _, _⟩
    have hmem : (k, v) ∈ es.filterMap ConfEntry.mean ++ tm.toList := by rw [he]; simp
    rcases List.mem_append.1 hmem with hmem | hmem
    · obtain ⟨e, hee, hmm⟩ := List.mem_filterMap.1 hmem
      exact confLine_value (hes e hee).2 _ hmm
    · exact confLine_value hm _ (by simpa using hmem)

theorem getPathOrElse_names {c : Config} {conf : Str} {defs : List (Str × Str)} (hk : Knows c conf defs) {key f : Str}
    (h : Names conf defs key f) (d : Str) : c.getPathOrElse key d = .ok f := by
  obtain ⟨v, hd, hr, hres⟩ := h
  have hv : c.getStringOrElse key kDefault = v := by
    unfold Config.getStringOrElse
    rw [hk.some key v hd]
  obtain ⟨h1, h2, h3⟩ := C38_path_partial c key v d hv hr (hk.value key v hd)
  cases hres with
  | absolute h => exact h1 h
  | here h hf => exact h2 h (by rw [hk.file]; exact hf)
  | beside h hf hb => exact h3 h _ _ (by rw [hk.file]; exact hf) hb

theorem names_ne {c : Config} {conf : Str} {defs : List (Str × Str)} (hk : Knows c conf defs) {key f : Str}
    (h : Names conf defs key f) : f ≠ [] ∧ f ≠ kDefault := by
  obtain ⟨v, hd, hr, hres⟩ := h
  have hv := hk.value key v hd
  cases hres with
  | absolute h => exact ⟨hv, hr⟩
  | here h hf => exact ⟨hv, hr⟩
  | beside h hf hb =>
    refine ⟨by simp, ?_⟩
    intro he
    have : (47 : UInt8) ∈ kDefault := by rw [← he]; simp
    exact absurd this (by decide)

theorem getPath_names {c : Config} {conf : Str} {defs : List (Str × Str)} (hk : Knows c conf defs) {key f : Str}
    (h : Names conf defs key f) : c.getPath key = .ok f := by
  unfold Config.getPath
  rw [getPathOrElse_names hk h]
  show (if f = kDefault then bad .corruption else .ok f : Io Str) = _
  rw [if_neg (names_ne hk h).2]

theorem openKey_names {w : World G} {c : Config} {conf : Str} {defs : List (Str × Str)} (hk : Knows c conf defs)
    {key f : Str} {bs : List UInt8} (h : Names conf defs key f) (hf : w.file f = some bs) :
    openKey w c key = .ok bs := by
  unfold openKey openFile
  rw [getPath_names hk h, io_ok_bind, hf]

theorem getInteger_sets {c : Config} {conf : Str} {defs : List (Str × Str)} (hk : Knows c conf defs) {key : Str}
    {n : Nat} (h : Sets defs key n) : c.getInteger key = .ok (n : Int) := by
  obtain ⟨v, hd, hn, hl⟩ := h
  exact C56_integer_partial c key v n hn hl (hk.some key v hd)

/-! ## Vectors -/

theorem applyLog_some (w : World G) : ∀ (v : List Nat), (∀ x ∈ v, w.nonneg x = true) →
    applyLog w (v.map some) = .ok (v.map w.log)
  | [], _ => rfl
  | x :: v, h => by
    rw [List.map_cons, applyLog, useWord, ok_bind, h x (by simp), cassert_true, ok_bind,
      applyLog_some w v (fun y hy => h y (by simp [hy]))]
    rfl

theorem floats_some : ∀ v : List Nat, floats (v.map some) = .ok v
  | [] => rfl
  | x :: v => by
    rw [List.map_cons, floats, useWord, ok_bind, floats_some v]
    rfl

theorem toI32_word {x : Int} (h : InI32 x) : toI32 (x % 4294967296).toNat = x := by
  unfold InI32 at h
  unfold toI32
  split <;> omega

theorem ints_words : ∀ v : List Int, (∀ x ∈ v, InI32 x) → ints ((intWords v).map some) = .ok v
  | [], _ => rfl
  | x :: v, h => by
    have ih := ints_words v (fun y hy => h y (by simp [hy]))
    unfold intWords at ih ⊢
    rw [List.map_cons, List.map_cons, ints, useWord, ok_bind, ih, ok_bind, toI32_word (h x (by simp))]

theorem intWords_ok {v : List Int} (h : v ≠ [] ∧ v.length * 4 + 4 ≤ 2147483647 ∧ ∀ x ∈ v, InI32 x) :
    Ser.Spec.VecOk (intWords v) := by
  refine ⟨?_, ?_, ?_⟩
  · intro he
    exact h.1 (List.map_eq_nil_iff.1 he)
  · unfold intWords
    rw [List.length_map]
    exact h.2.1
  · intro x hx
    obtain ⟨y, _, rfl⟩ := List.mem_map.1 hx
    omega

/-! ## The readers -/

theorem amRead_ok {w : World G} {c : Config} {conf : Str} {defs : List (Str × Str)} {m : Spec.Model G}
    (hk : Knows c conf defs) (hi : Installed w conf defs m) (ho : m.Ok w) :
    amRead w c = .ok ⟨⟨m.netLeft, m.netRight, m.layers.map Ser.Spec.full⟩, m.prior.map w.log, m.left, m.right,
      m.chunk, m.numPdfs, m.map⟩ := by
  obtain ⟨f1, j1, n1, e1⟩ := hi.nnet
  obtain ⟨f2, j2, n2, e2⟩ := hi.prior
  obtain ⟨f3, j3, n3, e3⟩ := hi.map
  have h1 : openKey w c kNnet = .ok _ := openKey_names hk n1 e1
  have h2 : openKey w c kPrior = .ok _ := openKey_names hk n2 e2
  have h3 : openKey w c kTid2pdf = .ok _ := openKey_names hk n3 e3
  have i1 : c.getInteger kLeft = .ok (m.left : Int) := getInteger_sets hk hi.left
  have i2 : c.getInteger kRight = .ok (m.right : Int) := getInteger_sets hk hi.right
  have i3 : c.getInteger kChunk = .ok (m.chunk : Int) := getInteger_sets hk hi.chunk
  have i4 : c.getInteger kNumPdfs = .ok (m.numPdfs : Int) := getInteger_sets hk hi.pdfs
  unfold amRead
  rw [h1, io_ok_bind, Ser.C33_round_trip _ _ ho.netLeft ho.netRight _ ho.layers ho.layer, io_ok_bind, h2, io_ok_bind,
    Ser.C31_vector _ ho.prior, io_ok_bind]
  simp only
  rw [applyLog_some w _ ho.nonneg]
  simp only [Io.ofExec, io_ok_bind]
  rw [i1, io_ok_bind, i2, io_ok_bind, i3, io_ok_bind, i4, io_ok_bind, h3, io_ok_bind,
    Ser.C31_vector _ (intWords_ok ho.map), io_ok_bind]
  simp only
  rw [ints_words _ ho.map.2.2]
  rfl

theorem largeRead_ok {t : Fst.Transducer UInt32} (h1 : Fst.FitsFields t) (h2 : t.states ≠ []) (h3 : Fst.arcCount t ≠ 0)
    (h4 : Fst.IsLm t) (h5 : Fst.UnigramState t) {bytes : List UInt8} (hb : Fst.converterOutput t = .ok bytes)
    (junk : List UInt8) : ∃ l, largeRead (bytes ++ junk) = .ok l ∧ IsLmOf l t := by
  obtain ⟨bytes', f, b1, b2, b3, b4, b5⟩ := Fst.C10_fst_file_round_trip t h1 h2 h3 junk
  rw [hb] at b1
  cases b1
  obtain ⟨b, i1, i2⟩ := Fst.initBucket0_ok h4 h5
  have hff : f = Fst.fstOf t := by
    unfold Fst.converterOutput at hb
    rw [Fst.convert_layout, ok_bind] at hb
    split at hb
    · next hp =>
      cases hb
      obtain ⟨hF, _, _, _⟩ := Fst.fits_of_convert (Fst.convert_layout t) hp
      have := Fst.read_fileBytes hF (by simpa [Fst.fstOf] using h2) (by
        intro h
        have := congrArg List.length h
        unfold Fst.fstOf at this
        simp only [Fst.groups_flatten_length, List.length_nil] at this
        exact h3 this) junk
      rw [this] at b2
      cases b2
      rfl
    · cases hb
  subst hff
  refine ⟨⟨_, b⟩, ?_, b3, b4, b5, fun o fuel s x => Fst.lmGetArc_bucket h4 h5 i2 fuel s x,
    Fst.convert_layout t, i1⟩
  unfold largeRead
  rw [b2, io_ok_bind]
  simp only
  rw [i1]
  rfl

theorem originalRead_ok {v : List Nat} (h : Ser.Spec.VecOk v) (junk : List UInt8) :
    originalRead (Ser.writeVec v ++ junk) = .ok v := by
  unfold originalRead
  rw [Ser.C31_vector _ h, io_ok_bind]
  simp only
  rw [floats_some]
  rfl

/-! ## The steps -/

theorem andThen_ok {x : Exec (Stage G)} {h : Heap} {s : Self G} {next : Heap → Self G → Exec (Stage G)}
    (hx : x = .ok (none, h, s)) : andThen x next = next h s := by
  unfold andThen
  rw [hx, ok_bind]

/-- The step for the graph. -/
theorem readHclg_ok {w : World G} {c : Config} {conf : Str} {defs : List (Str × Str)} {m : Spec.Model G}
    (hk : Knows c conf defs) (hi : Installed w conf defs m) (h : Heap) (s : Self G) :
    readHclg w c h s = .ok (none, h.new.2, { s with fst := some (h.new.1, m.graph) }) := by
  obtain ⟨f, n, e⟩ := hi.fst
  have h1 : c.getPathOrElse kFst [] = .ok f := getPathOrElse_names hk n _
  unfold readHclg
  rw [h1, ok_bind, if_neg (names_ne hk n).1, e]

theorem readAm_ok {w : World G} {c : Config} {conf : Str} {defs : List (Str × Str)} {m : Spec.Model G}
    (hk : Knows c conf defs) (hi : Installed w conf defs m) (ho : m.Ok w) (h : Heap) (s : Self G) :
    readAm w c h s = .ok (none, h.new.2, { s with am := some (h.new.1,
      some ⟨⟨m.netLeft, m.netRight, m.layers.map Ser.Spec.full⟩, m.prior.map w.log, m.left, m.right, m.chunk,
        m.numPdfs, m.map⟩) }) := by
  unfold readAm
  rw [amRead_ok hk hi ho]
  rfl

theorem readSyms_ok {w : World G} {c : Config} {conf : Str} {defs : List (Str × Str)} {m : Spec.Model G}
    (hk : Knows c conf defs) (hi : Installed w conf defs m) (ho : m.Ok w) :
    ∃ t, (∀ (h : Heap) (s : Self G),
      readSyms w c h s = .ok (none, h.new.2, { s with symbols := some (h.new.1, some t) })) ∧
      Consistent t (m.symbols.map fun e => (e.word, (e.id : Int))) ∧ t.bos = t.getId sentBegin ∧
      t.eos = t.getId sentEnd := by
  obtain ⟨f, n, e⟩ := hi.symbols
  have h1 : c.getPathOrElse kSymbols [] = .ok f := getPathOrElse_names hk n _
  obtain ⟨t, t1, t2, t3, t4⟩ := (C39_symbol_table m.symbols ho.symbols).1 ho.sents
  refine ⟨t, fun h s => ?_, t2, t3, t4⟩
  unfold readSyms symbolsRead openFile
  rw [h1, ok_bind, if_neg (names_ne hk n).1, e]
  simp only [io_ok_bind]
  rw [show readSymbols (m.symbols.map (fun e => e.line ++ e.eol)).flatten = .ok t from t1]
  rfl

theorem readDelta_none {w : World G} {c : Config} {conf : Str} {defs : List (Str × Str)}
    (hk : Knows c conf defs) (hu : Undefined defs kLarge) (h : Heap) (s : Self G) :
    readDelta w c h s = .ok (none, h, s) := by
  unfold readDelta
  rw [C38_path_default c kLarge [] (hk.none _ hu), ok_bind, if_pos rfl]

theorem readDelta_some {w : World G} {c : Config} {conf : Str} {defs : List (Str × Str)}
    (hk : Knows c conf defs) {f1 f2 : Str} {b1 b2 : List UInt8} {u : List Nat} {l : Lm}
    (n1 : Names conf defs kLarge f1) (e1 : w.file f1 = some b1) (r1 : largeRead b1 = .ok l)
    (n2 : Names conf defs kOriginal f2) (e2 : w.file f2 = some b2) (r2 : originalRead b2 = .ok u)
    (h : Heap) (s : Self G) (a : Nat) (t : Symbols) (hs : s.symbols = some (a, some t)) :
    readDelta w c h s = .ok (none, h.new.2.new.2.new.2, { s with
      original := some (h.new.1, some u), large := some (h.new.2.new.1, some l),
      delta := some (h.new.2.new.2.new.1, t.bos, t.eos) }) := by
  unfold readDelta
  rw [getPathOrElse_names hk n1, ok_bind, if_neg (names_ne hk n1).1, getPathOrElse_names hk n2, ok_bind,
    if_neg (names_ne hk n2).1]
  have s1 : readOriginal w f2 h s = .ok (none, h.new.2, { s with original := some (h.new.1, some u) }) := by
    unfold readOriginal
    rw [e2]
    simp only [r2]
    rfl
  rw [andThen_ok (andThen_ok s1 |>.trans (show readLarge w f1 h.new.2 _ = .ok (none, h.new.2.new.2,
    { s with original := some (h.new.1, some u), large := some (h.new.2.new.1, some l) }) by
      unfold readLarge
      rw [e1]
      simp only [r1]
      rfl))]
  unfold newDelta
  simp only [hs]

end Verif.App
