import Verif.InitLemmas

/-!
# Lemmas about loading when something may be missing
-/

namespace Verif.App

open Verif Verif.Text Verif.App.Spec

variable {G : Type}

/-- The file of the key is there. -/
def Present (w : World G) (conf : Str) (defs : List (Str × Str)) (key : Str) : Prop :=
  ∃ f bs, Names conf defs key f ∧ w.file f = some bs

theorem names_unique {c : Config} {conf : Str} {defs : List (Str × Str)} (hk : Knows c conf defs) {key f g : Str}
    (hf : Names conf defs key f) (hg : Names conf defs key g) : f = g := by
  have h1 := getPathOrElse_names hk hf []
  rw [getPathOrElse_names hk hg []] at h1
  cases h1
  rfl

theorem names_defined {c : Config} {conf : Str} {defs : List (Str × Str)} (hk : Knows c conf defs) {key f : Str}
    (hf : Names conf defs key f) : ¬ Undefined defs key := by
  intro hu
  obtain ⟨v, hd, _, _⟩ := hf
  have h1 := hk.some key v hd
  rw [hk.none key hu] at h1
  cases h1

theorem sets_defined {c : Config} {conf : Str} {defs : List (Str × Str)} (hk : Knows c conf defs) {key : Str} {n : Nat}
    (hf : Sets defs key n) : ¬ Undefined defs key := by
  intro hu
  obtain ⟨v, hd, _, _⟩ := hf
  have h1 := hk.some key v hd
  rw [hk.none key hu] at h1
  cases h1

theorem openKey_part {w : World G} {c : Config} {conf : Str} {defs : List (Str × Str)} (hk : Knows c conf defs)
    {key : Str} {valid : List UInt8 → Prop} (h : Part w conf defs key valid) :
    (Present w conf defs key ∧ ∃ bs, valid bs ∧ openKey w c key = .ok bs) ∨
    (Undefined defs key ∧ openKey w c key = bad .corruption) ∨
    (∃ f, Names conf defs key f ∧ w.file f = none ∧ openKey w c key = bad .io) := by
  rcases h with hu | ⟨f, hn, hv⟩
  · refine .inr (.inl ⟨hu, ?_⟩)
    unfold openKey Config.getPath
    rw [C38_path_default c key kDefault (hk.none _ hu)]
    rfl
  · cases hf : w.file f with
    | none =>
      refine .inr (.inr ⟨f, hn, hf, ?_⟩)
      unfold openKey openFile
      rw [getPath_names hk hn, io_ok_bind, hf]
    | some bs => exact .inl ⟨⟨f, bs, hn, hf⟩, bs, hv bs hf, openKey_names hk hn hf⟩

theorem getInteger_part {c : Config} {conf : Str} {defs : List (Str × Str)} (hk : Knows c conf defs) {key : Str}
    (h : Undefined defs key ∨ ∃ n, Sets defs key n) :
    (¬ Undefined defs key ∧ ∃ n, c.getInteger key = .ok n) ∨ (Undefined defs key ∧ c.getInteger key = bad .corruption) := by
  rcases h with hu | ⟨n, hn⟩
  · refine .inr ⟨hu, ?_⟩
    unfold Config.getInteger Config.getIntegerOrElse Config.getStringOrElse
    rw [hk.none _ hu]
    rfl
  · exact .inl ⟨sets_defined hk hn, n, getInteger_sets hk hn⟩

theorem bad_bind {α β : Type} (c : Code) (f : α → Io β) : ((bad c : Io α) >>= f) = bad c := rfl

theorem ints_some : ∀ v : List Nat, ∃ xs, ints (v.map some) = .ok xs
  | [] => ⟨_, rfl⟩
  | x :: v => by
    obtain ⟨xs, h⟩ := ints_some v
    exact ⟨toI32 x :: xs, by rw [List.map_cons, ints, useWord, ok_bind, h, ok_bind]⟩

/-- What `AcousticModel::Read` needs is there. -/
structure AmPresent (w : World G) (conf : Str) (defs : List (Str × Str)) : Prop where
  nnet : Present w conf defs kNnet
  prior : Present w conf defs kPrior
  left : ¬ Undefined defs kLeft
  right : ¬ Undefined defs kRight
  chunk : ¬ Undefined defs kChunk
  pdfs : ¬ Undefined defs kNumPdfs
  map : Present w conf defs kTid2pdf

theorem amRead_part {w : World G} {c : Config} {conf : Str} {defs : List (Str × Str)} (hk : Knows c conf defs)
    (hs : Sound w conf defs) :
    (∃ d, amRead w c = .ok d ∧ AmPresent w conf defs) ∨ (∃ e, amRead w c = bad e ∧ Missing w conf defs e) := by
  unfold amRead
  rcases openKey_part (key := kNnet) hk hs.nnet with ⟨p1, b1, v1, e1⟩ | ⟨hu, e1⟩ | ⟨f, hn, hf, e1⟩
  case inr.inl => exact .inr ⟨_, by rw [e1, bad_bind], .key kNnet (by decide) hu⟩
  case inr.inr => exact .inr ⟨_, by rw [e1, bad_bind], .file kNnet f (by decide) hn hf⟩
  obtain ⟨nl, nr, ls, junk, h1, h2, h3, h4, rfl⟩ := v1
  rw [e1, io_ok_bind, Ser.C33_round_trip _ _ h1 h2 _ h3 h4, io_ok_bind]
  rcases openKey_part (key := kPrior) hk hs.prior with ⟨p2, b2, v2, e2⟩ | ⟨hu, e2⟩ | ⟨f, hn, hf, e2⟩
  case inr.inl => exact .inr ⟨_, by rw [e2, bad_bind], .key kPrior (by decide) hu⟩
  case inr.inr => exact .inr ⟨_, by rw [e2, bad_bind], .file kPrior f (by decide) hn hf⟩
  obtain ⟨pv, junk, k1, k2, rfl⟩ := v2
  rw [e2, io_ok_bind, Ser.C31_vector _ k1, io_ok_bind]
  simp only
  rw [applyLog_some w _ k2]
  simp only [Io.ofExec, io_ok_bind]
  rcases getInteger_part (key := kLeft) hk (hs.number kLeft (by decide)) with ⟨q1, n1, e⟩ | ⟨hu, e⟩
  case inr => exact .inr ⟨_, by rw [e, bad_bind], .key kLeft (by decide) hu⟩
  rw [e, io_ok_bind]
  rcases getInteger_part (key := kRight) hk (hs.number kRight (by decide)) with ⟨q2, n2, e⟩ | ⟨hu, e⟩
  case inr => exact .inr ⟨_, by rw [e, bad_bind], .key kRight (by decide) hu⟩
  rw [e, io_ok_bind]
  rcases getInteger_part (key := kChunk) hk (hs.number kChunk (by decide)) with ⟨q3, n3, e⟩ | ⟨hu, e⟩
  case inr => exact .inr ⟨_, by rw [e, bad_bind], .key kChunk (by decide) hu⟩
  rw [e, io_ok_bind]
  rcases getInteger_part (key := kNumPdfs) hk (hs.number kNumPdfs (by decide)) with ⟨q4, n4, e⟩ | ⟨hu, e⟩
  case inr => exact .inr ⟨_, by rw [e, bad_bind], .key kNumPdfs (by decide) hu⟩
  rw [e, io_ok_bind]
  rcases openKey_part (key := kTid2pdf) hk hs.map with ⟨p3, b3, v3, e3⟩ | ⟨hu, e3⟩ | ⟨f, hn, hf, e3⟩
  case inr.inl => exact .inr ⟨_, by rw [e3, bad_bind], .key kTid2pdf (by decide) hu⟩
  case inr.inr => exact .inr ⟨_, by rw [e3, bad_bind], .file kTid2pdf f (by decide) hn hf⟩
  obtain ⟨mv, junk, m1, _, rfl⟩ := v3
  rw [e3, io_ok_bind, Ser.C31_vector _ m1, io_ok_bind]
  simp only
  obtain ⟨xs, hx⟩ := ints_some mv
  rw [hx]
  exact .inl ⟨_, rfl, p1, p2, q1, q2, q3, q4, p3⟩

/-- A step that is done, with something known, or reports something missing. -/
def Step (x : Exec (Stage G)) (miss : Code → Prop) (P : Self G → Prop) : Prop :=
  (∃ h s, x = .ok (none, h, s) ∧ P s) ∨ (∃ c h s, x = .ok (some c, h, s) ∧ miss c)

theorem Step.andThen {x : Exec (Stage G)} {miss : Code → Prop} {P Q : Self G → Prop}
    {next : Heap → Self G → Exec (Stage G)} (hx : Step x miss P) (hn : ∀ h s, P s → Step (next h s) miss Q) :
    Step (andThen x next) miss Q := by
  rcases hx with ⟨h, s, e, hp⟩ | ⟨c, h, s, e, hm⟩
  · rw [andThen_ok e]
    exact hn h s hp
  · refine .inr ⟨c, h, s, ?_, hm⟩
    unfold App.andThen
    rw [e, ok_bind]

theorem readHclg_step {w : World G} {c : Config} {conf : Str} {defs : List (Str × Str)} (hk : Knows c conf defs)
    (hs : Sound w conf defs) (h : Heap) (s : Self G) :
    Step (readHclg w c h s) (Missing w conf defs)
      (fun _ => ∃ f g, Names conf defs kFst f ∧ w.readGraph f = some g) := by
  unfold readHclg
  rcases hs.fst with hu | ⟨f, hn⟩
  · rw [C38_path_default c kFst [] (hk.none _ hu), ok_bind, if_pos rfl]
    exact .inr ⟨_, _, _, rfl, .key kFst (by decide) hu⟩
  · have h1 : c.getPathOrElse kFst [] = .ok f := getPathOrElse_names hk hn _
    rw [h1, ok_bind, if_neg (names_ne hk hn).1]
    cases hg : w.readGraph f with
    | none => exact .inr ⟨_, _, _, rfl, .graph f hn hg⟩
    | some g => exact .inl ⟨_, _, rfl, f, g, hn, hg⟩

theorem readAm_step {w : World G} {c : Config} {conf : Str} {defs : List (Str × Str)} (hk : Knows c conf defs)
    (hs : Sound w conf defs) {P : Prop} (hp : P) (h : Heap) (s : Self G) :
    Step (readAm w c h s) (Missing w conf defs) (fun _ => P ∧ AmPresent w conf defs) := by
  unfold readAm
  rcases amRead_part hk hs with ⟨d, e, hd⟩ | ⟨e, he, hm⟩
  · rw [e]
    exact .inl ⟨_, _, rfl, hp, hd⟩
  · rw [he]
    exact .inr ⟨_, _, _, rfl, hm⟩

theorem readSyms_step {w : World G} {c : Config} {conf : Str} {defs : List (Str × Str)} (hk : Knows c conf defs)
    (hs : Sound w conf defs) {P : Prop} (hp : P) (h : Heap) (s : Self G) :
    Step (readSyms w c h s) (Missing w conf defs)
      (fun s => P ∧ Present w conf defs kSymbols ∧ ∃ a t, s.symbols = some (a, some t)) := by
  unfold readSyms
  rcases hs.symbols with hu | ⟨f, hn, hv⟩
  · rw [C38_path_default c kSymbols [] (hk.none _ hu), ok_bind, if_pos rfl]
    exact .inr ⟨_, _, _, rfl, .key kSymbols (by decide) hu⟩
  · have h1 : c.getPathOrElse kSymbols [] = .ok f := getPathOrElse_names hk hn _
    rw [h1, ok_bind, if_neg (names_ne hk hn).1]
    unfold symbolsRead openFile
    cases hf : w.file f with
    | none => exact .inr ⟨_, _, _, rfl, .file kSymbols f (by decide) hn hf⟩
    | some bs =>
      obtain ⟨es, h2, h3, h4, rfl⟩ := hv bs hf
      obtain ⟨t, t1, _, _, _⟩ := (C39_symbol_table es h2).1 ⟨h3, h4⟩
      refine .inl ⟨h.new.2, { s with symbols := some (h.new.1, some t) }, ?_, hp, ⟨f, _, hn, hf⟩, _, t, rfl⟩
      simp only [io_ok_bind]
      rw [show readSymbols (es.map (fun e => e.line ++ e.eol)).flatten = .ok t from t1]
      rfl

/-- The large language model is not wanted, or there. -/
def LmPresent (w : World G) (conf : Str) (defs : List (Str × Str)) : Prop :=
  Undefined defs kLarge ∨ (Present w conf defs kLarge ∧ Present w conf defs kOriginal)

theorem readDelta_step {w : World G} {c : Config} {conf : Str} {defs : List (Str × Str)} (hk : Knows c conf defs)
    (hs : Sound w conf defs) {P : Prop} (hp : P) (h : Heap) (s : Self G) (hsym : ∃ a t, s.symbols = some (a, some t)) :
    Step (readDelta w c h s) (Missing w conf defs) (fun _ => P ∧ LmPresent w conf defs) := by
  obtain ⟨a, t, hst⟩ := hsym
  rcases hs.large with hu | ⟨f1, n1, v1⟩
  · exact .inl ⟨_, _, readDelta_none hk hu h s, hp, .inl hu⟩
  have hdef : ¬ Undefined defs kLarge := names_defined hk n1
  unfold readDelta
  have g1 : c.getPathOrElse kLarge [] = .ok f1 := getPathOrElse_names hk n1 _
  rw [g1, ok_bind, if_neg (names_ne hk n1).1]
  rcases hs.original with hu | ⟨f2, n2, v2⟩
  · rw [C38_path_default c kOriginal [] (hk.none _ hu), ok_bind, if_pos rfl]
    exact .inr ⟨_, _, _, rfl, .originalKey hdef hu⟩
  have g2 : c.getPathOrElse kOriginal [] = .ok f2 := getPathOrElse_names hk n2 _
  rw [g2, ok_bind, if_neg (names_ne hk n2).1]
  refine Step.andThen (P := fun s => (∃ a t, s.symbols = some (a, some t)) ∧ LmPresent w conf defs)
    (Step.andThen (P := fun s => (∃ a t, s.symbols = some (a, some t)) ∧ Present w conf defs kOriginal) ?_ ?_) ?_
  · unfold readOriginal
    cases hf : w.file f2 with
    | none => exact .inr ⟨_, _, _, rfl, .originalFile f2 hdef n2 hf⟩
    | some bs =>
      obtain ⟨v, junk, w1, _, rfl⟩ := v2 bs hf
      refine .inl ⟨h.new.2, { s with original := some (h.new.1, some v) }, ?_, ⟨a, t, ?_⟩, f2, _, n2, hf⟩
      · simp only [originalRead_ok w1]
        rfl
      · exact hst
  · intro h s hs
    obtain ⟨⟨a, t, hst⟩, hpo⟩ := hs
    unfold readLarge
    cases hf : w.file f1 with
    | none => exact .inr ⟨_, _, _, rfl, .largeFile f1 n1 hf⟩
    | some bs =>
      obtain ⟨t', bytes, junk, w1, w2, w3, w4, w5, w6, rfl⟩ := v1 bs hf
      obtain ⟨l, hl, _⟩ := largeRead_ok w1 w2 w3 w4 w5 w6 junk
      refine .inl ⟨h.new.2, { s with large := some (h.new.1, some l) }, ?_, ⟨a, t, ?_⟩,
        .inr ⟨⟨f1, _, n1, hf⟩, hpo⟩⟩
      · simp only [hl]
        rfl
      · exact hst
  · intro h s hs
    obtain ⟨⟨a, t, hst⟩, hpo⟩ := hs
    unfold newDelta
    simp only [hst]
    exact .inl ⟨_, _, rfl, hp, hpo⟩

theorem loadAll_step {w : World G} {c : Config} {conf : Str} {defs : List (Str × Str)} (hk : Knows c conf defs)
    (hs : Sound w conf defs) (h : Heap) :
    Step (loadAll w c h) (Missing w conf defs) (fun _ =>
      (((∃ f g, Names conf defs kFst f ∧ w.readGraph f = some g) ∧ AmPresent w conf defs) ∧
        Present w conf defs kSymbols) ∧ LmPresent w conf defs) := by
  unfold loadAll
  have s1 := readHclg_step hk hs h .empty
  have s2 := s1.andThen fun h s hp => readAm_step hk hs hp h s
  have s3 := s2.andThen fun h s hp => readSyms_step hk hs hp h s
  have s4 := s3.andThen fun h s hp => readDelta_step hk hs (And.intro hp.1 hp.2.1) h s hp.2.2
  exact s4.andThen fun h s hp => .inl ⟨_, _, rfl, hp⟩

/-- If everything is present, nothing is missing. -/
theorem not_missing {w : World G} {c : Config} {conf : Str} {defs : List (Str × Str)} (hk : Knows c conf defs)
    (h1 : ∃ f g, Names conf defs kFst f ∧ w.readGraph f = some g) (h2 : AmPresent w conf defs)
    (h3 : Present w conf defs kSymbols) (h4 : LmPresent w conf defs) : ∀ e, ¬ Missing w conf defs e := by
  have hp : ∀ {key}, Present w conf defs key → ¬ Undefined defs key := fun ⟨_, _, hn, _⟩ => names_defined hk hn
  have hq : ∀ {key f}, Present w conf defs key → Names conf defs key f → w.file f = none → False := by
    rintro key f ⟨g, bs, hn, hb⟩ hf hw
    rw [names_unique hk hf hn, hb] at hw
    cases hw
  intro e hm
  cases hm with
  | key k hmem hu =>
    simp only [List.mem_cons, List.not_mem_nil, or_false] at hmem
    rcases hmem with rfl | rfl | rfl | rfl | rfl | rfl | rfl | rfl | rfl
    · obtain ⟨f, g, hn, _⟩ := h1
      exact names_defined hk hn hu
    · exact hp h2.nnet hu
    · exact hp h2.prior hu
    · exact h2.left hu
    · exact h2.right hu
    · exact h2.chunk hu
    · exact h2.pdfs hu
    · exact hp h2.map hu
    · exact hp h3 hu
  | graph f hn hg =>
    obtain ⟨f', g, hn', hg'⟩ := h1
    rw [names_unique hk hn hn', hg'] at hg
    cases hg
  | file k f hmem hn hf =>
    simp only [List.mem_cons, List.not_mem_nil, or_false] at hmem
    rcases hmem with rfl | rfl | rfl | rfl
    · exact hq h2.nnet hn hf
    · exact hq h2.prior hn hf
    · exact hq h2.map hn hf
    · exact hq h3 hn hf
  | originalKey hd hu =>
    rcases h4 with h | ⟨_, h⟩
    · exact hd h
    · exact hp h hu
  | originalFile f hd hn hf =>
    rcases h4 with h | ⟨_, h⟩
    · exact hd h
    · exact hq h hn hf
  | largeFile f hn hf =>
    rcases h4 with h | ⟨h, _⟩
    · exact names_defined hk hn h
    · exact hq h hn hf

end Verif.App
