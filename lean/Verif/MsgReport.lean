import Verif.MsgLemmas

/-!
# Lemmas about the causes of a failed `ce_stt_init`
-/

namespace Verif.Msg

open Verif Verif.Text Verif.App Verif.App.Spec Verif.Msg.Spec

variable {G α β : Type}

/-! ## Keys -/

theorem defined_or (key : Str) : ∀ defs : List (Str × Str), Undefined defs key ∨ ∃ v, Defines defs key v
  | [] => .inl (by intro p hp; cases hp)
  | (k, v) :: defs => by
    rcases defined_or key defs with hu | ⟨x, pre, k', post, rfl, h1, h2⟩
    · by_cases hs : SameKey k key
      · exact .inr ⟨v, [], k, defs, rfl, hs, hu⟩
      · refine .inl fun p hp => ?_
        rcases List.mem_cons.1 hp with rfl | hp
        · exact hs
        · exact hu p hp
    · exact .inr ⟨x, (k, v) :: pre, k', post, rfl, h1, h2⟩

theorem last_slash : ∀ conf : Str, 47 ∉ conf ∨ ∃ dir base, conf = dir ++ [47] ++ base ∧ 47 ∉ base
  | [] => .inl (by simp)
  | c :: conf => by
    rcases last_slash conf with hn | ⟨dir, base, rfl, hb⟩
    · by_cases hc : c = 47
      · exact .inr ⟨[], conf, by rw [hc]; rfl, hn⟩
      · refine .inl fun h => ?_
        rcases List.mem_cons.1 h with rfl | h
        · exact hc rfl
        · exact hn h
    · exact .inr ⟨c :: dir, base, rfl, hb⟩

theorem resolves_any (conf v : Str) : ∃ f, Resolves conf v f := by
  by_cases h : v.head? = some 47
  · exact ⟨v, .absolute h⟩
  · rcases last_slash conf with hn | ⟨dir, base, he, hb⟩
    · exact ⟨v, .here h hn⟩
    · exact ⟨_, .beside h he hb⟩

/-- A key names no file, and the default is returned, or it names one. -/
theorem lookup_cases {c : Config} {conf : Str} {defs : List (Str × Str)} (hk : Knows c conf defs) (key : Str) :
    ((∀ f, ¬ Names conf defs key f) ∧ ∀ d, c.getPathOrElse key d = .ok d) ∨ ∃ f, Names conf defs key f := by
  rcases defined_or key defs with hu | ⟨v, hv⟩
  · exact .inl ⟨fun f hf => names_defined hk hf hu, fun d => C38_path_default c key d (hk.none _ hu)⟩
  · by_cases hr : v = reserved
    · have hm := hk.some key v hv
      refine .inl ⟨?_, fun d => ?_⟩
      · rintro f ⟨v', hv', hr', _⟩
        rw [hk.some key v' hv'] at hm
        cases hm
        exact hr' hr
      · rw [hr] at hm
        exact (C38_sentinel_value_lost key d c hm).2.2
    · obtain ⟨f, hf⟩ := resolves_any conf v
      exact .inr ⟨f, v, hv, hr, hf⟩

/-- A status of a reader with texts is a status of the reader without. -/
theorem status_forget {x : Mio α} {c : Code} {t : Str} (h : x = .error (.status c t)) : forget x = bad c := by
  rw [h]
  rfl

theorem says_getInteger {c : Config} {conf : Str} {defs : List (Str × Str)} (hk : Knows c conf defs) {key : Str}
    (hb : 123 ∉ key) {P : Code → Str → Prop}
    (hp : (∀ n, ¬ Sets defs key n) → P .corruption (keyText key ++ [39] ++ conf ++ [39])) :
    Says P (getInteger c key) := by
  intro c' t h
  have h1 : (∀ n, ¬ Sets defs key n) := by
    intro n hn
    have h2 := status_forget h
    rw [forget_getInteger, getInteger_sets hk hn] at h2
    cases h2
  unfold getInteger at h
  cases hg : c.getIntegerOrElse key (-2147483648) with
  | error e => rw [hg] at h; cases h
  | ok v =>
    rw [hg] at h
    change (if v = -2147483648 then keyNotFound c key else .ok v) = _ at h
    split at h
    · unfold keyNotFound failed at h
      rw [hk.file, format_key key conf hb] at h
      cases h
      exact hp h1
    · cases h

theorem says_openFile {w : World G} {f : Str} {P : Code → Str → Prop}
    (hp : w.file f = none → P .io ([73, 79, 69, 114, 114, 111, 114, 58, 32, 85, 110, 97, 98, 108, 101, 32, 116, 111,
  32, 111, 112, 101, 110, 32] ++ f)) : Says P (openFile w f) := by
  unfold openFile
  cases hf : w.file f with
  | none =>
    refine .failed ?_
    rw [format_open]
    exact hp hf
  | some bs => exact .ok _

theorem openFile_ok {w : World G} {f : Str} {bs : List UInt8} (h : openFile w f = .ok bs) : w.file f = some bs := by
  unfold openFile at h
  cases hf : w.file f with
  | none => rw [hf] at h; cases h
  | some bs => rw [hf] at h; cases h; rfl

theorem says_readKey {w : World G} {c : Config} {conf : Str} {defs : List (Str × Str)} (hk : Knows c conf defs)
    {key : Str} (hb : 123 ∉ key) {p : Rm α} {P : Code → Str → Prop}
    (h1 : (∀ f, ¬ Names conf defs key f) → P .corruption (keyText key ++ [39] ++ conf ++ [39]))
    (h2 : ∀ f, Names conf defs key f → w.file f = none → P .io ([73, 79, 69, 114, 114, 111, 114, 58, 32, 85, 110, 97,
  98, 108, 101, 32, 116, 111, 32, 111, 112, 101, 110, 32] ++ f))
    (h3 : ∀ f bs, Names conf defs key f → w.file f = some bs → Says P (p f bs)) : Says P (readKey w c key p) := by
  unfold readKey getPath
  rcases lookup_cases hk key with ⟨hn, hd⟩ | ⟨f, hf⟩
  · rw [hd]
    show Says P ((if kDefault = kDefault then keyNotFound c key else .ok kDefault) >>= _)
    rw [if_pos rfl]
    refine Says.bind ?_ fun _ h => by cases h
    unfold keyNotFound
    refine .failed ?_
    rw [hk.file, format_key key conf hb]
    exact h1 hn
  · rw [getPathOrElse_names hk hf]
    show Says P ((if f = kDefault then keyNotFound c key else .ok f) >>= _)
    rw [if_neg (names_ne hk hf).2]
    exact (says_openFile (h2 f hf)).bind fun bs hbs => (h3 f bs hf (openFile_ok hbs)).bind fun _ _ => .ok _

/-! ## Contents -/

theorem readVec_valid {f : Str} {bs : List UInt8} {c : Code} {t : Str} (h : readVec f bs = .error (.status c t)) :
    ¬ ValidVec (fun _ => True) bs := by
  rintro ⟨v, junk, hv, _, rfl⟩
  have := status_forget h
  rw [plain_readVec, Ser.C31_vector _ hv] at this
  cases this

theorem readNnet_valid {f : Str} {bs : List UInt8} {c : Code} {t : Str} (h : readNnet f bs = .error (.status c t)) :
    ¬ ValidNnet bs := by
  rintro ⟨l, r, ls, junk, h1, h2, h3, h4, rfl⟩
  have := status_forget h
  rw [plain_readNnet, Ser.C33_round_trip _ _ h1 h2 _ h3 h4] at this
  cases this

theorem says_amRead {w : World G} {c : Config} {conf : Str} {defs : List (Str × Str)} (hk : Knows c conf defs) :
    Says (Report w conf defs) (amRead w c) := by
  unfold amRead
  have hnum : ∀ k ∈ [kLeft, kRight, kChunk, kNumPdfs], Says (Report w conf defs) (getInteger c k) := by
    intro k hm
    refine says_getInteger hk ?_ (.number hm)
    revert k
    decide
  have hvec : ∀ k ∈ [kPrior, kTid2pdf], Says (Report w conf defs) (readKey w c k readVec) := by
    intro k hm
    refine says_readKey hk ?_ ?_ ?_ ?_
    · revert k
      decide
    · exact .key (by
        revert k
        decide)
    · exact fun f => .file (by
        revert k
        decide)
    · have hk' : k ∈ [kPrior, kTid2pdf, kOriginal] := by
        revert k
        decide
      intro f bs h1 h2 c t h3
      exact .vector hk' h1 h2 (readVec_valid h3) (says_readVec _ _ _ _ h3).1 (says_readVec _ _ _ _ h3).2
  refine Says.bind (says_readKey hk (by decide) (.key (by decide)) (fun f => .file (by decide))
    fun f bs h1 h2 c t h3 => .network h1 h2 (readNnet_valid h3) (says_readNnet _ _ _ _ h3).1
      (says_readNnet _ _ _ _ h3).2) fun net _ => ?_
  refine Says.bind (hvec _ (by decide)) fun prior _ => (Says.ofExec _).bind fun _ _ => ?_
  refine Says.bind (hnum _ (by decide)) fun _ _ => Says.bind (hnum _ (by decide)) fun _ _ => ?_
  refine Says.bind (hnum _ (by decide)) fun _ _ => Says.bind (hnum _ (by decide)) fun _ _ => ?_
  exact Says.bind (hvec _ (by decide)) fun map _ => (Says.ofExec _).bind fun _ _ => .ok _

theorem says_symbolsRead {w : World G} {conf : Str} {defs : List (Str × Str)} {f : Str}
    (hn : Names conf defs kSymbols f) : Says (Report w conf defs) (symbolsRead w f) := by
  intro c t h
  cases hf : w.file f with
  | none =>
    unfold symbolsRead at h
    exact (says_openFile fun h => .file (k := kSymbols) (by decide) hn h).bind
      (fun bs hbs => by rw [openFile_ok hbs] at hf; cases hf) c t h
  | some bs =>
    have ho : openFile w f = .ok bs := by
      unfold openFile
      rw [hf]
    have hv : ¬ ValidSymbols bs := by
      rintro ⟨es, h2, h3, h4, rfl⟩
      obtain ⟨t', t1, _, _, _⟩ := (C39_symbol_table es h2).1 ⟨h3, h4⟩
      have := status_forget h
      rw [forget_symbolsRead] at this
      unfold App.symbolsRead App.openFile at this
      rw [hf] at this
      simp only [io_ok_bind] at this
      rw [show readSymbols (es.map (fun e => e.line ++ e.eol)).flatten = .ok t' from t1] at this
      cases this
    have hs : Says (TellsOr f) (symbolsRead w f) := by
      unfold symbolsRead
      rw [ho]
      exact (says_symbolLoop f _ _ _).bind fun t _ => says_findBosEos t f
    exact .symbols hn hf hv (hs c t h).1 (hs c t h).2

/-! ## Steps -/

/-- Every status of a step has a property. -/
def Reports (P : Code → Str → Prop) (x : Exec (Stage G)) : Prop := ∀ c t h s, x = .ok (some (c, t), h, s) → P c t

theorem Reports.leave {P : Code → Str → Prop} {c : Code} {t : Str} {h : Heap} {s : Self G} (hp : P c (label c ++ t)) :
    Reports P (leave c t h s) := by
  intro c' t' h' s' he
  cases he
  exact hp

theorem Reports.settle {P : Code → Str → Prop} {r : Mio α} (hr : Says P r) (h : Heap) (s : Self G) (f : α → Self G) :
    Reports P (settle r h s f) := by
  intro c t h' s' he
  rcases r with (⟨c', t'⟩ | e) | x
  · cases he
    exact hr _ _ rfl
  · cases he
  · cases he

theorem Reports.andThen {P : Code → Str → Prop} {x : Exec (Stage G)} {next : Heap → Self G → Exec (Stage G)}
    (hx : Reports P x) (hn : ∀ h s, Reports P (next h s)) : Reports P (andThen x next) := by
  intro c t h s he
  unfold Msg.andThen at he
  obtain ⟨⟨o, h', s'⟩, h1, h2⟩ := bind_ok he
  rcases o with _ | ⟨c', t'⟩
  · exact hn _ _ _ _ _ _ h2
  · cases h2
    exact hx _ _ _ _ h1

theorem Reports.done {P : Code → Str → Prop} (h : Heap) (s : Self G) : Reports P (.ok (none, h, s)) := by
  intro c t h' s' he
  cases he

theorem keyFst_text : label .corruption ++ format tKeyFst [[]] = keyText kFst := by decide +kernel

theorem keySymbols_text : label .corruption ++ format tKeySymbols [[]] = keyText kSymbols := by decide +kernel

theorem keyOriginal_text : label .corruption ++ format tKeyOriginal [[]] = keyText kOriginal := by decide +kernel

theorem reports_hclg {w : World G} {c : Config} {conf : Str} {defs : List (Str × Str)} (hk : Knows c conf defs)
    (h : Heap) (s : Self G) : Reports (Report w conf defs) (readHclg w c h s) := by
  unfold readHclg
  rcases lookup_cases hk kFst with ⟨hn, hd⟩ | ⟨f, hf⟩
  · rw [hd, ok_bind, if_pos rfl]
    refine .leave ?_
    rw [keyFst_text]
    exact .graphKey hn
  · rw [getPathOrElse_names hk hf, ok_bind, if_neg (names_ne hk hf).1]
    cases hg : w.readGraph f with
    | none => exact .leave (.graph hf hg)
    | some g => exact .done _ _

theorem reports_am {w : World G} {c : Config} {conf : Str} {defs : List (Str × Str)} (hk : Knows c conf defs)
    (h : Heap) (s : Self G) : Reports (Report w conf defs) (readAm w c h s) := .settle (says_amRead hk) _ _ _

theorem reports_syms {w : World G} {c : Config} {conf : Str} {defs : List (Str × Str)} (hk : Knows c conf defs)
    (h : Heap) (s : Self G) : Reports (Report w conf defs) (readSyms w c h s) := by
  unfold readSyms
  rcases lookup_cases hk kSymbols with ⟨hn, hd⟩ | ⟨f, hf⟩
  · rw [hd, ok_bind, if_pos rfl]
    refine .leave ?_
    rw [keySymbols_text]
    exact .symbolsKey hn
  · rw [getPathOrElse_names hk hf, ok_bind, if_neg (names_ne hk hf).1]
    exact .settle (says_symbolsRead hf) _ _ _

theorem says_originalRead {w : World G} {conf : Str} {defs : List (Str × Str)} {f : Str} {bs : List UInt8}
    (hn : Names conf defs kOriginal f) (hf : w.file f = some bs) : Says (Report w conf defs) (originalRead f bs) :=
  Says.bind (fun c t h => .vector (k := kOriginal) (by decide) hn hf (readVec_valid h) (says_readVec _ _ _ _ h).1
    (says_readVec _ _ _ _ h).2) fun _ _ => .ofExec _

theorem says_largeRead {w : World G} {conf : Str} {defs : List (Str × Str)} {f : Str} {bs : List UInt8}
    (hn : Names conf defs kLarge f) (hf : w.file f = some bs) : Says (Report w conf defs) (largeRead f bs) := by
  refine Says.bind (fun c t h => ?_) fun _ _ => (Says.ofExec _).bind fun _ _ => .ok _
  refine .large hn hf ?_ (says_fstRead _ _ _ _ h).1 (says_fstRead _ _ _ _ h).2
  rintro ⟨t', bytes, junk, w1, w2, w3, w4, w5, w6, rfl⟩
  obtain ⟨bytes', g, b1, b2, _⟩ := Fst.C10_fst_file_round_trip t' w1 w2 w3 junk
  rw [w6] at b1
  cases b1
  have := status_forget h
  rw [plain_fstRead, b2] at this
  cases this

theorem reports_delta {w : World G} {c : Config} {conf : Str} {defs : List (Str × Str)} (hk : Knows c conf defs)
    (h : Heap) (s : Self G) : Reports (Report w conf defs) (readDelta w c h s) := by
  unfold readDelta
  rcases lookup_cases hk kLarge with ⟨_, hd⟩ | ⟨f, hf⟩
  · rw [hd, ok_bind, if_pos rfl]
    exact .done _ _
  rw [getPathOrElse_names hk hf, ok_bind, if_neg (names_ne hk hf).1]
  rcases lookup_cases hk kOriginal with ⟨hn, hd⟩ | ⟨g, hg⟩
  · rw [hd, ok_bind, if_pos rfl]
    refine .leave ?_
    rw [keyOriginal_text]
    exact .originalKey hf hn
  rw [getPathOrElse_names hk hg, ok_bind, if_neg (names_ne hk hg).1]
  refine .andThen (.andThen ?_ fun h s => ?_) fun h s => ?_
  · unfold readOriginal
    cases hb : w.file g with
    | none =>
      refine .leave ?_
      rw [format_open]
      exact .file (k := kOriginal) (by decide) hg hb
    | some bs => exact .settle (says_originalRead hg hb) _ _ _
  · unfold readLarge
    cases hb : w.file f with
    | none =>
      refine .leave ?_
      rw [format_open]
      exact .file (k := kLarge) (by decide) hf hb
    | some bs => exact .settle (says_largeRead hf hb) _ _ _
  · unfold newDelta
    intro c t h' s' he
    split at he <;> cases he

theorem reports_loadAll {w : World G} {c : Config} {conf : Str} {defs : List (Str × Str)} (hk : Knows c conf defs)
    (h : Heap) : Reports (Report w conf defs) (loadAll w c h) :=
  .andThen (.andThen (.andThen (.andThen (reports_hclg hk _ _) (reports_am hk)) (reports_syms hk)) (reports_delta hk))
    fun _ _ => .done _ _

/-! ## The buffer -/

theorem cstr_takeWhile (l rest : Str) (h : 0 ∉ l) : cstr (l ++ 0 :: rest) = l := by
  unfold cstr
  induction l with
  | nil => rfl
  | cons c l ih =>
    simp only [List.mem_cons, not_or] at h
    have hc : c ≠ 0 := fun e => h.1 e.symm
    rw [List.cons_append, List.takeWhile_cons, if_pos (by simp [hc]), ih h.2]

theorem split_nul (t : Str) : ∃ rest, t ++ [0] = t.takeWhile (· ≠ 0) ++ 0 :: rest := by
  induction t with
  | nil => exact ⟨[], rfl⟩
  | cons c t ih =>
    obtain ⟨rest, h⟩ := ih
    by_cases hc : c = 0
    · exact ⟨t ++ [0], by simp [hc]⟩
    · exact ⟨rest, by simp only [List.cons_append, List.takeWhile_cons]; simp [hc, h]⟩

theorem nul_takeWhile (t : Str) : 0 ∉ t.takeWhile (· ≠ 0) := by
  induction t with
  | nil => simp
  | cons c t ih =>
    simp only [List.takeWhile_cons]
    split
    · next h =>
      simp only [List.mem_cons, not_or]
      refine ⟨?_, ih⟩
      intro e
      simp [← e] at h
    · simp

/-- A text goes to the buffer: as much as fits. -/
theorem report_shown {buf : Str} (hb : buf.length = 2048) (t : Str) :
    ∃ buf', report buf t = .ok buf' ∧ buf'.length = 2048 ∧ lastError buf' = shown t := by
  obtain ⟨rest, hs⟩ := split_nul t
  have h0 := nul_takeWhile t
  refine ⟨(t.takeWhile (· ≠ 0)).take 2047 ++ [0] ++ buf.drop (min (t.takeWhile (· ≠ 0)).length 2047 + 1), ?_, ?_, ?_⟩
  · unfold report
    rw [hs, C37_strlcpy _ _ _ _ h0 (by omega), ok_bind]
    rfl
  · simp only [List.length_append, List.length_take, List.length_drop, List.length_cons, List.length_nil, hb]
    omega
  · unfold lastError shown
    rw [List.append_assoc]
    exact cstr_takeWhile _ _ (fun h => h0 (List.mem_of_mem_take h))

/-- A failed `ce_stt_init`: the text of the status is in the buffer. -/
theorem initFailed_shown {a : Nat} {t : Code × Str} {h : Heap} {s : Self G} {buf : Str} (hb : buf.length = 2048)
    {p : Ptr (Self G)} {h' : Heap} {c : Option Code} {buf' : Str}
    (hi : initFailed a t h s buf = .ok (p, h', c, buf')) :
    p = none ∧ c = some t.1 ∧ buf'.length = 2048 ∧ lastError buf' = shown t.2 := by
  obtain ⟨b, h1, h2, h3⟩ := report_shown hb t.2
  unfold initFailed at hi
  rw [h1, ok_bind] at hi
  obtain ⟨_, _, h4⟩ := bind_ok hi
  cases h4
  exact ⟨rfl, rfl, h2, h3⟩

end Verif.Msg
