import Verif.LoudProg
import Verif.LoudExample

/-!
# C84: what is written to standard output
-/

namespace Verif.Loud

open Verif Verif.Fst Verif.Text Verif.App.Spec Verif.Main.Spec Verif.Loud.Spec

variable {G F D : Type}

/-! ## Lemmas -/

theorem main_loaded (mach : Main.Machine G F D) (isNan : F → Bool) {w : App.World G} {conf input : Str}
    {junk : Nat → Main.Junk F} {a : Nat} {s : App.Self G} {h : App.Heap} {c : Option Code}
    (hx : App.init w conf ⟨0, []⟩ = .ok (some (a, s), h, c)) (hl : 4 ≤ input.length) :
    main mach isNan w junk [conf, input] = processInput w (recogniser mach isNan s) junk input := by
  obtain ⟨h', hd⟩ := Main.init_destroy hx
  unfold main
  simp only
  rw [if_neg (by omega), hx]
  show (processInput w (recogniser mach isNan s) junk input).bind _ = _
  simp only
  rw [hd]
  obtain ⟨o, x⟩ := processInput w (recogniser mach isNan s) junk input
  cases x with
  | error e => rfl
  | ok u =>
    show (⟨o ++ [], .ok ()⟩ : Prog Unit) = ⟨o, .ok u⟩
    rw [List.append_nil]

theorem main_wav (mach : Main.Machine G F D) (isNan : F → Bool) {w : App.World G} {conf input : Str}
    {junk : Nat → Main.Junk F} {a : Nat} {s : App.Self G} {h : App.Heap} {c : Option Code}
    (hx : App.init w conf ⟨0, []⟩ = .ok (some (a, s), h, c)) (hw : IsWav input) :
    main mach isNan w junk [conf, input] =
      (processAudio w (recogniser mach isNan s) (junk 0) input).bind fun hyp => .quiet (Main.Prog.say hyp) := by
  rw [main_loaded mach isNan hx (Main.wav_input hw).1]
  unfold processInput
  rw [if_pos (Main.wav_input hw).2]

/-- Recognition writes nothing but warnings. -/
theorem processData_out (rec : Option (Rec F D)) (junk : Main.Junk F) (fmt : Pcm.Format) (data : List UInt8) {t : Str}
    (h : (processData rec junk fmt data).res = .ok t) :
    ∃ ws : List Warning, (processData rec junk fmt data).out = ws.map Out.warning := by
  cases rec with
  | none => exact ⟨[], rfl⟩
  | some r =>
    have h : ((Prog.call (uttInit r fmt)).bind (withUtterance r junk data)).res = .ok t := h
    show ∃ ws : List Warning, ((Prog.call (uttInit r fmt)).bind (withUtterance r junk data)).out = _
    cases hu : (uttInit r fmt).res with
    | error e => rw [call_error hu]; exact ⟨_, rfl⟩
    | ok o =>
      rw [call_ok hu] at h ⊢
      cases o with
      | none => cases h
      | some u =>
        refine ⟨(uttInit r fmt).said ++ (runUtterance r junk data u).said, ?_⟩
        rw [List.map_append]
        rfl

theorem processAudio_audio (w : App.World G) (rec : Option (Rec F D)) (junk : Main.Junk F) {input : Str}
    {file data : List UInt8} {b : Nat} (hfile : w.file input = some file) (ha : IsAudio file b data) :
    processAudio w rec junk input = processData rec junk ⟨1, 16000, 8 * b⟩ data := by
  unfold processAudio
  rw [hfile]
  simp only
  rw [Main.header_of_audio ha]

/-- What is said when an utterance is begun is written first. -/
theorem processData_first (r : Rec F D) (junk : Main.Junk F) (fmt : Pcm.Format) (data : List UInt8) :
    ∃ rest, (processData (some r) junk fmt data).out = (uttInit r fmt).said.map .warning ++ rest := by
  show ∃ rest, ((Prog.call (uttInit r fmt)).bind (withUtterance r junk data)).out = _
  cases hu : (uttInit r fmt).res with
  | error e => rw [call_error hu]; exact ⟨[], by simp⟩
  | ok o => rw [call_ok hu]; exact ⟨_, rfl⟩

theorem said_bind_prefix {α β : Type} (x : Talk α) (f : α → Talk β) : ∃ l, (x >>= f).said = x.said ++ l := by
  rw [said_bind]
  exact ⟨_, rfl⟩

theorem said_after {α β : Type} {x : Talk α} {f : α → Talk β} {a : α} (h : x.res = .ok a) :
    (x >>= f).said = x.said ++ (f a).said := by
  rw [said_bind, h]

/-- The start state of the language model, without the begin of the sentence … -/
theorem lmStart_none {r : Rec F D} {l : Lm F} (hl : r.lm = some l) {s : Int} (hs : l.large.start = .ok s)
    (hx : l.large.getArc s l.bos = .ok none) : lmStart r = ⟨[.noBos], .ok s⟩ := by
  unfold lmStart
  rw [hl]
  simp only
  unfold startState
  rw [hs]
  show Talk.bind _ _ = _
  unfold Talk.bind
  simp only [res_lift, said_lift, List.nil_append]
  rw [hx]
  rfl

/-- … and with it. -/
theorem lmStart_some {r : Rec F D} {l : Lm F} (hl : r.lm = some l) {s : Int} (hs : l.large.start = .ok s)
    {a : Arc F} (hx : l.large.getArc s l.bos = .ok (some a)) : lmStart r = ⟨[], .ok a.next⟩ := by
  unfold lmStart
  rw [hl]
  simp only
  unfold startState
  rw [hs]
  show Talk.bind _ _ = _
  unfold Talk.bind
  simp only [res_lift, said_lift, List.nil_append]
  rw [hx]
  rfl

/-- Without the begin of the sentence, this is the first thing said. -/
theorem uttInit_noBos {r : Rec F D} (hg : 0 ≤ r.base.dec.g.start) {l : Lm F} (hl : r.lm = some l) (fmt : Pcm.Format)
    {s : Int} (hs : l.large.start = .ok s) (hx : l.large.getArc s l.bos = .ok none) :
    ∃ rest, (uttInit r fmt).said = .noBos :: rest := by
  unfold uttInit
  rw [said_bind]
  unfold initDecoder
  rw [said_after (x := Talk.lift (cassert (decide (0 ≤ r.plain.dec.g.start)))) (a := ()) (by
    rw [res_lift, show decide (0 ≤ r.plain.dec.g.start) = true from decide_eq_true hg]; rfl)]
  rw [said_bind, lmStart_none hl hs hx]
  exact ⟨_, rfl⟩

theorem foldlM_nonemit_skip (e : Decoder.Env F D) (i : Nat) (cutoff : D) : ∀ (pre rest : List (Decoder.GArc F))
    (acc : Decoder.Dec F × List Decoder.State), (∀ a ∈ pre, a.ilabel ≠ 0) →
    (pre ++ rest).foldlM (nonemitArc e i cutoff) acc = rest.foldlM (nonemitArc e i cutoff) acc
  | [], _, _, _ => rfl
  | a :: pre, rest, acc, h => by
    rw [List.cons_append, List.foldlM_cons]
    have : nonemitArc e i cutoff acc a = pure acc := by
      obtain ⟨d, stack⟩ := acc
      unfold nonemitArc
      simp only
      rw [if_pos (h a List.mem_cons_self)]
    rw [this, pure_bind']
    exact foldlM_nonemit_skip e i cutoff pre rest acc fun a ha => h a (List.mem_cons_of_mem _ ha)

/-- A graph whose first arc without input carries a word that the language model lacks. -/
theorem uttInit_mismatch {r : Rec F D} (hg : 0 ≤ r.base.dec.g.start) (hf : r.base.fuel ≠ 0) {l : Lm F} (hl : r.lm = some l)
    (fmt : Pcm.Format) {s : Int} (hs : l.large.start = .ok s) {b : Arc F} (hx : l.large.getArc s l.bos = .ok (some b))
    {pre post : List (Decoder.GArc F)} {a : Decoder.GArc F} (ha : r.base.dec.g.arcs r.base.dec.g.start = pre ++ a :: post)
    (hpre : ∀ c ∈ pre, c.ilabel ≠ 0) (h0 : a.ilabel = 0) (hw : a.olabel ≠ 0)
    (hno : l.large.getArc b.next a.olabel = .ok none) :
    .mismatch ∈ (uttInit r fmt).said := by
  unfold uttInit
  rw [said_bind]
  refine List.mem_append_left _ ?_
  unfold initDecoder
  rw [said_after (x := Talk.lift (cassert (decide (0 ≤ r.plain.dec.g.start)))) (a := ()) (by
    rw [res_lift, show decide (0 ≤ r.plain.dec.g.start) = true from decide_eq_true hg]; rfl)]
  refine List.mem_append_right _ ?_
  rw [said_after (x := lmStart r) (a := b.next) (by rw [lmStart_some hl hs hx])]
  refine List.mem_append_right _ ?_
  obtain ⟨fuel, hfuel⟩ : ∃ k, r.plain.fuel = k + 1 := ⟨r.base.fuel - 1, by
    show r.base.fuel = _
    omega⟩
  rw [hfuel]
  rw [said_after (x := Talk.lift (Decoder.insertTok r.plain.dec { (Decoder.fresh : Decoder.Dec F) with toks := [], prev := [] }
    (r.plain.dec.g.start, b.next) 0 [] r.plain.dec.ar.zero)) (a := _) rfl]
  refine List.mem_append_right _ ?_
  unfold processNonemitting
  rw [said_after (x := Talk.lift (cassert _)) (a := ()) (by
    rw [res_lift]
    simp only [List.nil_append, List.all_cons, List.all_nil, Bool.and_true]
    rw [show decide (0 ≤ r.plain.dec.g.start) = true from decide_eq_true hg]
    rfl)]
  refine List.mem_append_right _ ?_
  simp only [List.nil_append, List.map_cons, List.map_nil, List.reverse_cons, List.reverse_nil]
  unfold nonemitLoop
  simp only [List.lookup_cons, beq_self_eq_true]
  rw [said_bind]
  refine List.mem_append_left _ ?_
  rw [show r.plain.dec.g.arcs r.plain.dec.g.start = pre ++ a :: post from ha, foldlM_nonemit_skip _ _ _ _ _ _ hpre,
    List.foldlM_cons, said_bind]
  refine List.mem_append_left _ ?_
  unfold nonemitArc
  simp only [h0, ne_eq, not_true_eq_false, if_false, Decoder.fresh, List.length_nil, List.getElem?_cons_zero]
  rw [said_bind]
  refine List.mem_append_left _ ?_
  unfold addLm
  rw [show r.plain.dec.lm = some l.fst by unfold Rec.plain; simp only [hl, Option.map_some]]
  simp only
  rw [said_bind]
  refine List.mem_append_left _ ?_
  unfold propagateLm
  rw [if_pos hw]
  rw [said_after (x := Talk.lift (l.fst.getArc b.next a.olabel)) (a := none) (by
    show Fst.IFst.getArc (Fst.delta l.ops l.small l.large l.bos l.eos) _ _ = _
    show (l.large.getArc b.next a.olabel >>= _) = _
    rw [hno]
    rfl)]
  exact List.mem_append_right _ List.mem_cons_self

theorem lacks_none {mach : Main.Machine G F D} {m : App.Spec.Model G} {w : App.World G} (ho : m.Ok w) {u : List Nat}
    {t : Transducer UInt32} (hm : m.lm = some (u, t)) {s : Nat} {x : Int} (hx : x ≠ 0) (h : Lacks t mach.lmFuel s x) :
    lmGetArc mach.lm (fstOf (valueFst (fun x => mach.word (some x.toNat)) t)) [] mach.lmFuel s x = .ok none := by
  obtain ⟨bs, e, h1, h2, h3, h4, h5⟩ := h
  refine lmGetArc_chain_none (Main.isLm_value (ho.lm u t hm).2.2.2.2.1) hx (chain_value _ h2) ?_ ?_ ?_ _ (by
    rw [List.length_map]; exact h1)
  · show e < (t.states.map _).length
    rw [List.length_map]; exact h3
  · rw [firstArc_value, h4]; rfl
  · rw [firstArc_value, h5]; rfl

/-- What is said at the beginning of an utterance is written first. -/
theorem main_first {mach : Main.Machine G F D} {isNan : F → Bool} {w : App.World G} {conf input : Str}
    {junk : Nat → Main.Junk F} {a : Nat} {s : App.Self G} {h : App.Heap} {c : Option Code}
    (hx : App.init w conf ⟨0, []⟩ = .ok (some (a, s), h, c)) (hw : IsWav input) {file data : List UInt8} {b : Nat}
    (hfile : w.file input = some file) (ha : IsAudio file b data) {r : Rec F D} (hr : recogniser mach isNan s = some r) :
    ∃ rest, (main mach isNan w junk [conf, input]).out = (uttInit r ⟨1, 16000, 8 * b⟩).said.map .warning ++ rest := by
  rw [main_wav mach isNan hx hw, hr, processAudio_audio w _ _ hfile ha]
  obtain ⟨rest, hrest⟩ := processData_first r (junk 0) ⟨1, 16000, 8 * b⟩ data
  cases hp : processData (some r) (junk 0) ⟨1, 16000, 8 * b⟩ data with
  | mk o x =>
    rw [hp] at hrest
    simp only at hrest
    subst hrest
    cases x with
    | error e => exact ⟨rest, rfl⟩
    | ok t => exact ⟨rest ++ _, List.append_assoc _ _ _⟩

/-! ## The theorems -/

/-- **C84, the results.**  Whatever the files hold: without its warnings, the output is that of the program of C68 to C70,
and the program ends in the same way. -/
theorem C84_results (mach : Main.Machine G F D) (isNan : F → Bool) (w : App.World G) (junk : Nat → Main.Junk F)
    (args : List Str) : results (main mach isNan w junk args).out = (Main.main mach w junk args).out ∧
      (main mach isNan w junk args).res = (Main.main mach w junk args).res := by
  have h := main_strip mach isNan w junk args
  rw [← h]
  exact ⟨rfl, rfl⟩

/-- **C84, the text comes last.**  For an audio file and a model directory as in C68: a program that runs to its end has
written warnings, and then the line with the text of C68. -/
theorem C84_program (mach : Main.Machine G F D) (isNan : F → Bool) (w : App.World G) (conf bytes : Str)
    (defs : List (Str × Str)) (m : App.Spec.Model G) (hf : w.file conf = some bytes) (hc : IsConf bytes defs)
    (hi : Installed w conf defs m) (ho : m.Ok w) (vm : List F → List (List F) → List F) (e wd : Nat)
    (hfit : Fits mach m vm e wd) (input : Str) (hw : IsWav input) (file data : List UInt8) (b : Nat)
    (hfile : w.file input = some file) (ha : IsAudio file b data) :
    ∃ r, IsRec mach w m r ∧ ∀ (junk : Nat → Main.Junk F) (out : List Out),
      main mach isNan w junk [conf, input] = ⟨out, .ok ()⟩ →
      ∃ (warnings : List Warning) (ids : List Int) (ws : List Str), Hears r vm b data ids ∧ ws.length = ids.length ∧
        (∀ (i : Nat) id word, ids.reverse[i]? = some id → ws[i]? = some word → Spells m.symbols id word) ∧
        out = warnings.map .warning ++ [.result (.line (join [32] ws))] := by
  obtain ⟨r, hir, h⟩ := Main.C68_program mach w conf bytes defs m hf hc hi ho vm e wd hfit input hw file data b hfile ha
  refine ⟨r, hir, fun junk out hm => ?_⟩
  have hs := main_strip mach isNan w junk [conf, input]
  rw [hm] at hs
  obtain ⟨ids, ws, h1, h2, h3, h4⟩ := h junk (results out) hs.symm
  obtain ⟨s, h', hx, _⟩ := App.C65_load w conf bytes defs m ⟨0, []⟩ hf hc hi ho
  rw [main_wav mach isNan hx hw, processAudio_audio w _ _ hfile ha] at hm
  have hd := fun t => processData_out (recogniser mach isNan s) (junk 0) ⟨1, 16000, 8 * b⟩ data (t := t)
  cases hp : processData (recogniser mach isNan s) (junk 0) ⟨1, 16000, 8 * b⟩ data with
  | mk o x =>
    rw [hp] at hm hd
    cases x with
    | error e => injection hm with _ hm; cases hm
    | ok t =>
      obtain ⟨warnings, rfl⟩ := hd t rfl
      injection hm with hm _
      have hm : out = warnings.map Out.warning ++ [.result (.line t)] := hm.symm
      rw [hm, results_append, results_warnings] at h4
      have h4 : [Main.Out.line t] = [Main.Out.line (join [32] ws)] := h4
      injection h4 with h4
      injection h4 with h4
      exact ⟨warnings, ids, ws, h1, h2, h3, by rw [hm, h4]⟩

/-- **C84, when there are no warnings (partial).**  Full statement: *standard output consists of what the program of C68
to C70 writes.*  This is so, unless the program ends in a fault, if the language model, when there is one, finds the
begin of the sentence and, from wherever it gets, every word of the decoding graph.  Missing: other language models, for
which the statement is false (`C84_no_begin`, `C84_unknown_word`, `C84_results_not_alone`). -/
theorem C84_silent_partial (mach : Main.Machine G F D) (isNan : F → Bool) (hn : NanLike isNan mach.fb) (w : App.World G)
    (conf bytes : Str) (defs : List (Str × Str)) (m : App.Spec.Model G) (hf : w.file conf = some bytes)
    (hc : IsConf bytes defs) (hi : Installed w conf defs m) (ho : m.Ok w)
    (hcov : ∀ u t, m.lm = some (u, t) → ∀ b, Begins m b → Covers t b (WordOf (mach.graph m.graph)))
    (input : Str) (junk : Nat → Main.Junk F)
    (hres : ∀ f, (main mach isNan w junk [conf, input]).res ≠ .error (.fault f)) :
    main mach isNan w junk [conf, input] =
      ⟨(Main.main mach w junk [conf, input]).out.map .result, (Main.main mach w junk [conf, input]).res⟩ := by
  have hk : HushP (main mach isNan w junk [conf, input]) := by
    refine main_kept kept_hush mach isNan w junk conf input ?_
    intro a s h' c hx i fmt data
    obtain ⟨s', h'', hx', hh⟩ := App.C65_load w conf bytes defs m ⟨0, []⟩ hf hc hi ho
    rw [hx'] at hx
    cases hx
    obtain ⟨r, hr, hir⟩ := Main.recogniser_holds mach hh ho
    obtain ⟨lm, hl, hlm⟩ := lm_of_holds mach hh ho
    rw [recogniser_eq isNan hr hl]
    obtain ⟨P, hP⟩ := knows_of_covers ho hir isNan hlm hcov
    exact processData_hush hP (by show NanLike isNan r.fb; rw [hir.fb]; exact hn) (junk i) fmt data
  have h := hk hres
  have hs := C84_results mach isNan w junk [conf, input]
  cases hm : main mach isNan w junk [conf, input] with
  | mk o x =>
    rw [hm] at h hs
    simp only at h hs
    rw [← hs.1, ← hs.2, ← h]

/-- **C84, no begin of the sentence.**  If the large language model has no arc for `<s>` at its start state, nor behind its
backoff arcs, then for every audio file the first thing on standard output is a warning. -/
theorem C84_no_begin (mach : Main.Machine G F D) (isNan : F → Bool) (w : App.World G)
    (conf bytes : Str) (defs : List (Str × Str)) (m : App.Spec.Model G) (hf : w.file conf = some bytes)
    (hc : IsConf bytes defs) (hi : Installed w conf defs m) (ho : m.Ok w) (hg : 0 ≤ (mach.graph m.graph).start)
    (u : List Nat) (t : Transducer UInt32) (hm : m.lm = some (u, t)) (s : Nat) (hs : t.start = (s : Int))
    (hno : ∀ b, Begins m b → b ≠ 0 ∧ Lacks t mach.lmFuel s b)
    (input : Str) (hw : IsWav input) (file data : List UInt8) (b : Nat) (hfile : w.file input = some file)
    (ha : IsAudio file b data) (junk : Nat → Main.Junk F) :
    ∃ rest, (main mach isNan w junk [conf, input]).out = .warning .noBos :: rest := by
  obtain ⟨s', h', hx, hh⟩ := App.C65_load w conf bytes defs m ⟨0, []⟩ hf hc hi ho
  obtain ⟨r, hr, hir⟩ := Main.recogniser_holds mach hh ho
  obtain ⟨lm, hl, hlm⟩ := lm_of_holds mach hh ho
  simp only [hm] at hlm
  obtain ⟨l, rfl, h1, h2, h3⟩ := hlm
  obtain ⟨h4, h5⟩ := hno l.bos h2
  obtain ⟨rest, hrest⟩ := main_first (junk := junk) hx hw hfile ha (recogniser_eq isNan hr hl)
  obtain ⟨rest', hrest'⟩ := uttInit_noBos (r := ⟨r, some l, isNan⟩) (by show 0 ≤ r.dec.g.start; rw [hir.graph]; exact hg) rfl
    ⟨1, 16000, 8 * b⟩ h1 (by rw [h3, hs]; exact lacks_none ho hm h4 h5)
  rw [hrest'] at hrest
  exact ⟨_, hrest⟩

/-- **C84, a word the language model lacks.**  If the language model has `<s>` but, behind it, not the word of the first
arc without input that leaves the start state of the decoding graph, then for every audio file a warning is on standard
output. -/
theorem C84_unknown_word (mach : Main.Machine G F D) (isNan : F → Bool) (w : App.World G)
    (conf bytes : Str) (defs : List (Str × Str)) (m : App.Spec.Model G) (hf : w.file conf = some bytes)
    (hc : IsConf bytes defs) (hi : Installed w conf defs m) (ho : m.Ok w) (hg : 0 ≤ (mach.graph m.graph).start)
    (hfuel : mach.fuel ≠ 0) (u : List Nat) (t : Transducer UInt32) (hm : m.lm = some (u, t)) (s s1 : Nat)
    (hs : t.start = (s : Int))
    (hb : ∀ b, Begins m b → b ≠ 0 ∧ ∃ bs e a, bs.length < mach.lmFuel ∧ Chain t b s bs e ∧ firstArc t e b = some a ∧
      a.next = (s1 : Int))
    (pre post : List (Decoder.GArc F)) (a : Decoder.GArc F)
    (harcs : (mach.graph m.graph).arcs (mach.graph m.graph).start = pre ++ a :: post) (hpre : ∀ c ∈ pre, c.ilabel ≠ 0)
    (h0 : a.ilabel = 0) (hw0 : a.olabel ≠ 0) (hno : Lacks t mach.lmFuel s1 a.olabel)
    (input : Str) (hw : IsWav input) (file data : List UInt8) (b : Nat) (hfile : w.file input = some file)
    (ha : IsAudio file b data) (junk : Nat → Main.Junk F) :
    .warning .mismatch ∈ (main mach isNan w junk [conf, input]).out := by
  obtain ⟨s', h', hx, hh⟩ := App.C65_load w conf bytes defs m ⟨0, []⟩ hf hc hi ho
  obtain ⟨r, hr, hir⟩ := Main.recogniser_holds mach hh ho
  have hrf : r.fuel = mach.fuel := by
    unfold Main.Machine.recogniser at hr
    split at hr
    · injection hr with hr
      rw [← hr]
    · cases hr
  obtain ⟨lm, hl, hlm⟩ := lm_of_holds mach hh ho
  simp only [hm] at hlm
  obtain ⟨l, rfl, h1, h2, h3⟩ := hlm
  obtain ⟨h4, bs, e, a', h5, h6, h7, h8⟩ := hb l.bos h2
  obtain ⟨rest, hrest⟩ := main_first (junk := junk) hx hw hfile ha (recogniser_eq isNan hr hl)
  have hstart := lmGetArc_chain_some (o := mach.lm) (Main.isLm_value (g := fun x => mach.word (some x.toNat))
    (ho.lm u t hm).2.2.2.2.1) h4 (chain_value _ h6) (by rw [firstArc_value, h7]; rfl) mach.lmFuel (by
      rw [List.length_map]; exact h5)
  have key := uttInit_mismatch (r := ⟨r, some l, isNan⟩) (by show 0 ≤ r.dec.g.start; rw [hir.graph]; exact hg)
    (by show r.fuel ≠ 0; rw [hrf]; exact hfuel) rfl ⟨1, 16000, 8 * b⟩ h1 (by rw [h3, hs]; exact hstart)
    (pre := pre) (post := post) (a := a) (by show r.dec.g.arcs r.dec.g.start = _; rw [hir.graph]; exact harcs) hpre h0 hw0
    (by rw [h3]; show lmGetArc _ _ _ _ a'.next _ = _; rw [h8]; exact lacks_none ho hm hw0 hno)
  rw [hrest]
  exact List.mem_append_left _ (List.mem_map.mpr ⟨_, key, rfl⟩)

/-- **C84, results do not stand alone.**  There are model directories and audio files with which the program runs to its
end and a warning stands on standard output beside the result. -/
theorem C84_results_not_alone :
    (∃ rest, (main Main.Ex.mach Ex.never (Ex.world Ex.lmDumb) Main.Ex.junk [[100, 47, 99], [101, 46, 119, 97, 118]]) =
      ⟨.warning .noBos :: rest, .ok ()⟩) ∧
    (∃ rest, (main Ex.eager Ex.never (Ex.world Ex.lmNarrow) Main.Ex.junk [[100, 47, 99], [101, 46, 119, 97, 118]]) =
      ⟨.warning .mismatch :: rest, .ok ()⟩) :=
  ⟨⟨_, Ex.run_dumb⟩, ⟨_, Ex.run_narrow⟩⟩

/-- **C84, not a number.**  Whatever the files hold and whatever the second argument: once the program has written that an
energy is not a number, it ends in a failed assertion. -/
theorem C84_nan_ends (mach : Main.Machine G F D) (isNan : F → Bool) (hn : NanLike isNan mach.fb) (w : App.World G)
    (junk : Nat → Main.Junk F) (conf input : Str)
    (h : .warning .nan ∈ (main mach isNan w junk [conf, input]).out) :
    (main mach isNan w junk [conf, input]).res = .error (.fault .assert) := by
  revert h
  refine main_kept kept_doom mach isNan w junk conf input ?_
  intro a s h' c _ i fmt data
  cases hr : recogniser mach isNan s with
  | none => exact fun h => by cases h
  | some r =>
    refine processData_doom ?_ (junk i) fmt data
    unfold recogniser at hr
    split at hr
    · next r' lm e1 e2 =>
      injection hr with hr
      subst hr
      show NanLike isNan r'.fb
      unfold Main.Machine.recogniser at e1
      split at e1
      · injection e1 with e1
        rw [← e1]
        exact hn
      · cases e1
    · cases hr

/-! ## The hypotheses are met -/

theorem Ex.begins {t : Transducer UInt32} {b : Int} (h : Begins (Ex.model t) b) : b = 2 := by
  have h := Main.isLast_mem h
  simp only [Ex.model, Main.Ex.model, Main.Ex.syms, sentBegin, List.map_cons, List.map_nil, List.mem_cons, Prod.mk.injEq,
    List.not_mem_nil, or_false] at h
  rcases h with ⟨h, _⟩ | ⟨h, _⟩ | ⟨_, h⟩ | ⟨h, _⟩
  · exact absurd h (by decide)
  · exact absurd h (by decide)
  · exact h
  · exact absurd h (by decide)

/-- The words of the toy graph. -/
theorem Ex.words {w : Int} (h : WordOf Stt.toyGraph w) (h0 : w ≠ 0) : w = 1 := by
  obtain ⟨s, a, ha, rfl⟩ := h
  revert ha
  unfold Stt.toyGraph
  simp only
  split
  · intro ha; rw [List.mem_singleton.mp ha]
  · split
    · intro ha; rw [List.mem_singleton.mp ha] at h0 ⊢; first | rfl | exact absurd rfl h0
    · intro ha; rw [List.mem_singleton.mp ha] at h0 ⊢; first | rfl | exact absurd rfl h0

/-- The good language model covers them: behind `<s>` it backs off to the state with `hi`. -/
theorem Ex.covers {b : Int} (hb : Begins (Ex.model Ex.lmGood) b) : Covers Ex.lmGood b (WordOf Stt.toyGraph) := by
  rw [Ex.begins hb]
  refine ⟨fun s => s = 0 ∨ s = 1, ⟨0, 1, rfl, ⟨[], 0, ⟨1, 2, 2, 5⟩, .here 0, by decide, rfl⟩, .inr rfl⟩, ?_⟩
  intro s hs w hw h0
  rw [Ex.words hw h0]
  rcases hs with rfl | rfl
  · exact ⟨0, ⟨[], 0, ⟨0, 1, 1, 20⟩, .here 0, by decide, rfl⟩, .inl rfl⟩
  · exact ⟨0, ⟨[⟨0, 0, 0, 4⟩], 0, ⟨0, 1, 1, 20⟩, .step (by decide) (by decide) rfl (.here 0), by decide, rfl⟩, .inl rfl⟩

/-- `C84_program` and `C84_silent_partial` on the directory whose language model covers the graph, and a recording of 560
bytes or none: the hypotheses hold, and the program runs to its end. -/
example : NanLike Ex.never Main.Ex.mach.fb ∧ (Ex.world Ex.lmGood).file [100, 47, 99] = some (App.Ex.confOf Ex.defs) ∧
    IsConf (App.Ex.confOf Ex.defs) Ex.defs ∧ Installed (Ex.world Ex.lmGood) [100, 47, 99] Ex.defs (Ex.model Ex.lmGood) ∧
    (Ex.model Ex.lmGood).Ok (Ex.world Ex.lmGood) ∧ Fits Main.Ex.mach (Ex.model Ex.lmGood) Nnet.toyVecMat 80 80 ∧
    (∀ u t, (Ex.model Ex.lmGood).lm = some (u, t) → ∀ b, Begins (Ex.model Ex.lmGood) b →
      Covers t b (WordOf (Main.Ex.mach.graph (Ex.model Ex.lmGood).graph))) ∧ IsWav [101, 46, 119, 97, 118] ∧
    (Ex.world Ex.lmGood).file [101, 46, 119, 97, 118] = some (Main.Ex.header 0 0 ++ []) ∧
    IsAudio (Main.Ex.header 0 0 ++ []) 1 [] ∧
    main Main.Ex.mach Ex.never (Ex.world Ex.lmGood) Main.Ex.junk [[100, 47, 99], [101, 46, 119, 97, 118]] =
      ⟨[.result (.line [])], .ok ()⟩ := by
  refine ⟨⟨fun x h => (by cases h), fun x h => (by cases h)⟩, Ex.conf_file _, Ex.conf_ok, Ex.installed Ex.lmGood_bytes,
    Ex.model_ok Ex.lmGood_ok, Ex.fits _, ?_, Main.isWav_of [101] rfl, rfl, Main.Ex.header_ok 0 0 [], Ex.run_good⟩
  intro u t h b hb
  cases h
  exact Ex.covers hb

/-- `C84_no_begin`: the language model without `<s>`. -/
example (b : Int) (hb : Begins (Ex.model Ex.lmDumb) b) : b ≠ 0 ∧ Lacks Ex.lmDumb Main.Ex.mach.lmFuel 0 b := by
  rw [Ex.begins hb]
  exact ⟨by decide, [], 0, by decide, .here 0, by decide, by decide, by decide⟩

/-- … so the warning is written whatever the memory holds. -/
example (junk : Nat → Main.Junk Int) : ∃ rest, (main Main.Ex.mach Ex.never (Ex.world Ex.lmDumb) junk
    [[100, 47, 99], [97, 46, 119, 97, 118]]).out = .warning .noBos :: rest := by
  refine C84_no_begin Main.Ex.mach Ex.never _ _ _ _ _ (Ex.conf_file _) Ex.conf_ok (Ex.installed Ex.lmDumb_bytes)
    (Ex.model_ok Ex.lmDumb_ok) (by decide) _ _ rfl 0 rfl ?_ _ (Main.isWav_of [97] rfl) _ _ 1 rfl
    (Main.Ex.header_ok 48 2 (List.replicate 560 3)) junk
  intro b hb
  rw [Ex.begins hb]
  exact ⟨by decide, [], 0, by decide, .here 0, by decide, by decide, by decide⟩

/-- `C84_unknown_word`: the language model without `hi`, and the graph that begins with it. -/
example (junk : Nat → Main.Junk Int) : .warning .mismatch ∈ (main Ex.eager Ex.never (Ex.world Ex.lmNarrow) junk
    [[100, 47, 99], [97, 46, 119, 97, 118]]).out := by
  refine C84_unknown_word Ex.eager Ex.never _ _ _ _ _ (Ex.conf_file _) Ex.conf_ok (Ex.installed Ex.lmNarrow_bytes)
    (Ex.model_ok Ex.lmNarrow_ok) (by decide) (by decide) _ _ rfl 0 0 rfl ?_ [⟨1, 1, 3, 1⟩] [] ⟨0, 1, 0, 1⟩ rfl (by decide) rfl
    (by decide) ⟨[], 0, by decide, .here 0, by decide, by decide, by decide⟩ _ (Main.isWav_of [97] rfl) _ _ 1 rfl
    (Main.Ex.header_ok 48 2 (List.replicate 560 3)) junk
  intro b hb
  rw [Ex.begins hb]
  exact ⟨by decide, [], 0, ⟨0, 2, 2, 5⟩, by decide, .here 0, by decide, rfl⟩

/-- `C84_nan_ends`: a machine in which −7 is not a number, and every energy is it. -/
def Ex.hurt : Main.Machine Unit Int Int :=
  { Main.Ex.mach with fb := { Stt.flatFb with nonneg := fun x => decide (0 ≤ x), lt := fun x y => decide (x < y ∧ x ≠ -7)
                                              zero := -7, add := fun _ _ => -7, bins := [(0, [1])]
                                              fft := fun _ b => .ok ([1, 1], b) } }

example : NanLike (fun x => decide (x = -7)) Ex.hurt.fb := by
  refine ⟨fun x h => ?_, fun x h => ?_⟩
  · rw [of_decide_eq_true h]; decide
  · rw [of_decide_eq_true h]; decide

/-- The recording of 560 bytes as samples. -/
def Ex.wave : List Int := List.replicate 560 3

theorem lift_ok_bind {α β : Type} (a : α) (f : α → Talk β) : Talk.lift (.ok a) >>= f = f a := rfl

theorem error_bind' {α β : Type} (ws : List Warning) (e : Fault) (f : α → Talk β) :
    ((⟨ws, .error e⟩ : Talk α) >>= f) = ⟨ws, .error e⟩ := rfl

theorem Ex.hurt_window (window : List Int) (hw : window.length = 512) :
    ∃ x, Fbank.extractWindow Ex.hurt.fb Ex.wave 0 window = .ok x := by
  unfold Fbank.extractWindow Fbank.frameShift Fbank.frameLength
  have h1 : i32 (((0 : Nat) : Int) * ((160 : Nat) : Int)) = .ok 0 := by decide
  have h2 : i32 (0 + ((400 : Nat) : Int)) = .ok 400 := by decide
  rw [h1, ok_bind, h2, ok_bind, decide_eq_true (by unfold Ex.wave; rw [List.length_replicate]; decide), cassert_true, ok_bind,
    decide_eq_true (by omega), cassert_true, ok_bind,
    Fbank.processWindow_ok _ (by
      unfold Ex.wave
      rw [List.length_take, List.length_drop, List.length_replicate]
      decide) (by
      unfold Ex.wave
      rw [List.length_take, List.length_drop, List.length_replicate]
      exact List.length_replicate), ok_bind]
  exact ⟨_, rfl⟩

theorem Ex.hurt_process (junk : Fbank.Junk Int) (hj : junk.window.length = 512) :
    fbankProcess (fun x => decide (x = -7)) Ex.hurt.fb junk [] Ex.wave = ⟨[.nan], .error .assert⟩ := by
  obtain ⟨x, hx⟩ := Ex.hurt_window junk.window hj
  have hl : Ex.wave.length = 560 := List.length_replicate
  unfold fbankProcess
  rw [if_neg (by rw [hl]; decide)]
  simp only [List.nil_append, List.length_nil, hl]
  have h1 : i32 (((0 : Nat) : Int) + ((560 : Nat) : Int)) = .ok 560 := by decide
  have h2 : vecInit 4 560 = .ok () := by decide
  have h3 : Fbank.calcNumFrames (560 : Nat) = 2 := by decide
  have h4 : matInit 2 Fbank.fbankDim = .ok () := by decide
  rw [h1, lift_ok_bind, h2, lift_ok_bind, h3, if_neg (by decide), h4, lift_ok_bind]
  have h5 : fbankLoop (fun x => decide (x = -7)) Ex.hurt.fb Ex.wave (2 : Int).toNat 0 junk.window junk.buffer =
      ⟨[.nan], .error .assert⟩ := by
    show (Talk.lift (Fbank.extractWindow Ex.hurt.fb Ex.wave 0 junk.window) >>= _) = _
    rw [hx, lift_ok_bind]
    rfl
  rw [h5]
  rfl

/-- On the recording of 560 bytes it writes the warning for the energy of the first frame (there is only one) and ends,
whatever the memory holds. -/
example (junk : Nat → Main.Junk Int) (hj : ((junk 0).piece 0).fb.window.length = 512) :
    main Ex.hurt (fun x => decide (x = -7)) Main.Ex.world junk [[100, 47, 99], [97, 46, 119, 97, 118]] =
      ⟨[.warning .nan], .error (.fault .assert)⟩ := by
  obtain ⟨h, c, hx⟩ := Main.Ex.loaded
  have hw : IsWav [97, 46, 119, 97, 118] := Main.isWav_of [97] rfl
  rw [main_wav Ex.hurt _ hx hw,
    processAudio_audio _ _ _ (data := List.replicate 560 3) rfl (Main.Ex.header_ok 48 2 (List.replicate 560 3))]
  obtain ⟨r, hr, hfb⟩ : ∃ r, recogniser Ex.hurt (fun x => decide (x = -7)) Main.Ex.self = some r ∧
      r = ⟨{ Main.Ex.rec with fb := Ex.hurt.fb }, none, fun x => decide (x = -7)⟩ := by
    refine ⟨_, ?_, rfl⟩
    unfold recogniser
    have : Ex.hurt.recogniser Main.Ex.self = some { Main.Ex.rec with fb := Ex.hurt.fb } := by
      have : Ex.hurt.amOf ⟨⟨1, 0, Main.Ex.layers.map Ser.Spec.full⟩, List.replicate 80 0, 1, 0, 2, 1, [0, 0]⟩ =
          Stt.toyRec.am := by
        unfold Main.Machine.amOf
        congr 1
      unfold Main.Machine.recogniser Main.Ex.self Main.Ex.rec
      simp only [Main.Machine.lmOf]
      rw [this]
      rfl
    rw [this]
    rfl
  rw [hr, hfb]
  obtain ⟨d, hd⟩ : ∃ d, uttInit (⟨{ Main.Ex.rec with fb := Ex.hurt.fb }, none, fun x => decide (x = -7)⟩ : Rec Int Int)
      ⟨1, 16000, 8 * (1 : Nat)⟩ = ⟨[], .ok (some ⟨⟨true, ⟨1, 16000, 8 * (1 : Nat)⟩, []⟩, [], ⟨Am.Inst.new, d, [0], 0⟩⟩)⟩ :=
    ⟨_, rfl⟩
  have hf : ∀ mem : Stt.Mem Int, mem.fb.window.length = 512 →
      feed (⟨{ Main.Ex.rec with fb := Ex.hurt.fb }, none, fun x => decide (x = -7)⟩ : Rec Int Int) mem (List.replicate 560 3)
        ⟨⟨true, ⟨1, 16000, 8 * (1 : Nat)⟩, []⟩, [], ⟨Am.Inst.new, d, [0], 0⟩⟩ = ⟨[.nan], .error .assert⟩ := by
    intro mem hmem
    have hp : (Pcm.Reader.mk true ⟨1, 16000, 8 * (1 : Nat)⟩ []).process (id : Int → Int) (some (List.replicate 560 3))
        (List.replicate 560 (3 : UInt8)).length = .ok (Ex.wave, ⟨true, ⟨1, 16000, 8 * (1 : Nat)⟩, []⟩) := by
      decide +kernel
    unfold feed
    simp only
    rw [show (Rec.plain ⟨{ Main.Ex.rec with fb := Ex.hurt.fb }, none, fun x => decide (x = -7)⟩).conv = id from rfl, hp]
    show afterSamples _ mem _ Ex.wave = _
    unfold afterSamples
    rw [if_neg (by unfold Ex.wave; rw [List.length_replicate]; decide)]
    show (fbankProcess (fun x => decide (x = -7)) Ex.hurt.fb mem.fb [] Ex.wave >>= _) = _
    rw [Ex.hurt_process _ hmem]
    rfl
  unfold processData
  simp only
  rw [call_ok (by rw [hd])]
  simp only [hd]
  unfold withUtterance runUtterance audioLoop
  simp only
  rw [if_neg (by decide), List.length_replicate, List.take_of_length_le (by rw [List.length_replicate]; decide),
    List.length_replicate, if_neg (by decide), hf _ hj]
  rfl

end Verif.Loud
