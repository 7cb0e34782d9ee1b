import Verif.LoudQuiet
import Verif.MainProps

/-!
# The program with its warnings: its results are those of the program without
-/

namespace Verif.Loud

open Verif Verif.Fst Verif.Decoder Verif.Loud.Spec

theorem results_append (a b : List Out) : results (a ++ b) = results a ++ results b := List.filterMap_append

theorem results_warnings (ws : List Warning) : results (ws.map .warning) = [] := by
  induction ws with
  | nil => rfl
  | cons w ws ih => exact ih

theorem results_results (rs : List Main.Out) : results (rs.map .result) = rs := by
  induction rs with
  | nil => rfl
  | cons r rs ih => show r :: results (rs.map .result) = _; rw [ih]

/-- The run without its warnings. -/
def Prog.strip {α : Type} (p : Prog α) : Main.Prog α := ⟨results p.out, p.res⟩

theorem strip_quiet {α : Type} (p : Main.Prog α) : (Prog.quiet p).strip = p := by
  unfold Prog.quiet Prog.strip
  rw [results_results]

theorem strip_call {α : Type} (t : Talk α) : (Prog.call t).strip = Main.Prog.lift t.res := by
  unfold Prog.call Prog.strip
  rw [results_warnings]
  cases t.res <;> rfl

theorem strip_bind {α β : Type} {p : Prog α} {f : α → Prog β} {q : Main.Prog α} {g : α → Main.Prog β}
    (h : p.strip = q) (hf : ∀ a, (f a).strip = g a) : (p.bind f).strip = q.bind g := by
  subst h
  obtain ⟨o, x⟩ := p
  cases x with
  | error e => rfl
  | ok a =>
    show (⟨results (o ++ (f a).out), (f a).res⟩ : Main.Prog β) = ⟨results o ++ (g a).out, (g a).res⟩
    rw [← hf a, results_append]
    rfl

variable {G F D : Type}

theorem map_ok {α β : Type} {x : Exec α} {f : α → β} {b : β} (h : x.map f = .ok b) : ∃ a, x = .ok a ∧ f a = b := by
  cases x with
  | error e => cases h
  | ok a => exact ⟨a, rfl, by injection h⟩

theorem map_error {α β : Type} {x : Exec α} {f : α → β} {e : Fault} (h : x.map f = .error e) : x = .error e := by
  cases x with
  | error e' => injection h with h; rw [h]
  | ok a => cases h

/-- The loop over the pieces, whatever message is around. -/
theorem audioLoop_res (r : Rec F D) (mem : Nat → Stt.Mem F) : ∀ (fuel i : Nat) (eof : Bool) (rest : List UInt8)
    (u : Stt.Utt F) (msg : Stt.Msg),
    ((Main.audioLoop mem fuel i eof rest (.ready r.plain u) msg).map Prod.fst) =
      (audioLoop r mem fuel i eof rest u).res.map (fun u => Stt.Handle.ready r.plain u)
  | 0, _, _, _, _, _ => rfl
  | fuel + 1, i, eof, rest, u, msg => by
    unfold Main.audioLoop audioLoop
    by_cases h : eof = true
    · rw [if_pos h, if_pos h]; rfl
    rw [if_neg h, if_neg h]
    by_cases h0 : (rest.take 1024).length = 0
    · simp only
      rw [if_pos h0, if_pos h0]; rfl
    simp only
    rw [if_neg h0, if_neg h0, res_bind]
    have key := processApi_ready r (mem i) u msg (rest.take 1024)
    cases hp : Stt.processApi (mem i) (.ready r.plain u) msg (some (rest.take 1024)) ((rest.take 1024).length : Int) with
    | error e =>
      rw [hp] at key
      have := map_error key.symm
      rw [this]; rfl
    | ok p =>
      obtain ⟨n, h', msg'⟩ := p
      rw [hp] at key
      obtain ⟨u', hu, he⟩ := map_ok key.symm
      rw [hu]
      simp only at he
      subst he
      exact audioLoop_res r mem fuel (i + 1) _ _ u' msg'

theorem runUtterance_res (r : Rec F D) (junk : Main.Junk F) (data : List UInt8) (u : Stt.Utt F) (msg : Stt.Msg) :
    (runUtterance r junk data u).res = Main.runUtterance junk data (.ready r.plain u) msg := by
  unfold runUtterance Main.runUtterance
  rw [res_bind]
  have key := audioLoop_res r junk.piece (data.length + 2) 0 false data u msg
  cases ha : Main.audioLoop junk.piece (data.length + 2) 0 false data (.ready r.plain u) msg with
  | error e =>
    rw [ha] at key
    rw [map_error key.symm]
    rfl
  | ok p =>
    obtain ⟨h', msg'⟩ := p
    rw [ha] at key
    obtain ⟨u', hu, he⟩ := map_ok key.symm
    simp only at he
    subst he
    rw [hu]
    simp only [ok_bind]
    rw [res_bind, finish_res]
    show _ = Stt.endApi junk.last (.ready r.plain u') msg' >>= _
    unfold Stt.endApi Stt.checkParamUtt
    simp only [Int.reduceEq, if_false]
    cases Stt.finish r.plain junk.last u' <;> rfl

theorem call_ok {α β : Type} {t : Talk α} {a : α} (h : t.res = .ok a) (f : α → Prog β) :
    (Prog.call t).bind f = ⟨t.said.map .warning ++ (f a).out, (f a).res⟩ := by
  unfold Prog.bind Prog.call
  rw [h]

theorem call_error {α β : Type} {t : Talk α} {e : Fault} (h : t.res = .error e) (f : α → Prog β) :
    (Prog.call t).bind f = ⟨t.said.map .warning, .error (.fault e)⟩ := by
  unfold Prog.bind Prog.call
  rw [h]

theorem processData_strip (rec : Option (Rec F D)) (junk : Main.Junk F) (fmt : Pcm.Format) (data : List UInt8) :
    (processData rec junk fmt data).strip = Main.processData (rec.map Rec.plain) junk fmt data := by
  unfold processData Main.processData
  cases rec with
  | none => rfl
  | some r =>
    show ((Prog.call (uttInit r fmt)).bind (withUtterance r junk data)).strip =
      (Main.Prog.lift (Stt.initApi (some r.plain) fmt .none)).bind _
    have key := initApi_some r fmt .none
    cases hu : (uttInit r fmt).res with
    | error e =>
      rw [hu] at key
      rw [map_error key, call_error hu]
      show (⟨results (List.map _ _), _⟩ : Main.Prog _) = _
      rw [results_warnings]
      rfl
    | ok o =>
      rw [hu] at key
      obtain ⟨⟨h', msg⟩, hi, he⟩ := map_ok key
      rw [hi, call_ok hu]
      simp only at he
      subst he
      show (⟨results (_ ++ _), _⟩ : Main.Prog _) = _
      rw [results_append, results_warnings, List.nil_append]
      cases o with
      | none => exact strip_quiet Main.fatal
      | some u =>
        show (Prog.call (runUtterance r junk data u)).strip = Main.Prog.lift (Main.runUtterance junk data (.ready r.plain u) msg)
        rw [strip_call, runUtterance_res r junk data u msg]

theorem processAudio_strip (w : App.World G) (rec : Option (Rec F D)) (junk : Main.Junk F) (name : Text.Str) :
    (processAudio w rec junk name).strip = Main.processAudio w (rec.map Rec.plain) junk name := by
  unfold processAudio Main.processAudio
  cases w.file name with
  | none => exact strip_quiet _
  | some bs =>
    simp only
    cases Pcm.readPcmHeader bs with
    | error e =>
      cases e with
      | status c => exact strip_quiet _
      | fault f => rfl
    | ok p => exact processData_strip _ _ _ _

theorem scpLine_strip (w : App.World G) (rec : Option (Rec F D)) (junk : Main.Junk F) (line : Text.Str) :
    (scpLine w rec junk line).strip = Main.scpLine w (rec.map Rec.plain) junk line := by
  unfold scpLine Main.scpLine
  refine strip_bind (strip_quiet _) fun fields => ?_
  match fields with
  | [] => exact strip_quiet _
  | [_] => exact strip_quiet _
  | [name, wav] => exact strip_bind (processAudio_strip _ _ _ _) fun hyp => strip_quiet _
  | _ :: _ :: _ :: _ => exact strip_quiet _

theorem scpLoop_strip (w : App.World G) (rec : Option (Rec F D)) (junk : Nat → Main.Junk F) :
    ∀ (fuel i : Nat) (f : Text.File),
      (scpLoop w rec junk fuel i f).strip = Main.scpLoop w (rec.map Rec.plain) junk fuel i f
  | 0, _, _ => rfl
  | fuel + 1, i, f => by
    unfold scpLoop Main.scpLoop
    match Text.readLine f with
    | (.line l, f) => exact strip_bind (scpLine_strip _ _ _ _) fun _ => scpLoop_strip w rec junk fuel (i + 1) f
    | (.done, _) => exact strip_quiet _
    | (.ioError, _) => exact strip_quiet _

theorem processInput_strip (w : App.World G) (rec : Option (Rec F D)) (junk : Nat → Main.Junk F) (input : Text.Str) :
    (processInput w rec junk input).strip = Main.processInput w (rec.map Rec.plain) junk input := by
  unfold processInput Main.processInput
  split
  · exact strip_bind (processAudio_strip _ _ _ _) fun _ => strip_quiet _
  · unfold processScp Main.processScp
    cases w.file input with
    | none => exact strip_quiet _
    | some bs => exact scpLoop_strip _ _ _ _ _ _

/-- The language model by its parts is that of the other model. -/
theorem lmOf_fst (mach : Main.Machine G F D) (s : App.Self G) :
    (lmOf mach s).map (Option.map Lm.fst) = mach.lmOf s := by
  unfold lmOf Main.Machine.lmOf
  cases s.delta with
  | none => rfl
  | some d =>
    cases s.original with
    | none => rfl
    | some u =>
      obtain ⟨_, u⟩ := u
      cases u with
      | none => rfl
      | some u =>
        cases s.large with
        | none => rfl
        | some l =>
          obtain ⟨_, l⟩ := l
          cases l <;> rfl

theorem recogniser_lm {mach : Main.Machine G F D} {s : App.Self G} {r : Stt.Rec F D}
    (h : mach.recogniser s = some r) : mach.lmOf s = some r.dec.lm := by
  unfold Main.Machine.recogniser at h
  split at h
  · injection h with h
    subst h
    assumption
  · cases h

theorem recogniser_plain (mach : Main.Machine G F D) (isNan : F → Bool) (s : App.Self G) :
    (recogniser mach isNan s).map Rec.plain = mach.recogniser s := by
  unfold recogniser
  cases h : mach.recogniser s with
  | none => rfl
  | some r =>
    have h1 := recogniser_lm h
    have h2 := lmOf_fst mach s
    rw [h1] at h2
    cases h3 : lmOf mach s with
    | none => rw [h3] at h2; cases h2
    | some lm =>
      rw [h3] at h2
      injection h2 with h2
      show some (Rec.plain ⟨r, lm, isNan⟩) = some r
      unfold Rec.plain
      simp only
      rw [h2]

theorem main_strip (mach : Main.Machine G F D) (isNan : F → Bool) (w : App.World G) (junk : Nat → Main.Junk F)
    (args : List Text.Str) : (main mach isNan w junk args).strip = Main.main mach w junk args := by
  match args with
  | [] => exact strip_quiet _
  | [_] => exact strip_quiet _
  | _ :: _ :: _ :: _ => exact strip_quiet _
  | [conf, input] =>
    unfold main Main.main
    simp only
    split
    · exact strip_quiet _
    · refine strip_bind (strip_quiet _) ?_
      rintro ⟨q, h, c⟩
      cases q with
      | none => exact strip_quiet _
      | some as =>
        obtain ⟨a, s⟩ := as
        refine strip_bind ?_ fun _ => strip_bind (strip_quiet _) fun _ => strip_quiet _
        rw [processInput_strip, recogniser_plain]

end Verif.Loud
