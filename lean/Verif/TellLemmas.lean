import Verif.TellModel
import Verif.TellSpec
import Verif.SayProps
import Verif.MainProps

/-!
# Lemmas about what the program says
-/

namespace Verif.Tell

open Verif Verif.Text Verif.Main Verif.Main.Spec Verif.Msg Verif.Msg.Spec Verif.Tell.Spec Verif.Pcm.Spec

variable {G F D α β : Type}

/-- Without the text of a message. -/
def Out.plain : Out → Main.Out
  | .line s => .line s
  | .message _ => .message
  | .usage => .usage

/-- Without the texts of messages. -/
def Prog.plain (p : Prog α) : Main.Prog α := ⟨p.out.map Out.plain, p.res⟩

theorem plain_bind (p : Prog α) (f : α → Prog β) : (p.bind f).plain = p.plain.bind fun a => (f a).plain := by
  obtain ⟨o, e | a⟩ := p
  · rfl
  · show (⟨(o ++ (f a).out).map Out.plain, _⟩ : Main.Prog β) = _
    rw [List.map_append]
    rfl

theorem plain_lift (x : Exec α) : (Prog.lift x).plain = Main.Prog.lift x := by cases x <;> rfl

theorem bind_ok_nil (a : α) (f : α → Prog β) : (⟨[], .ok a⟩ : Prog α).bind f = f a := rfl

theorem bind_error (o : List Out) (e : End) (f : α → Prog β) : (⟨o, .error e⟩ : Prog α).bind f = ⟨o, .error e⟩ := rfl

theorem bind_lift_ok {x : Exec α} {a : α} (h : x = .ok a) (f : α → Prog β) : (Prog.lift x).bind f = f a := by
  rw [h]
  rfl

theorem bytes_append (o o' : List Out) (x : Except End α) (y : Except End β) :
    (⟨o ++ o', x⟩ : Prog α).bytes = (⟨o, y⟩ : Prog β).bytes ++ (⟨o', x⟩ : Prog α).bytes := by
  unfold Prog.bytes
  rw [List.map_append, List.flatten_append]

theorem cstr_plain {s : Str} (h : 0 ∉ s) : cstr s = s := cstr_id h

/-- How `ProcessAudio` can end. -/
inductive Audio (w : App.World G) (name buf : Str) : Prog (Str × Str) → Main.Prog Str → Prop
  | ok (t : Str) : Audio w name buf ⟨[], .ok (t, buf)⟩ ⟨[], .ok t⟩
  | fault (f : Fault) : Audio w name buf ⟨[], .error (.fault f)⟩ ⟨[], .error (.fault f)⟩
  | fails (t : Str) : (0 ∉ name → AudioFails w name t) →
      Audio w name buf ⟨[.message ([101, 114, 114, 111, 114, 58, 32] ++ t ++ [10])], .error (.exit 22)⟩ ⟨[.message],
  .error (.exit 22)⟩

theorem audio_cases (w : App.World G) (rec : Option (Stt.Rec F D)) (junk : Junk F) (name : Str) {buf : Str}
    (hb : buf.length = 2048) : Audio w name buf (processAudio w rec junk name buf) (Main.processAudio w rec junk name) := by
  unfold processAudio Main.processAudio
  cases hf : w.file name with
  | none =>
    refine .fails _ fun h0 => ?_
    have : 0 ∉ tUnable ++ name := by
      rw [List.mem_append]
      rintro (h | h)
      · exact absurd h (by decide)
      · exact h0 h
    rw [cstr_plain this]
    exact .missing hf
  | some bs =>
    dsimp only
    rw [← plain_readPcmHeader [] bs]
    rcases hr : Msg.readPcmHeader [] bs with (⟨c, t⟩ | f) | ⟨fmt, data⟩
    · obtain ⟨b, b1, b2, b3⟩ := report_shown hb t
      have ht := header_text _ _ _ hr
      obtain ⟨l1, l2⟩ := header_short ht
      show Audio w name buf ((Prog.lift (report buf t)).bind _) _
      rw [bind_lift_ok b1]
      unfold fatal
      rw [b3, shown_short l1 l2, cstr_plain l2]
      exact .fails _ fun _ => .header hf ht
    · exact .fault f
    · show Audio w name buf (processData rec junk fmt data buf) (Main.processData rec junk fmt data)
      have hacc : Pcm.readPcmHeader bs = .ok (fmt, data) := by
        rw [← plain_readPcmHeader [] bs, hr]
        rfl
      obtain ⟨hd, e, hi, hh⟩ := (Pcm.header_iff bs data fmt.channels fmt.rate fmt.bits).1 hacc
      subst e
      unfold processData Main.processData
      cases hx : Stt.initApi rec fmt .none with
      | error f => exact .fault f
      | ok p =>
        obtain ⟨hdl, msg⟩ := p
        have other : Audio w name buf ((Prog.lift (runUtterance junk data hdl msg)).bind fun hyp =>
            ⟨[], .ok (hyp, buf)⟩) (Main.Prog.lift (runUtterance junk data hdl msg)) := by
          cases runUtterance junk data hdl msg with
          | error f => exact .fault f
          | ok t => exact .ok t
        cases hdl with
        | ready _ _ => exact other
        | noInternal _ _ => exact other
        | noRecognizer _ => exact other
        | null =>
          show Audio w name buf ((Prog.lift (saying buf (setFormat Pcm.Reader.new fmt))).bind _) _
          have hs : ∃ c t, setFormat Pcm.Reader.new fmt = .error (.status c t) := by
            unfold Stt.initApi at hx
            cases rec with
            | none => cases hx
            | some r =>
              dsimp only at hx
              obtain ⟨d, _, hx⟩ := bind_ok hx
              rw [← forget_setFormat] at hx
              rcases hsf : setFormat Pcm.Reader.new fmt with (⟨c, t⟩ | f) | x
              · exact ⟨c, t, rfl⟩
              · rw [hsf] at hx
                cases hx
              · rw [hsf] at hx
                cases hx
          obtain ⟨c, t, hs⟩ := hs
          have htold := setFormat_told (w := w) (F := Unit) hs none
          obtain ⟨b, b1, _, b3, _⟩ := saying_cases hb (setFormat Pcm.Reader.new fmt)
          have hlen := Pcm.header_ok_length hacc
          have hl44 : hd.length = 44 := hh.length
          have hc : -32768 ≤ fmt.channels ∧ fmt.channels ≤ 32767 := by
            have := inI32_signed2 (Pcm.field_length (bs := hd) (o := 22) (n := 2) (by omega))
            rw [hh.channels_eq] at this
            exact this
          have hrt : InI32 fmt.rate := by
            have := inI32_signed4 (Pcm.field_length (bs := hd) (o := 24) (n := 4) (by omega))
            rw [hh.rate_eq] at this
            exact this
          have hbt : -32768 ≤ fmt.bits ∧ fmt.bits ≤ 32767 := by
            have := inI32_signed2 (Pcm.field_length (bs := hd) (o := 34) (n := 2) (by omega))
            rw [hh.bits_eq] at this
            exact this
          have hsh := C90_in_full w _ t htold ⟨by unfold InI32; omega, hrt, by unfold InI32; omega⟩
          rw [bind_lift_ok b1]
          unfold fatal
          rw [b3 c t hs, hsh]
          have h0 : 0 ∉ t := by
            rw [← hsh]
            exact fun h => nul_takeWhile t (List.mem_of_mem_take h)
          rw [cstr_plain h0]
          refine .fails _ fun _ => ?_
          cases htold with
          | channels a b => exact .channels hf hh a b
          | rate a b => exact .rate hf hh a b
          | bits a b => exact .bits hf hh a b

theorem audio_plain {w : App.World G} {name buf : Str} {p : Prog (Str × Str)} {q : Main.Prog Str}
    (h : Audio w name buf p q) (k : Str × Str → Prog β) (k' : Str → Main.Prog β)
    (hk : ∀ t, (k (t, buf)).plain = k' t) : (p.bind k).plain = q.bind k' := by
  cases h with
  | ok t => exact hk t
  | fault f => rfl
  | fails t _ => rfl

theorem scpLine_plain (w : App.World G) (rec : Option (Stt.Rec F D)) (junk : Junk F) (line : Str) {buf : Str}
    (hb : buf.length = 2048) (k : Str → Prog β) (k' : Main.Prog β)
    (hk : (k buf).plain = k') :
    ((scpLine w rec junk line buf).bind k).plain = (Main.scpLine w rec junk line).bind fun _ => k' := by
  unfold scpLine Main.scpLine
  cases split line [32] with
  | error f => rfl
  | ok fields =>
    rw [bind_lift_ok rfl, show Main.Prog.lift (.ok fields : Exec (List Str)) = ⟨[], .ok fields⟩ from rfl,
      Main.bind_ok_nil]
    match fields with
    | [] => rfl
    | [_] => rfl
    | _ :: _ :: _ :: _ => rfl
    | [name, wav] =>
      dsimp only
      have ha := audio_cases w rec junk wav hb
      generalize processAudio w rec junk wav buf = p at ha ⊢
      generalize Main.processAudio w rec junk wav = q at ha ⊢
      cases ha with
      | ok t =>
        rw [← hk]
        rfl
      | fault f => rfl
      | fails t _ => rfl

theorem scpLoop_plain (w : App.World G) (rec : Option (Stt.Rec F D)) (junk : Nat → Junk F) (scp : Str) {buf : Str}
    (hb : buf.length = 2048) : ∀ (fuel i : Nat) (f : File),
      (scpLoop w rec junk scp fuel i f buf).plain = Main.scpLoop w rec junk fuel i f
  | 0, _, _ => rfl
  | fuel + 1, i, f => by
    unfold scpLoop Main.scpLoop
    rcases readLine f with ⟨l | _ | _, f'⟩
    · exact scpLine_plain w rec (junk i) l hb _ _ (scpLoop_plain w rec junk scp hb fuel (i + 1) f')
    · rfl
    · rfl

theorem processInput_plain (w : App.World G) (rec : Option (Stt.Rec F D)) (junk : Nat → Junk F) (input : Str) {buf : Str}
    (hb : buf.length = 2048) : (processInput w rec junk input buf).plain = Main.processInput w rec junk input := by
  unfold processInput Main.processInput
  split
  · exact audio_plain (audio_cases w rec (junk 0) input hb) _ _ fun t => rfl
  · unfold processScp Main.processScp
    cases w.file input with
    | none => rfl
    | some bs => exact scpLoop_plain w rec junk input hb _ _ _

/-- A recogniser is made by both models or by none. -/
theorem init_both (w : App.World G) (conf : Str) :
    (∃ f, Msg.init w conf ⟨0, []⟩ noMessage = .error f ∧ App.init w conf ⟨0, []⟩ = .error f) ∨
    (∃ h c t, App.init w conf ⟨0, []⟩ = .ok (none, h, some c) ∧ Told w (.sttInit conf : Api.Call Unit) t ∧
      ∃ buf, Msg.init w conf ⟨0, []⟩ noMessage = .ok (none, h, some c, buf) ∧ lastError buf = shown t) ∨
    ∃ a s h, App.init w conf ⟨0, []⟩ = .ok (some (a, s), h, none) ∧
      Msg.init w conf ⟨0, []⟩ noMessage = .ok (some (a, s), h, none, noMessage) := by
  have hs := C89_same w conf ⟨0, []⟩ noMessage noMessage_length
  rcases hi : Msg.init w conf ⟨0, []⟩ noMessage with f | ⟨p, h, c, buf⟩
  · rw [hi] at hs
    exact .inl ⟨f, rfl, hs.symm⟩
  · rw [hi] at hs
    cases p with
    | none =>
      obtain ⟨⟨c', rfl⟩, _, t, ht, hl⟩ := init_told (F := Unit) noMessage_length hi
      exact .inr (.inl ⟨h, c', t, hs.symm, ht, buf, rfl, hl⟩)
    | some p =>
      obtain ⟨a, s⟩ := p
      obtain ⟨rfl, rfl⟩ := C89_success_keeps_text w conf _ _ _ _ _ _ noMessage_length hi
      exact .inr (.inr ⟨a, s, h, hs.symm, rfl⟩)

/-- The program with a recogniser. -/
theorem main_loaded (mach : Machine G F D) {w : App.World G} {conf input : Str} {junk : Nat → Junk F} {a : Nat}
    {s : App.Self G} {h : App.Heap} {c : Option Code} (hx : App.init w conf ⟨0, []⟩ = .ok (some (a, s), h, c))
    (hl : 4 ≤ input.length) :
    main mach w junk [conf, input] = processInput w (mach.recogniser s) junk input noMessage := by
  obtain ⟨h', hd⟩ := Main.init_destroy hx
  rcases init_both w conf with ⟨f, _, e⟩ | ⟨_, _, _, e, _⟩ | ⟨a', s', h'', e, e'⟩
  · rw [e] at hx
    cases hx
  · rw [e] at hx
    cases hx
  · rw [e] at hx
    cases hx
    unfold main
    simp only
    rw [if_neg (by omega), bind_lift_ok e']
    simp only
    rw [hd]
    obtain ⟨o, e | u⟩ := processInput w (mach.recogniser s) junk input noMessage
    · rfl
    · show (⟨o ++ [], .ok ()⟩ : Prog Unit) = ⟨o, .ok u⟩
      rw [List.append_nil]

/-- The program with a recogniser and an audio file. -/
theorem main_wav (mach : Machine G F D) {w : App.World G} {conf input : Str} {junk : Nat → Junk F} {a : Nat}
    {s : App.Self G} {h : App.Heap} {c : Option Code} (hx : App.init w conf ⟨0, []⟩ = .ok (some (a, s), h, c))
    (hw : IsWav input) :
    main mach w junk [conf, input] =
      (processAudio w (mach.recogniser s) (junk 0) input noMessage).bind fun x => Prog.say x.1 := by
  rw [main_loaded mach hx (wav_input hw).1]
  unfold processInput
  rw [if_pos (wav_input hw).2]

theorem scpLine_entry (w : App.World G) (rec : Option (Stt.Rec F D)) (junk : Junk F) {e : ScriptEntry} (he : e.Ok)
    (buf : Str) : scpLine w rec junk e.line buf = (processAudio w rec junk e.wav buf).bind fun x =>
      (Prog.say (e.name ++ [32] ++ x.1)).bind fun _ => ⟨[], .ok x.2⟩ := by
  unfold scpLine ScriptEntry.line
  rw [split_two he.name he.wav (wav_ne he.isWav), bind_lift_ok rfl]

/-- The part of a script that is recognised, and then the rest. -/
theorem scpLoop_prefix (w : App.World G) (rec : Option (Stt.Rec F D)) (junk : Nat → Junk F) (scp rest buf : Str)
    (fuel : Nat) : ∀ (rs : List (ScriptEntry × Str)) (i : Nat),
      (∀ (j : Nat) e t, rs[j]? = some (e, t) → e.Ok ∧ processAudio w rec (junk (i + j)) e.wav buf = ⟨[], .ok (t,
  buf)⟩) →
      scpLoop w rec junk scp (rs.length + fuel) i ⟨(rs.map fun p => p.1.line ++ p.1.eol).flatten ++ rest, false⟩ buf =
        ⟨(rs.map fun p => Out.line (p.1.name ++ [32] ++ p.2)) ++
            (scpLoop w rec junk scp fuel (i + rs.length) ⟨rest, false⟩ buf).out,
          (scpLoop w rec junk scp fuel (i + rs.length) ⟨rest, false⟩ buf).res⟩
  | [], i, _ => by
    rw [List.length_nil, Nat.zero_add]
    rfl
  | (e, t) :: rs, i, h => by
    obtain ⟨he, hp⟩ := h 0 e t rfl
    rw [Nat.add_zero] at hp
    have ih := scpLoop_prefix w rec junk scp rest buf fuel rs (i + 1) (by
      intro j e' t' hj
      have := h (j + 1) e' t' hj
      rw [show i + 1 + j = i + (j + 1) by omega]
      exact this)
    rw [show ((e, t) :: rs).length + fuel = (rs.length + fuel) + 1 by simp; omega]
    have hr := readLine_good (r := (rs.map fun p => p.1.line ++ p.1.eol).flatten ++ rest) he.good
    rw [List.map_cons, List.flatten_cons, List.append_assoc]
    conv => lhs; unfold scpLoop
    rw [hr]
    simp only
    rw [scpLine_entry w rec (junk i) he, hp, bind_ok_nil]
    show (⟨[Out.line (e.name ++ [32] ++ t)] ++ (scpLoop w rec junk scp (rs.length + fuel) (i + 1) _ buf).out,
      (scpLoop w rec junk scp (rs.length + fuel) (i + 1) _ buf).res⟩ : Prog Unit) = _
    rw [ih, show i + ((e, t) :: rs).length = i + 1 + rs.length by simp; omega]
    rfl

/-- What the program does with a script, in terms of what it does with the files alone. -/
theorem main_script (mach : Machine G F D) {w : App.World G} {conf scp : Str} {a : Nat}
    {s : App.Self G} {h : App.Heap} {c : Option Code} (hx : App.init w conf ⟨0, []⟩ = .ok (some (a, s), h, c))
    (hl : 4 ≤ scp.length) (hw : ¬ IsWav scp) (junk : Nat → Junk F) (rs : List (ScriptEntry × Str)) (rest : Str)
    (hfile : w.file scp = some ((rs.map fun p => p.1.line ++ p.1.eol).flatten ++ rest))
    (hrs : ∀ (i : Nat) e t, rs[i]? = some (e, t) → e.Ok ∧
      main mach w (fun _ => junk i) [conf, e.wav] = ⟨[.line t], .ok ()⟩) :
    ∃ fuel, 2 ≤ fuel ∧ main mach w junk [conf, scp] =
      ⟨(rs.map fun p => Out.line (p.1.name ++ [32] ++ p.2)) ++
        (scpLoop w (mach.recogniser s) junk scp fuel rs.length ⟨rest, false⟩ noMessage).out,
        (scpLoop w (mach.recogniser s) junk scp fuel rs.length ⟨rest, false⟩ noMessage).res⟩ := by
  have hlen := script_length rs rest
  obtain ⟨fuel, hfu⟩ : ∃ fuel, ((rs.map fun p => p.1.line ++ p.1.eol).flatten ++ rest).length + 2 = rs.length + fuel :=
    ⟨((rs.map fun p => p.1.line ++ p.1.eol).flatten ++ rest).length + 2 - rs.length, by omega⟩
  refine ⟨fuel, by omega, ?_⟩
  rw [main_loaded mach hx hl]
  unfold processInput
  rw [if_neg (by
    intro hc
    apply hw
    refine ⟨scp.take (scp.length - 4), ?_⟩
    have := List.take_append_drop (scp.length - 4) scp
    rw [hc] at this
    exact this)]
  unfold processScp
  rw [hfile]
  simp only
  rw [hfu]
  have := scpLoop_prefix w (mach.recogniser s) junk scp rest noMessage fuel rs 0 (by
    intro j e t hj
    obtain ⟨he, hm⟩ := hrs j e t hj
    refine ⟨he, ?_⟩
    rw [main_wav mach hx he.isWav] at hm
    rw [Nat.zero_add]
    have ha := audio_cases w (mach.recogniser s) (junk j) e.wav noMessage_length
    generalize processAudio w (mach.recogniser s) (junk j) e.wav noMessage = p at ha hm ⊢
    generalize Main.processAudio w (mach.recogniser s) (junk j) e.wav = q at ha
    cases ha with
    | ok t' =>
      have hm : (⟨[Out.line t'], .ok ()⟩ : Prog Unit) = ⟨[.line t], .ok ()⟩ := hm
      injection hm with hm _
      injection hm with hm _
      injection hm with hm
      rw [hm]
    | fault f =>
      injection hm with _ hm
      cases hm
    | fails t' _ =>
      injection hm with _ hm
      cases hm)
  rw [Nat.zero_add] at this
  exact this

end Verif.Tell
