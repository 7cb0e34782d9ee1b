import Verif.TellLemmas

/-!
# C91: what the program says when it fails
-/

namespace Verif.Tell

open Verif Verif.Text Verif.App.Spec Verif.Main Verif.Main.Spec Verif.Msg Verif.Msg.Spec Verif.Tell.Spec Verif.Pcm.Spec

variable {G F D : Type}

/-- **C91, the same program.**  Without the texts of its messages it is the program of C68 to C70. -/
theorem C91_same (mach : Machine G F D) (w : App.World G) (junk : Nat → Junk F) (args : List Str) :
    (main mach w junk args).plain = Main.main mach w junk args := by
  match args with
  | [] => rfl
  | [_] => rfl
  | _ :: _ :: _ :: _ => rfl
  | [conf, input] =>
    rcases init_both w conf with ⟨f, e, e'⟩ | ⟨h, c, t, e', _, buf, e, _⟩ | ⟨a, s, h, e', _⟩
    · unfold main Main.main
      dsimp only
      rw [e, e']
      split <;> rfl
    · unfold main Main.main
      dsimp only
      rw [e, e']
      split <;> rfl
    · by_cases hl : 4 ≤ input.length
      · rw [main_loaded mach e' hl, Main.main_loaded mach e' hl]
        exact processInput_plain _ _ _ _ noMessage_length
      · unfold main Main.main
        dsimp only
        rw [if_pos (by omega), if_pos (by omega)]
        rfl

/-- **C91, the usage.**  Without exactly two arguments, or with an input name of fewer than four bytes, the program
writes the description of its usage and exits with 1. -/
theorem C91_usage (mach : Machine G F D) (w : App.World G) (junk : Nat → Junk F) (args : List Str)
    (h : args.length ≠ 2 ∨ ∃ conf input, args = [conf, input] ∧ input.length < 4) :
    (main mach w junk args).res = .error (.exit 1) ∧ (main mach w junk args).bytes =
      [85, 115, 97, 103, 101, 58, 32, 112, 111, 99, 107, 101, 116, 107, 97, 108, 100, 105, 32, 60, 109, 111, 100, 101,
  108, 45, 102, 105, 108, 101, 62, 32, 60, 105, 110, 112, 117, 116, 45, 102, 105, 108, 101, 62] ++ [10] ++ [32, 32,
  73, 110, 112, 117, 116, 45, 102, 105, 108, 101, 58] ++ [10] ++
      [32, 32, 32, 32, 42, 46, 119, 97, 118, 58, 32, 100, 101, 99, 111, 100, 101, 32, 116, 104, 105, 115, 32, 102,
  105, 108, 101, 46] ++ [10] ++ [32, 32, 32, 32, 42, 46, 115, 99, 112, 58, 32, 100, 101, 99, 111, 100, 101, 32, 97,
  117, 100, 105, 111, 115, 32, 108, 105, 115, 116, 101, 100, 32, 105, 110, 32, 105, 116, 46] ++ [10] := by
  have : main mach w junk args = printUsage := by
    match args, h with
    | [], _ => rfl
    | [_], _ => rfl
    | _ :: _ :: _ :: _, _ => rfl
    | [conf, input], h =>
      rcases h with h | ⟨_, _, h, hl⟩
      · exact absurd rfl h
      · cases h
        unfold main
        dsimp only
        rw [if_pos hl]
  rw [this]
  exact ⟨rfl, by decide +kernel⟩

example : ([[97]] : List Str).length ≠ 2 ∨ ∃ conf input, ([[97]] : List Str) = [conf, input] ∧ input.length < 4 :=
  .inl (by decide)

/-- **C91, one file.**  With a `.wav` argument the program writes one line and exits with 0, or writes one message and
exits with 22, or has a fault and has written nothing.  The message is that of `ce_stt_init`, see C89, if the model
cannot be loaded; otherwise it tells a true cause about the audio file.

Missing for the full property: the name of the audio file in the message, see `C91_audio_not_named`; and what is missing
in C89 and C90. -/
theorem C91_one_file_partial (mach : Machine G F D) (w : App.World G) (junk : Nat → Junk F) (conf input : Str)
    (h0 : 0 ∉ input) (hw : IsWav input) :
    (∃ t, main mach w junk [conf, input] = ⟨[.line t], .ok ()⟩) ∨
    (∃ f, main mach w junk [conf, input] = ⟨[], .error (.fault f)⟩) ∨
    ((main mach w junk [conf, input]).res = .error (.exit 22) ∧ ∃ t,
      (main mach w junk [conf, input]).bytes = [101, 114, 114, 111, 114, 58, 32] ++ t ++ [10] ∧
      ((∃ h c t', App.init w conf ⟨0, []⟩ = .ok (none, h, some c) ∧ Told w (.sttInit conf : Api.Call Unit) t' ∧
          t = shown t') ∨
        ∃ a s h, App.init w conf ⟨0, []⟩ = .ok (some (a, s), h, none) ∧ AudioFails w input t)) := by
  rcases init_both w conf with ⟨f, e, e'⟩ | ⟨h, c, t, e', ht, buf, e, hb⟩ | ⟨a, s, h, e', _⟩
  · refine .inr (.inl ⟨f, ?_⟩)
    unfold main
    dsimp only
    rw [e, if_neg (by have := (wav_input hw).1; omega)]
    rfl
  · refine .inr (.inr ?_)
    have hm : main mach w junk [conf, input] =
        ⟨[.message ([101, 114, 114, 111, 114, 58, 32] ++ shown t ++ [10])], .error (.exit 22)⟩ := by
      unfold main
      dsimp only
      rw [bind_lift_ok e, if_neg (by have := (wav_input hw).1; omega)]
      show fatal (lastError buf) = _
      unfold fatal
      rw [hb, cstr_plain (s := shown t) (fun h => nul_takeWhile t (List.mem_of_mem_take h))]
    rw [hm]
    exact ⟨rfl, shown t, List.append_nil _, .inl ⟨h, c, t, e', ht, rfl⟩⟩
  · rw [main_wav mach e' hw]
    have ha := audio_cases w (mach.recogniser s) (junk 0) input noMessage_length
    generalize processAudio w (mach.recogniser s) (junk 0) input noMessage = p at ha ⊢
    generalize Main.processAudio w (mach.recogniser s) (junk 0) input = q at ha
    cases ha with
    | ok t => exact .inl ⟨t, rfl⟩
    | fault f => exact .inr (.inl ⟨f, rfl⟩)
    | fails t ht => exact .inr (.inr ⟨rfl, t, List.append_nil _, .inr ⟨a, s, h, e', ht h0⟩⟩)

theorem bytes_lines (rs : List (ScriptEntry × Str)) (o : List Out) (x : Except End Unit) :
    (⟨(rs.map fun p => Out.line (p.1.name ++ [32] ++ p.2)) ++ o, x⟩ : Prog Unit).bytes =
      (rs.map resultLine).flatten ++ (⟨o, x⟩ : Prog Unit).bytes := by
  unfold Prog.bytes
  rw [List.map_append, List.flatten_append, List.map_map]
  rfl

/-- **C91, scripts.**  If the program would fail on the file of some line, it writes the lines of the files before, and
then exactly what it would write for that file alone. -/
theorem C91_script (mach : Machine G F D) (w : App.World G) (conf scp : Str) (a : Nat)
    (s : App.Self G) (h : App.Heap) (c : Option Code) (hx : App.init w conf ⟨0, []⟩ = .ok (some (a, s), h, c))
    (hl : 4 ≤ scp.length) (hw : ¬ IsWav scp) (junk : Nat → Junk F) (rs : List (ScriptEntry × Str)) (e : ScriptEntry)
    (rest : Str) (hfile : w.file scp = some ((rs.map fun p => p.1.line ++ p.1.eol).flatten ++ (e.line ++ e.eol ++ rest)))
    (hrs : ∀ (i : Nat) e t, rs[i]? = some (e, t) → e.Ok ∧
      main mach w (fun _ => junk i) [conf, e.wav] = ⟨[.line t], .ok ()⟩)
    (he : e.Ok) (x : End) (hbad : (main mach w (fun _ => junk rs.length) [conf, e.wav]).res = .error x) :
    (main mach w junk [conf, scp]).res = .error x ∧
    (main mach w junk [conf, scp]).bytes =
      (rs.map resultLine).flatten ++ (main mach w (fun _ => junk rs.length) [conf, e.wav]).bytes := by
  obtain ⟨fuel, hf, hm⟩ := main_script mach hx hl hw junk rs _ hfile hrs
  obtain ⟨n, rfl⟩ : ∃ n, fuel = n + 1 := ⟨fuel - 1, by omega⟩
  rw [main_wav mach hx he.isWav] at hbad ⊢
  have : scpLoop w (mach.recogniser s) junk scp (n + 1) rs.length ⟨e.line ++ e.eol ++ rest, false⟩ noMessage =
      (processAudio w (mach.recogniser s) (junk rs.length) e.wav noMessage).bind fun x => Prog.say x.1 := by
    unfold scpLoop
    rw [readLine_good he.good]
    simp only
    rw [scpLine_entry w _ _ he]
    generalize processAudio w (mach.recogniser s) (junk rs.length) e.wav noMessage = p at hbad ⊢
    obtain ⟨o, y | y⟩ := p
    · rfl
    · cases hbad
  rw [hm, this, bytes_lines]
  exact ⟨hbad, rfl⟩

/-- **C91, the script itself.**  The script cannot be opened. -/
theorem C91_script_missing (mach : Machine G F D) (w : App.World G) (conf scp : Str) (a : Nat)
    (s : App.Self G) (h : App.Heap) (c : Option Code) (hx : App.init w conf ⟨0, []⟩ = .ok (some (a, s), h, c))
    (hl : 4 ≤ scp.length) (hw : ¬ IsWav scp) (h0 : 0 ∉ scp) (junk : Nat → Junk F) (hfile : w.file scp = none) :
    (main mach w junk [conf, scp]).res = .error (.exit 1) ∧
    (main mach w junk [conf, scp]).bytes = [112, 97, 115, 99, 111, 58, 32, 73, 79, 69, 114, 114, 111, 114, 58, 32, 85,
  110, 97, 98, 108, 101, 32, 116, 111, 32, 111, 112, 101, 110, 32] ++ scp ++ [10] := by
  rw [main_loaded mach hx hl]
  unfold processInput
  rw [if_neg (by
    intro hc
    apply hw
    refine ⟨scp.take (scp.length - 4), ?_⟩
    have := List.take_append_drop (scp.length - 4) scp
    rw [hc] at this
    exact this)]
  unfold processScp
  rw [hfile]
  simp only
  rw [format_open]
  refine ⟨rfl, ?_⟩
  unfold checkStatus
  dsimp only
  rw [cstr_plain (by
    rw [List.mem_append]
    rintro (h | h)
    · exact absurd h (by decide)
    · exact h0 h)]
  show _ ++ [] = _
  rw [List.append_nil]
  rfl

/-- **C91, other lines.**  A line that is not a name and a file is shown after the lines of the files before. -/
theorem C91_script_line (mach : Machine G F D) (w : App.World G) (conf scp : Str) (a : Nat)
    (s : App.Self G) (h : App.Heap) (c : Option Code) (hx : App.init w conf ⟨0, []⟩ = .ok (some (a, s), h, c))
    (hl : 4 ≤ scp.length) (hw : ¬ IsWav scp) (junk : Nat → Junk F) (rs : List (ScriptEntry × Str)) (l eol : Str)
    (rest : Str) (hfile : w.file scp = some ((rs.map fun p => p.1.line ++ p.1.eol).flatten ++ (l ++ eol ++ rest)))
    (hrs : ∀ (i : Nat) e t, rs[i]? = some (e, t) → e.Ok ∧
      main mach w (fun _ => junk i) [conf, e.wav] = ⟨[.line t], .ok ()⟩)
    (hg : GoodLine l eol) (hn : NotTwoParts l) :
    (main mach w junk [conf, scp]).res = .error (.exit 22) ∧
    (main mach w junk [conf, scp]).bytes =
      (rs.map resultLine).flatten ++ ([115, 99, 112, 58, 32, 117, 110, 101, 120, 112, 101, 99, 116, 101, 100, 32, 108,
  105, 110, 101, 58, 32] ++ l ++ [10]) := by
  obtain ⟨fuel, hf, hm⟩ := main_script mach hx hl hw junk rs _ hfile hrs
  obtain ⟨n, rfl⟩ : ∃ n, fuel = n + 1 := ⟨fuel - 1, by omega⟩
  have : scpLoop w (mach.recogniser s) junk scp (n + 1) rs.length ⟨l ++ eol ++ rest, false⟩ noMessage =
      ⟨[.message ([115, 99, 112, 58, 32, 117, 110, 101, 120, 112, 101, 99, 116, 101, 100, 32, 108, 105, 110, 101, 58,
  32] ++ l ++ [10])], .error (.exit 22)⟩ := by
    have hu : unexpectedLine l = [115, 99, 112, 58, 32, 117, 110, 101, 120, 112, 101, 99, 116, 101, 100, 32, 108, 105,
  110, 101, 58, 32] ++ l ++ [10] := by
      unfold unexpectedLine
      rw [cstr_plain hg.noNul]
    unfold scpLoop
    rw [readLine_good hg]
    simp only
    unfold scpLine
    obtain ⟨fs, hs, _⟩ := C35_split l [32] (by simp)
    obtain ⟨h1, h2⟩ := (C35_split_inverts_join 32 l fs).mp hs
    rw [bind_lift_ok hs, ← hu]
    match fs, h1, h2 with
    | [], _, _ => rfl
    | [_], _, _ => rfl
    | [x, y], h1, h2 =>
      exfalso
      have hxy := hn x y (h1 x (by simp)) (h1 y (by simp))
      rcases h2 with ⟨h2, h3⟩ | ⟨h2, _⟩
      · exact hxy.1 (by simpa using h3) (by simpa [join] using h2)
      · exact hxy.2 (by simpa [join] using h2)
    | _ :: _ :: _ :: _, _, _ => rfl
  rw [hm, this, bytes_lines]
  exact ⟨rfl, congrArg _ (List.append_nil _)⟩

/-- **C91, the end of a script.**  If the last line of the script does not end with a newline, the program writes all
results and then tells that the script has an end. -/
theorem C91_script_end (mach : Machine G F D) (w : App.World G) (conf scp : Str) (a : Nat)
    (s : App.Self G) (h : App.Heap) (c : Option Code) (hx : App.init w conf ⟨0, []⟩ = .ok (some (a, s), h, c))
    (hl : 4 ≤ scp.length) (hw : ¬ IsWav scp) (h0 : 0 ∉ scp) (junk : Nat → Junk F) (rs : List (ScriptEntry × Str))
    (e : ScriptEntry) (t : Str) (hfile : w.file scp = some ((rs.map fun p => p.1.line ++ p.1.eol).flatten ++ e.line))
    (hrs : ∀ (i : Nat) e' t', (rs ++ [(e, t)])[i]? = some (e', t') → e'.Ok ∧
      main mach w (fun _ => junk i) [conf, e'.wav] = ⟨[.line t'], .ok ()⟩) :
    (main mach w junk [conf, scp]).res = .error (.exit 1) ∧
    (main mach w junk [conf, scp]).bytes =
      ((rs ++ [(e, t)]).map resultLine).flatten ++ ([112, 97, 115, 99, 111, 58, 32, 73, 79, 69, 114, 114, 111, 114,
  58, 32, 69, 79, 70, 32, 97, 108, 114, 101, 97, 100, 121, 32, 114, 101, 97, 99, 104, 101, 100, 58,
  32] ++ scp ++ [10]) := by
  obtain ⟨fuel, hf, hm⟩ := main_script mach hx hl hw junk rs e.line hfile (by
    intro i e' t' hi
    apply hrs
    rw [List.getElem?_append_left (List.getElem?_eq_some_iff.mp hi).1]
    exact hi)
  obtain ⟨he, ha⟩ := hrs rs.length e t (by simp)
  rw [main_wav mach hx he.isWav] at ha
  obtain ⟨n, rfl⟩ : ∃ n, fuel = n + 2 := ⟨fuel - 2, by omega⟩
  have hr : readLine ⟨e.line, false⟩ = (.line e.line, ⟨[], true⟩) := by
    have hs := he.good.short
    have h1 : e.eol ≠ [] := by rcases he.good.eol with h | h <;> rw [h] <;> simp
    have h2 : 0 < e.eol.length := List.length_pos_iff.mpr h1
    have h3 : e.line ≠ [] := by unfold ScriptEntry.line; simp
    unfold readLine
    simp only [fgets_end 4095 e.line he.good.noLf (by omega)]
    rw [if_neg (by simp), if_neg h3, cstr_id he.good.noNul, stripEnd_id he.good.noLf he.good.noCr]
  have heof : label .io ++ format tEof [scp] = [73, 79, 69, 114, 114, 111, 114, 58, 32, 69, 79, 70, 32, 97, 108, 114,
  101, 97, 100, 121, 32, 114, 101, 97, 99, 104, 101, 100, 58, 32] ++ scp := by
    have := format_first [69, 79, 70, 32, 97, 108, 114, 101, 97, 100, 121, 32, 114, 101, 97, 99, 104, 101, 100, 58,
  32] [] scp [] (by decide)
    rw [show tEof = [69, 79, 70, 32, 97, 108, 114, 101, 97, 100, 121, 32, 114, 101, 97, 99, 104, 101, 100, 58,
  32] ++ 123 :: 125 :: [] from rfl, this]
    simp [format, label]
  have : scpLoop w (mach.recogniser s) junk scp (n + 2) rs.length ⟨e.line, false⟩ noMessage =
      ⟨[.line (e.name ++ [32] ++ t), .message ([112, 97, 115, 99, 111, 58, 32, 73, 79, 69, 114, 114, 111, 114, 58, 32,
  69, 79, 70, 32, 97, 108, 114, 101, 97, 100, 121, 32, 114, 101, 97, 99, 104, 101, 100, 58, 32] ++ scp ++ [10])],
        .error (.exit 1)⟩ := by
    unfold scpLoop
    rw [hr]
    simp only
    rw [scpLine_entry w _ _ he]
    have hc := audio_cases w (mach.recogniser s) (junk rs.length) e.wav noMessage_length
    generalize processAudio w (mach.recogniser s) (junk rs.length) e.wav noMessage = p at hc ha ⊢
    generalize Main.processAudio w (mach.recogniser s) (junk rs.length) e.wav = q at hc
    cases hc with
    | fault f =>
      injection ha with _ ha
      cases ha
    | fails t' _ =>
      injection ha with _ ha
      cases ha
    | ok t' =>
      have ha : (⟨[Out.line t'], .ok ()⟩ : Prog Unit) = ⟨[.line t], .ok ()⟩ := ha
      injection ha with ha _
      injection ha with ha _
      injection ha with ha
      subst ha
      show (⟨[Out.line (e.name ++ [32] ++ t')] ++ (checkStatus (some (label .io ++ format tEof [scp]))).out,
        .error (.exit 1)⟩ : Prog Unit) = _
      rw [heof]
      unfold checkStatus
      dsimp only
      rw [cstr_plain (by
        rw [List.mem_append]
        rintro (h | h)
        · exact absurd h (by decide)
        · exact h0 h)]
      rfl
  rw [hm, this, bytes_lines]
  refine ⟨rfl, ?_⟩
  simp only [List.map_append, List.flatten_append, Prog.bytes, Out.bytes, List.map_cons, List.map_nil,
  List.flatten_cons,
    List.flatten_nil, List.append_nil, List.append_assoc, resultLine]

/-- **C91, audio files are not named.**  Two files with the same bytes and different names: what is written is the same
for both.  So a file that is refused is not named, and the full property is false of the code. -/
theorem C91_audio_not_named (mach : Machine G F D) (w : App.World G) (junk : Nat → Junk F) (conf f g : Str)
    (hf : IsWav f) (hg : IsWav g) (file : List UInt8) (h1 : w.file f = some file) (h2 : w.file g = some file) :
    main mach w junk [conf, f] = main mach w junk [conf, g] := by
  rcases init_both w conf with ⟨x, e, e'⟩ | ⟨h, c, t, e', ht, buf, e, hb⟩ | ⟨a, s, h, e', _⟩
  · unfold main
    dsimp only
    rw [e, if_neg (by have := (wav_input hf).1; omega), if_neg (by have := (wav_input hg).1; omega)]
    rfl
  · unfold main
    dsimp only
    rw [bind_lift_ok e, bind_lift_ok e, if_neg (by have := (wav_input hf).1; omega),
      if_neg (by have := (wav_input hg).1; omega)]
  · rw [main_wav mach e' hf, main_wav mach e' hg]
    unfold processAudio
    rw [h1, h2]

/-! ## Examples

The small model directory of C68: there is no `b.wav`, the files `o.wav` and `p.wav` end within the header, `q.wav` has
two channels; `b.scp` lists `a.wav`, `o.wav` and `e.wav`, and `m.scp` has a second line `y`. -/

/-- A run that writes a line and nothing else. -/
theorem of_plain {p : Prog Unit} {t : Str} (h : p.plain = ⟨[.line t], .ok ()⟩) : p = ⟨[.line t], .ok ()⟩ := by
  obtain ⟨o, x⟩ := p
  injection h with h1 h2
  match o, h1 with
  | [.line s], h1 =>
    injection h1 with h1 _
    injection h1 with h1
    rw [h1]
    exact congrArg _ h2

theorem Ex.hi (junk : Nat → Junk Int) :
    main Main.Ex.mach Main.Ex.world junk [[100, 47, 99], [97, 46, 119, 97, 118]] = ⟨[.line [104, 105]], .ok ()⟩ :=
  of_plain ((C91_same _ _ _ _).trans (Main.Ex.run_hi (isWav_of [97] rfl) rfl junk))

theorem Ex.empty (junk : Nat → Junk Int) :
    main Main.Ex.mach Main.Ex.world junk [[100, 47, 99], [101, 46, 119, 97, 118]] = ⟨[.line []], .ok ()⟩ :=
  of_plain ((C91_same _ _ _ _).trans (Main.Ex.run_empty (isWav_of [101] rfl) rfl junk))

set_option maxRecDepth 20000 in
/-- Files that are refused. -/
theorem Ex.refused (junk : Nat → Junk Int) :
    main Main.Ex.mach Main.Ex.world junk [[100, 47, 99], [98, 46, 119, 97, 118]] =
      ⟨[.message ([101, 114, 114, 111, 114, 58, 32, 117, 110, 97, 98, 108, 101, 32, 116, 111, 32, 111, 112, 101, 110,
  58, 32, 98, 46, 119, 97, 118] ++ [10])], .error (.exit 22)⟩ ∧
    main Main.Ex.mach Main.Ex.world junk [[100, 47, 99], [111, 46, 119, 97, 118]] =
      ⟨[.message ([101, 114, 114, 111, 114, 58, 32, 73, 79, 69, 114, 114, 111, 114, 58, 32, 102, 97, 105, 108, 101,
  100, 32, 116, 111, 32, 114, 101, 97, 100, 58, 32] ++ [10])], .error (.exit 22)⟩ := by
  obtain ⟨h, c, hx⟩ := Main.Ex.loaded
  refine ⟨?_, ?_⟩
  · rw [main_wav Main.Ex.mach (input := [98, 46, 119, 97, 118]) hx (isWav_of [98] rfl)]
    rfl
  · rw [main_wav Main.Ex.mach (input := [111, 46, 119, 97, 118]) hx (isWav_of [111] rfl)]
    rfl

/-- A file with two channels. -/
example : (main Main.Ex.mach Main.Ex.world Main.Ex.junk [[100, 47, 99], [113, 46, 119, 97, 118]]).bytes =
    [101, 114, 114, 111, 114, 58, 32, 67, 111, 114, 114, 117, 112, 116, 105, 111, 110, 58, 32, 110, 117, 109, 95, 99,
  104, 97, 110, 110, 101, 108, 115, 32, 61, 32, 50, 32, 110, 111, 116, 32, 115, 117, 112, 112, 111, 114, 116, 101,
  100] ++ [10] := by
  obtain ⟨h, c, hx⟩ := Main.Ex.loaded
  rw [main_wav Main.Ex.mach (input := [113, 46, 119, 97, 118]) hx (isWav_of [113] rfl), Main.Ex.recogniser_self]
  decide +kernel

example : 0 ∉ ([111, 46, 119, 97, 118] : Str) ∧ IsWav [111, 46, 119, 97, 118] ∧ AudioFails Main.Ex.world [111, 46,
  119, 97, 118] [73, 79, 69, 114, 114, 111, 114, 58, 32, 102, 97, 105, 108, 101, 100, 32, 116, 111, 32, 114, 101, 97,
  100, 58, 32] ∧
    ∀ junk, (main Main.Ex.mach Main.Ex.world junk [[100, 47, 99], [111, 46, 119, 97, 118]]).bytes =
      [101, 114, 114, 111, 114, 58, 32] ++ [73, 79, 69, 114, 114, 111, 114, 58, 32, 102, 97, 105, 108, 101, 100, 32,
  116, 111, 32, 114, 101, 97, 100, 58, 32] ++ [10] :=
  ⟨by decide, isWav_of [111] rfl, .header rfl (.short (by decide)), fun junk => by rw [(Ex.refused junk).2]; rfl⟩

/-- `b.scp`: one result, and the message about the second file, which does not tell the file. -/
example : (main Main.Ex.mach Main.Ex.world Main.Ex.junk [[100, 47, 99], [98, 46, 115, 99,
  112]]).res = .error (.exit 22) ∧
    (main Main.Ex.mach Main.Ex.world Main.Ex.junk [[100, 47, 99], [98, 46, 115, 99, 112]]).bytes =
      [120, 32, 104, 105] ++ [10] ++ [101, 114, 114, 111, 114, 58, 32, 73, 79, 69, 114, 114, 111, 114, 58, 32, 102,
  97, 105, 108, 101, 100, 32, 116, 111, 32, 114, 101, 97, 100, 58, 32] ++ [10] := by
  obtain ⟨h, c, hx⟩ := Main.Ex.loaded
  have := C91_script Main.Ex.mach Main.Ex.world [100, 47, 99] [98, 46, 115, 99, 112] 0 Main.Ex.self h c hx (by decide)
    (by unfold IsWav; decide) Main.Ex.junk [(⟨[120], [97, 46, 119, 97, 118], [10]⟩, [104, 105])] ⟨[121], [111, 46,
  119, 97, 118], [10]⟩ ([122, 32, 101, 46, 119, 97, 118] ++ [10]) rfl
    (by
      intro i e t hi
      match i, hi with
      | 0, hi =>
        injection hi with hi; injection hi with h1 h2; subst h1 h2
        exact ⟨⟨by decide, by decide, isWav_of [97] rfl, by decide, by decide, by decide, .inl rfl, by decide⟩, Ex.hi _⟩
      | n + 1, hi => cases hi)
    ⟨by decide, by decide, isWav_of [111] rfl, by decide, by decide, by decide, .inl rfl, by decide⟩ (.exit 22)
    (by rw [(Ex.refused _).2])
  rw [(Ex.refused _).2] at this
  exact this

/-- `m.scp`: one result, and a line that is no entry. -/
example : (main Main.Ex.mach Main.Ex.world Main.Ex.junk [[100, 47, 99], [109, 46, 115, 99, 112]]).bytes =
      [120, 32, 104, 105] ++ [10] ++ [115, 99, 112, 58, 32, 117, 110, 101, 120, 112, 101, 99, 116, 101, 100, 32, 108,
  105, 110, 101, 58, 32, 121] ++ [10] := by
  obtain ⟨h, c, hx⟩ := Main.Ex.loaded
  exact (C91_script_line Main.Ex.mach Main.Ex.world [100, 47, 99] [109, 46, 115, 99,
  112] 0 Main.Ex.self h c hx (by decide)
    (by unfold IsWav; decide) Main.Ex.junk [(⟨[120], [97, 46, 119, 97, 118], [10]⟩, [104, 105])] [121] [10] [] rfl
    (by
      intro i e t hi
      match i, hi with
      | 0, hi =>
        injection hi with hi; injection hi with h1 h2; subst h1 h2
        exact ⟨⟨by decide, by decide, isWav_of [97] rfl, by decide, by decide, by decide, .inl rfl, by decide⟩, Ex.hi _⟩
      | n + 1, hi => cases hi)
    ⟨by decide, by decide, by decide, .inl rfl, by decide⟩
    (by
      intro a b _ _
      constructor
      · intro _ h
        have := congrArg List.length h
        simp only [List.length_append, List.length_cons, List.length_nil] at this
        have ha : a = [] := List.length_eq_zero_iff.1 (by omega)
        have hb : b = [] := List.length_eq_zero_iff.1 (by omega)
        subst ha hb
        exact absurd h (by decide)
      · intro h
        have := congrArg List.length h
        simp only [List.length_append, List.length_cons, List.length_nil] at this
        omega)).2

/-- `n.scp`, which lacks its last newline; and a script that is not there. -/
example : (main Main.Ex.mach Main.Ex.world Main.Ex.junk [[100, 47, 99], [110, 46, 115, 99, 112]]).bytes =
      [120, 32, 104, 105] ++ [10] ++ [112, 97, 115, 99, 111, 58, 32, 73, 79, 69, 114, 114, 111, 114, 58, 32, 69, 79,
  70, 32, 97, 108, 114, 101, 97, 100, 121, 32, 114, 101, 97, 99, 104, 101, 100, 58, 32, 110, 46, 115, 99, 112] ++ [10] ∧
    (main Main.Ex.mach Main.Ex.world Main.Ex.junk [[100, 47, 99], [110, 111, 110, 101, 46, 115, 99, 112]]).bytes =
      [112, 97, 115, 99, 111, 58, 32, 73, 79, 69, 114, 114, 111, 114, 58, 32, 85, 110, 97, 98, 108, 101, 32, 116, 111,
  32, 111, 112, 101, 110, 32, 110, 111, 110, 101, 46, 115, 99, 112] ++ [10] := by
  obtain ⟨h, c, hx⟩ := Main.Ex.loaded
  refine ⟨(C91_script_end Main.Ex.mach Main.Ex.world [100, 47, 99] [110, 46, 115, 99,
  112] 0 Main.Ex.self h c hx (by decide)
    (by unfold IsWav; decide) (by decide) Main.Ex.junk [] ⟨[120], [97, 46, 119, 97, 118], [10]⟩ [104, 105] rfl ?_).2,
    (C91_script_missing Main.Ex.mach Main.Ex.world [100, 47, 99] [110, 111, 110, 101, 46, 115, 99,
  112] 0 Main.Ex.self h c hx (by decide)
      (by unfold IsWav; decide) (by decide) Main.Ex.junk rfl).2⟩
  intro i e t hi
  match i, hi with
  | 0, hi =>
    injection hi with hi; injection hi with h1 h2; subst h1 h2
    exact ⟨⟨by decide, by decide, isWav_of [97] rfl, by decide, by decide, by decide, .inl rfl, by decide⟩, Ex.hi _⟩
  | n + 1, hi => cases hi

/-- Two files with the same bytes, which are refused. -/
example : IsWav [111, 46, 119, 97, 118] ∧ IsWav [112, 46, 119, 97, 118] ∧ Main.Ex.world.file [111, 46, 119, 97,
  118] = some [82, 73, 70, 70] ∧
    Main.Ex.world.file [112, 46, 119, 97, 118] = some [82, 73, 70, 70] := ⟨isWav_of [111] rfl, isWav_of [112] rfl,
  rfl, rfl⟩

end Verif.Tell
