import Verif.MainLemmas
import Verif.MainExample

/-!
# C68, C69, C70: the program
-/

namespace Verif.Main

open Verif Verif.Text Verif.App.Spec Verif.Main.Spec

variable {G F D : Type}

theorem wav_input {input : Str} (hw : IsWav input) : 4 ≤ input.length ∧ input.drop (input.length - 4) = wavSuffix := by
  obtain ⟨p, rfl⟩ := hw
  rw [List.length_append]
  refine ⟨by simp, ?_⟩
  rw [show p.length + ([46, 119, 97, 118] : Str).length - 4 = p.length from by simp, List.drop_left]
  rfl

/-- The program with a recogniser and an audio file. -/
theorem main_wav (mach : Machine G F D) {w : App.World G} {conf input : Str} {junk : Nat → Junk F} {a : Nat}
    {s : App.Self G} {h : App.Heap} {c : Option Code} (hx : App.init w conf ⟨0, []⟩ = .ok (some (a, s), h, c))
    (hw : IsWav input) :
    main mach w junk [conf, input] = (processAudio w (mach.recogniser s) (junk 0) input).bind Prog.say := by
  rw [main_loaded mach hx (wav_input hw).1]
  unfold processInput
  rw [if_pos (wav_input hw).2]

theorem say_iff {p : Prog Str} {out : List Out} : p.bind Prog.say = ⟨out, .ok ()⟩ ↔
    ∃ o t, p = ⟨o, .ok t⟩ ∧ out = o ++ [.line t] := by
  obtain ⟨o, x⟩ := p
  cases x with
  | error e =>
    constructor
    · intro h; injection h with _ h; cases h
    · rintro ⟨o', t, h, _⟩; injection h with _ h; cases h
  | ok t =>
    constructor
    · intro h
      injection h with h1 h2
      exact ⟨o, t, rfl, h1.symm⟩
    · rintro ⟨o', t', h, rfl⟩
      injection h with h1 h2
      injection h2 with h2
      subst h1 h2
      rfl

/-- One audio file. -/
theorem processAudio_iff {w : App.World G} {r : Stt.Rec F D} {vm : List F → List (List F) → List F} {e L R c wd : Nat}
    (S : Stt.Sound r vm e L R c wd) {input : Str} {file data : List UInt8} {b : Nat} (hfile : w.file input = some file)
    (ha : IsAudio file b data) (junk : Junk F) (fill : Nat → UInt8)
    (ds : List (Stt.Mem F × List UInt8)) (hds : ∀ p ∈ ds, p.2 ≠ [] ∧ p.2.length < 536870500)
    (hbytes : (ds.map Prod.snd).flatten = data) (o : List Out) (t : Str) :
    processAudio w (some r) junk input = ⟨o, .ok t⟩ ↔ o = [] ∧
      ∃ u msg, Stt.recognise r ⟨1, 16000, 8 * b⟩ fill ds = .ok (.ready r u, msg) ∧ fromC u.back.hyp = .ok t := by
  unfold processAudio
  rw [hfile]
  simp only
  rw [header_of_audio ha]
  exact processData_iff S junk ⟨1, 16000, 8 * b⟩ data fill ds hds hbytes o t

/-- Some cut of the data: pieces of one byte. -/
theorem cut_exists (mem : Stt.Mem F) (data : List UInt8) : ∃ ds : List (Stt.Mem F × List UInt8),
    (∀ p ∈ ds, p.2 ≠ [] ∧ p.2.length < 536870500) ∧ (ds.map Prod.snd).flatten = data := by
  refine ⟨data.map fun x => (mem, [x]), ?_, ?_⟩
  · intro p hp
    obtain ⟨x, _, rfl⟩ := List.mem_map.mp hp
    exact ⟨by simp, by simp⟩
  · rw [List.map_map]
    show (data.map fun x => [x]).flatten = data
    induction data with
    | nil => rfl
    | cons x data ih => rw [List.map_cons, List.flatten_cons, ih]; rfl

/-! ## C68: from a model directory and an audio file to a line of text -/

/-- **C68.**  A configuration names the files of a model; the second argument names an audio file of one channel, 16 kHz
and 8, 16 or 32 bits.  If the program runs to its end it has written one line, and nothing else: the words that
recognition of the whole signal yields, as the symbol file spells them, with single blanks between them.  The recogniser
is the one of the model: every number in it is the number of the file.  Neither the size of the pieces in which the file
is read nor the content of uninitialised memory matters. -/
theorem C68_program (mach : Machine G F D) (w : App.World G) (conf bytes : Str) (defs : List (Str × Str))
    (m : App.Spec.Model G) (hf : w.file conf = some bytes) (hc : IsConf bytes defs) (hi : Installed w conf defs m)
    (ho : m.Ok w) (vm : List F → List (List F) → List F) (e wd : Nat) (hfit : Fits mach m vm e wd)
    (input : Str) (hw : IsWav input) (file data : List UInt8) (b : Nat) (hfile : w.file input = some file)
    (ha : IsAudio file b data) :
    ∃ r, IsRec mach w m r ∧ ∀ (junk : Nat → Junk F) (out : List Out), main mach w junk [conf, input] = ⟨out, .ok ()⟩ →
      ∃ ids ws, Hears r vm b data ids ∧ ws.length = ids.length ∧
        (∀ (i : Nat) id word, ids.reverse[i]? = some id → ws[i]? = some word → Spells m.symbols id word) ∧
        out = [.line (join [32] ws)] := by
  obtain ⟨s, h', hx, hh⟩ := App.C65_load w conf bytes defs m ⟨0, []⟩ hf hc hi ho
  obtain ⟨r, hr, hir⟩ := recogniser_holds mach hh ho
  have S := sound_of_fits hir hfit
  refine ⟨r, hir, fun junk out hm => ?_⟩
  rw [main_wav mach hx hw, hr] at hm
  obtain ⟨o, t, hp, rfl⟩ := say_iff.mp hm
  obtain ⟨ds, d1, d2⟩ := cut_exists ((junk 0).piece 0) data
  obtain ⟨rfl, u, msg, hu, ht⟩ :=
    (processAudio_iff S hfile ha (junk 0) (fun _ => 0) ds d1 d2 o t).mp hp
  obtain ⟨feats, rows, d0, d, u', words, weight, g1, g2, g3, g4, g5, g6, g7, g8, g9, g10⟩ :=
    Stt.C29_end_to_end_partial S ⟨1, 16000, 8 * b⟩ b rfl (fun _ => 0) ds d1 _ _ hu
  rw [d2] at g1 g2
  obtain ⟨ws, w1, w2, w3⟩ := storeHypText_ok g10
  cases g6
  rw [w2] at ht
  have ht := fromC_ok ht w3
  subst ht
  refine ⟨words, ws, ⟨feats, rows, d0, d, weight, g1, g2, g3, g4, g5, g9⟩, ?_, ?_, rfl⟩
  · have := congrArg List.length w1
    simpa using this.symm
  · intro i id word hid hword
    have := congrArg (·[i]?) w1
    simp only [List.getElem?_map, hid, hword, Option.map_some, Option.some.injEq] at this
    exact (hir.words id word).mp this

/-- **C68, when it runs to its end.**  Whenever recognition of the data through the interface has no fault, in any pieces,
the program runs to its end; and the other way round. -/
theorem C68_completes (mach : Machine G F D) (w : App.World G) (conf bytes : Str) (defs : List (Str × Str))
    (m : App.Spec.Model G) (hf : w.file conf = some bytes) (hc : IsConf bytes defs) (hi : Installed w conf defs m)
    (ho : m.Ok w) (vm : List F → List (List F) → List F) (e wd : Nat) (hfit : Fits mach m vm e wd)
    (input : Str) (hw : IsWav input) (file data : List UInt8) (b : Nat) (hfile : w.file input = some file)
    (ha : IsAudio file b data) :
    ∃ r, IsRec mach w m r ∧ ∀ (junk : Nat → Junk F) (fill : Nat → UInt8) (ds : List (Stt.Mem F × List UInt8))
      (t : Str), (∀ p ∈ ds, p.2 ≠ [] ∧ p.2.length < 536870500) → (ds.map Prod.snd).flatten = data → 0 ∉ t →
      (main mach w junk [conf, input] = ⟨[.line t], .ok ()⟩ ↔
        ∃ u, Stt.recognise r ⟨1, 16000, 8 * b⟩ fill ds = .ok (.ready r u, .none) ∧ u.back.hyp = t ++ [0]) := by
  obtain ⟨s, h', hx, hh⟩ := App.C65_load w conf bytes defs m ⟨0, []⟩ hf hc hi ho
  obtain ⟨r, hr, hir⟩ := recogniser_holds mach hh ho
  have S := sound_of_fits hir hfit
  refine ⟨r, hir, fun junk fill ds t d1 d2 h0 => ?_⟩
  rw [main_wav mach hx hw, hr, say_iff]
  have key := processAudio_iff S hfile ha (junk 0) fill ds d1 d2
  constructor
  · rintro ⟨o, t', hp, hot⟩
    obtain ⟨rfl, u, msg, hu, ht⟩ := (key o t').mp hp
    have : t = t' := by
      rw [List.nil_append] at hot
      injection hot with hot
      injection hot
    subst this
    obtain ⟨feats, rows, d0, d, u', words, weight, g1, g2, g3, g4, g5, g6, g7, g8, g9, g10⟩ :=
      Stt.C29_end_to_end_partial S ⟨1, 16000, 8 * b⟩ b rfl fill ds d1 _ _ hu
    obtain ⟨ws, w1, w2, w3⟩ := storeHypText_ok g10
    cases g6
    cases g7
    refine ⟨u, hu, ?_⟩
    rw [w2] at ht ⊢
    rw [fromC_ok ht w3]
  · rintro ⟨u, hu, ht⟩
    refine ⟨[], t, (key [] t).mpr ⟨rfl, u, .none, hu, ?_⟩, rfl⟩
    rw [ht]
    exact fromC_hyp h0

/-- **C68, nothing but audio.**  Whatever the files hold: if the program with a `.wav` argument runs to its end, then
that file is there and is an audio file of one channel, 16 kHz and 8, 16 or 32 bits, and one line was written. -/
theorem C68_only_audio (mach : Machine G F D) (w : App.World G) (conf input : Str) (junk : Nat → Junk F)
    (out : List Out) (hw : IsWav input) (hm : main mach w junk [conf, input] = ⟨out, .ok ()⟩) :
    ∃ file b data t, w.file input = some file ∧ IsAudio file b data ∧ out = [.line t] := by
  cases hx : App.init w conf ⟨0, []⟩ with
  | error f =>
    unfold main at hm
    simp only at hm
    rw [if_neg (by have := (wav_input hw).1; omega), hx] at hm
    injection hm with _ hm; cases hm
  | ok p =>
    obtain ⟨q, h, c⟩ := p
    cases q with
    | none =>
      unfold main at hm
      simp only at hm
      rw [if_neg (by have := (wav_input hw).1; omega), hx] at hm
      injection hm with _ hm; cases hm
    | some as =>
      obtain ⟨a, s⟩ := as
      rw [main_wav mach hx hw] at hm
      obtain ⟨o, t, hp, rfl⟩ := say_iff.mp hm
      unfold processAudio at hp
      cases hfile : w.file input with
      | none => rw [hfile] at hp; injection hp with _ hp; cases hp
      | some file =>
        rw [hfile] at hp
        simp only at hp
        cases hd : Pcm.readPcmHeader file with
        | error x =>
          rw [hd] at hp
          cases x <;> (injection hp with _ hp; cases hp)
        | ok x =>
          obtain ⟨fmt, data⟩ := x
          rw [hd] at hp
          simp only at hp
          unfold processData at hp
          cases hi : Stt.initApi (mach.recogniser s) fmt .none with
          | error f => rw [hi] at hp; injection hp with _ hp; cases hp
          | ok hmsg =>
            obtain ⟨hd', msg⟩ := hmsg
            rw [hi, lift_ok, bind_ok_nil] at hp
            cases hr : mach.recogniser s with
            | none => rw [hr] at hi; cases hi
            | some r =>
              rw [hr] at hi
              unfold Stt.initApi at hi
              obtain ⟨d, _, hi⟩ := bind_ok hi
              cases hs : Pcm.Reader.new.setFormat fmt with
              | error x =>
                rw [hs] at hi
                cases x with
                | fault f => cases hi
                | status code => cases hi; injection hp with _ hp; cases hp
              | ok reader =>
                rw [hs] at hi
                cases hi
                simp only at hp
                obtain ⟨rfl, _⟩ := lift_eq_ok.mp hp
                obtain ⟨ch, rate, bits⟩ := fmt
                obtain ⟨h1, h2, h3⟩ := (Pcm.C25_supported_formats Pcm.Reader.new ⟨ch, rate, bits⟩).mp ⟨reader, hs⟩
                simp only at h1 h2 h3
                subst h1 h2
                obtain ⟨hdr, he, hh⟩ := (Pcm.C26_mono_partial file data 16000 bits (by omega) (by omega)
                  (by unfold InI32; omega)).mp hd
                refine ⟨file, (bits / 8).toNat, data, t, rfl, ⟨by omega, hdr, he, ?_⟩, rfl⟩
                rw [show (8 : Int) * ((bits / 8).toNat : Int) = bits by omega]
                exact hh

/-- **C68, errors at the start.**  Without exactly two arguments, or with an input name of fewer than four bytes, the
program describes its usage and exits with 1; if the model cannot be loaded it writes a message and exits with 22. -/
theorem C68_startup_errors (mach : Machine G F D) (w : App.World G) (junk : Nat → Junk F) :
    (∀ args : List Str, args.length ≠ 2 → main mach w junk args = ⟨[.usage], .error (.exit 1)⟩) ∧
    (∀ conf input : Str, input.length < 4 → main mach w junk [conf, input] = ⟨[.usage], .error (.exit 1)⟩) ∧
    (∀ (conf input : Str) (h : App.Heap) (c : Option Code), 4 ≤ input.length →
      App.init w conf ⟨0, []⟩ = .ok (none, h, c) → main mach w junk [conf, input] = ⟨[.message], .error (.exit 22)⟩) := by
  refine ⟨?_, ?_, ?_⟩
  · intro args ha
    match args with
    | [] => rfl
    | [_] => rfl
    | [_, _] => exact absurd rfl ha
    | _ :: _ :: _ :: _ => rfl
  · intro conf input hl
    unfold main
    simp only
    rw [if_pos hl]
    rfl
  · intro conf input h c hl hx
    unfold main
    simp only
    rw [if_neg (by omega), hx]
    rfl

theorem isWav_of {n : Str} (p : Str) (h : n = p ++ [46, 119, 97, 118]) : IsWav n := ⟨p, h.symm⟩

/-- One run on the small model directory. -/
theorem Ex.run {input : Str} (hw : IsWav input) {b0 b1 : UInt8} {data : List UInt8}
    (hfile : Ex.world.file input = some (Ex.header b0 b1 ++ data)) (ds : List (Stt.Mem Int × List UInt8))
    (hds : ∀ p ∈ ds, p.2 ≠ [] ∧ p.2.length < 536870500) (hbytes : (ds.map Prod.snd).flatten = data) {t : Str} (h0 : 0 ∉ t)
    (hu : ∃ u, Stt.recognise Ex.rec Stt.toyFormat (fun _ => 1) ds = .ok (.ready Ex.rec u, .none) ∧ u.back.hyp = t ++ [0])
    (junk : Nat → Junk Int) :
    main Ex.mach Ex.world junk [[100, 47, 99], input] = ⟨[.line t], .ok ()⟩ := by
  obtain ⟨h, c, hx⟩ := Ex.loaded
  rw [main_wav Ex.mach hx hw, Ex.recogniser_self, say_iff]
  obtain ⟨u, hu, ht⟩ := hu
  exact ⟨[], t, (processAudio_iff Ex.rec_sound hfile (Ex.header_ok b0 b1 data) (junk 0) (fun _ => 1) ds hds hbytes [] t).mpr
    ⟨rfl, u, .none, hu, by rw [ht]; exact fromC_hyp h0⟩, rfl⟩

theorem Ex.run_hi {input : Str} (hw : IsWav input) {b0 b1 : UInt8}
    (hfile : Ex.world.file input = some (Ex.header b0 b1 ++ List.replicate 560 3)) (junk : Nat → Junk Int) :
    main Ex.mach Ex.world junk [[100, 47, 99], input] = ⟨[.line [104, 105]], .ok ()⟩ :=
  Ex.run hw hfile [(Stt.toyMem 1 1, List.replicate 560 3)] (by decide +kernel) (by decide +kernel) (by decide)
    (Ex.hears_hi _ (by decide +kernel) (by decide +kernel)) junk

theorem Ex.run_empty {input : Str} (hw : IsWav input) {b0 b1 : UInt8}
    (hfile : Ex.world.file input = some (Ex.header b0 b1)) (junk : Nat → Junk Int) :
    main Ex.mach Ex.world junk [[100, 47, 99], input] = ⟨[.line []], .ok ()⟩ :=
  Ex.run hw (b0 := b0) (b1 := b1) (data := []) (by rw [List.append_nil]; exact hfile) [] (by simp) rfl (by decide)
    Ex.hears_nothing junk

/-- The hypotheses of the theorems hold for the small model directory and `a.wav`, … -/
example : Ex.world.file [100, 47, 99] = some (App.Ex.confOf Ex.defs) ∧ IsConf (App.Ex.confOf Ex.defs) Ex.defs ∧
    Installed Ex.world [100, 47, 99] Ex.defs Ex.model ∧ Ex.model.Ok Ex.world ∧
    Fits Ex.mach Ex.model Nnet.toyVecMat 80 80 ∧ IsWav [97, 46, 119, 97, 118] ∧
    Ex.world.file [97, 46, 119, 97, 118] = some (Ex.header 48 2 ++ List.replicate 560 3) ∧
    IsAudio (Ex.header 48 2 ++ List.replicate 560 3) 1 (List.replicate 560 3) :=
  ⟨Ex.conf_file, Ex.conf_ok, Ex.installed, Ex.model_ok, Ex.fits, isWav_of [97] rfl, rfl, Ex.header_ok _ _ _⟩

/-- … and the program writes the line "hi". -/
example : main Ex.mach Ex.world Ex.junk [[100, 47, 99], [97, 46, 119, 97, 118]] = ⟨[.line [104, 105]], .ok ()⟩ :=
  Ex.run_hi (isWav_of [97] rfl) rfl Ex.junk

/-- The data in two pieces is recognised, as `C68_completes` asks. -/
example : ∃ u, Stt.recognise Ex.rec Stt.toyFormat (fun _ => 1)
      [(Stt.toyMem 1 1, List.replicate 60 3), (Stt.toyMem 2 2, List.replicate 500 3)] = .ok (.ready Ex.rec u, .none) ∧
    u.back.hyp = [104, 105, 0] :=
  Ex.hears_hi _ (by decide +kernel) (by decide +kernel)

/-- A world in which the model cannot be loaded. -/
example : ∃ h c, App.init ({ Ex.world with file := fun _ => none } : App.World Unit) [100, 47, 99] ⟨0, []⟩ =
    .ok (none, h, c) := ⟨_, _, rfl⟩

/-! ## C69: scripts -/

theorem split_two {a b : Str} (ha : 32 ∉ a) (hb : 32 ∉ b) (hne : b ≠ []) : split (a ++ [32] ++ b) [32] = .ok [a, b] := by
  refine (C35_split_inverts_join 32 _ _).mpr ⟨?_, .inl ⟨?_, ?_⟩⟩
  · intro f hf
    rcases List.mem_cons.mp hf with rfl | hf
    · exact ha
    · rw [List.mem_singleton] at hf; subst hf; exact hb
  · simp [join]
  · simpa using hne

theorem wav_ne {wav : Str} (h : IsWav wav) : wav ≠ [] := by
  rintro rfl
  have := (wav_input h).1
  simp at this

theorem scpLine_entry (w : App.World G) (rec : Option (Stt.Rec F D)) (junk : Junk F) {e : ScriptEntry} (he : e.Ok) :
    scpLine w rec junk e.line = (processAudio w rec junk e.wav).bind fun hyp => Prog.say (e.name ++ [32] ++ hyp) := by
  unfold scpLine ScriptEntry.line
  rw [split_two he.name he.wav (wav_ne he.isWav), lift_ok, bind_ok_nil]

theorem fst_lift {α : Type} (x : Exec α) : (Prog.lift x).out = [] := by cases x <;> rfl

/-- Before its text, `ProcessAudio` writes nothing. -/
theorem processAudio_quiet {w : App.World G} {rec : Option (Stt.Rec F D)} {junk : Junk F} {name : Str} {o : List Out}
    {t : Str} (h : processAudio w rec junk name = ⟨o, .ok t⟩) : o = [] := by
  unfold processAudio at h
  cases hf : w.file name with
  | none => rw [hf] at h; injection h with _ h; cases h
  | some bs =>
    rw [hf] at h
    simp only at h
    cases hd : Pcm.readPcmHeader bs with
    | error x => rw [hd] at h; cases x <;> (injection h with _ h; cases h)
    | ok x =>
      obtain ⟨fmt, data⟩ := x
      rw [hd] at h
      simp only at h
      unfold processData at h
      cases hi : Stt.initApi rec fmt .none with
      | error f => rw [hi] at h; injection h with _ h; cases h
      | ok p =>
        obtain ⟨hd', msg⟩ := p
        rw [hi, lift_ok, bind_ok_nil] at h
        cases hd' with
        | null => injection h with _ h; cases h
        | _ => exact (lift_eq_ok.mp h).1

/-- The part of a script that is recognised, and then the rest. -/
theorem scpLoop_prefix (w : App.World G) (rec : Option (Stt.Rec F D)) (junk : Nat → Junk F) (rest : Str) (fuel : Nat) :
    ∀ (rs : List (ScriptEntry × Str)) (i : Nat),
      (∀ (j : Nat) e t, rs[j]? = some (e, t) → e.Ok ∧ processAudio w rec (junk (i + j)) e.wav = ⟨[], .ok t⟩) →
      scpLoop w rec junk (rs.length + fuel) i ⟨(rs.map fun p => p.1.line ++ p.1.eol).flatten ++ rest, false⟩ =
        ⟨(rs.map fun p => Out.line (p.1.name ++ [32] ++ p.2)) ++ (scpLoop w rec junk fuel (i + rs.length) ⟨rest, false⟩).out,
          (scpLoop w rec junk fuel (i + rs.length) ⟨rest, false⟩).res⟩
  | [], i, _ => by
    rw [List.length_nil, Nat.zero_add]
    rfl
  | (e, t) :: rs, i, h => by
    obtain ⟨he, hp⟩ := h 0 e t rfl
    rw [Nat.add_zero] at hp
    have ih := scpLoop_prefix w rec junk rest fuel rs (i + 1) (by
      intro j e' t' hj
      have := h (j + 1) e' t' hj
      rw [show i + 1 + j = i + (j + 1) by omega]
      exact this)
    rw [show ((e, t) :: rs).length + fuel = (rs.length + fuel) + 1 by simp; omega]
    have hr := readLine_good (r := (rs.map fun p => p.1.line ++ p.1.eol).flatten ++ rest) he.good
    rw [List.map_cons, List.flatten_cons, List.append_assoc]
    conv => lhs; unfold scpLoop
    rw [hr]
    simp only
    rw [scpLine_entry w rec (junk i) he, hp, bind_ok_nil]
    unfold Prog.say
    rw [bind_ok_out, ih, show i + ((e, t) :: rs).length = i + 1 + rs.length by simp; omega]
    rfl

theorem script_length (rs : List (ScriptEntry × Str)) (rest : Str) :
    rs.length + rest.length ≤ ((rs.map fun p => p.1.line ++ p.1.eol).flatten ++ rest).length := by
  induction rs with
  | nil => simp
  | cons p rs ih =>
    rw [List.map_cons, List.flatten_cons, List.append_assoc, List.length_append, List.length_append, List.length_cons]
    have : 1 ≤ p.1.line.length := by
      unfold ScriptEntry.line
      simp only [List.length_append, List.length_cons, List.length_nil]
      omega
    omega

/-- What the program does with a script, in terms of what it does with the files alone. -/
theorem main_script (mach : Machine G F D) {w : App.World G} {conf scp : Str} {a : Nat}
    {s : App.Self G} {h : App.Heap} {c : Option Code} (hx : App.init w conf ⟨0, []⟩ = .ok (some (a, s), h, c))
    (hl : 4 ≤ scp.length) (hw : ¬ IsWav scp) (junk : Nat → Junk F) (rs : List (ScriptEntry × Str)) (rest : Str)
    (hfile : w.file scp = some ((rs.map fun p => p.1.line ++ p.1.eol).flatten ++ rest))
    (hrs : ∀ (i : Nat) e t, rs[i]? = some (e, t) → e.Ok ∧
      main mach w (fun _ => junk i) [conf, e.wav] = ⟨[.line t], .ok ()⟩) :
    ∃ fuel, 2 ≤ fuel ∧ main mach w junk [conf, scp] =
      ⟨(rs.map fun p => Out.line (p.1.name ++ [32] ++ p.2)) ++
        (scpLoop w (mach.recogniser s) junk fuel rs.length ⟨rest, false⟩).out,
        (scpLoop w (mach.recogniser s) junk fuel rs.length ⟨rest, false⟩).res⟩ := by
  have hlen := script_length rs rest
  obtain ⟨fuel, hfu⟩ : ∃ fuel, ((rs.map fun p => p.1.line ++ p.1.eol).flatten ++ rest).length + 2 = rs.length + fuel :=
    ⟨((rs.map fun p => p.1.line ++ p.1.eol).flatten ++ rest).length + 2 - rs.length, by omega⟩
  refine ⟨fuel, by omega, ?_⟩
  rw [main_loaded mach hx hl]
  unfold processInput
  rw [if_neg (by
    intro hc
    apply hw
    refine ⟨scp.take (scp.length - 4), ?_⟩
    have := List.take_append_drop (scp.length - 4) scp
    rw [hc] at this
    exact this)]
  unfold processScp
  rw [hfile]
  simp only
  rw [hfu]
  have := scpLoop_prefix w (mach.recogniser s) junk rest fuel rs 0 (by
    intro j e t hj
    obtain ⟨he, hm⟩ := hrs j e t hj
    refine ⟨he, ?_⟩
    rw [main_wav mach hx he.isWav] at hm
    obtain ⟨o, t', hp, ho⟩ := say_iff.mp hm
    have := processAudio_quiet hp
    subst this
    have ht : t = t' := by simpa using ho
    subst ht
    rw [Nat.zero_add]
    exact hp)
  rw [Nat.zero_add] at this
  exact this

/-- **C69.**  The program on a script writes for every line, in order, the name, a blank, and what it would write for
the file alone, and nothing else.
Missing for the full property: scripts whose last line has no newline, for which it is false, see
`C69_missing_newline_fails`. -/
theorem C69_script_partial (mach : Machine G F D) (w : App.World G) (conf scp : Str) (a : Nat)
    (s : App.Self G) (h : App.Heap) (c : Option Code) (hx : App.init w conf ⟨0, []⟩ = .ok (some (a, s), h, c))
    (hl : 4 ≤ scp.length) (hw : ¬ IsWav scp) (junk : Nat → Junk F) (rs : List (ScriptEntry × Str))
    (hfile : w.file scp = some (rs.map fun p => p.1.line ++ p.1.eol).flatten)
    (hrs : ∀ (i : Nat) e t, rs[i]? = some (e, t) → e.Ok ∧
      main mach w (fun _ => junk i) [conf, e.wav] = ⟨[.line t], .ok ()⟩) :
    main mach w junk [conf, scp] = ⟨rs.map fun p => Out.line (p.1.name ++ [32] ++ p.2), .ok ()⟩ := by
  obtain ⟨fuel, hf, hm⟩ := main_script mach hx hl hw junk rs [] (by rw [List.append_nil]; exact hfile) hrs
  rw [hm]
  obtain ⟨n, rfl⟩ : ∃ n, fuel = n + 1 := ⟨fuel - 1, by omega⟩
  show (⟨_ ++ [], .ok ()⟩ : Prog Unit) = _
  rw [List.append_nil]

/-- **C69, the first failure ends the run.**  If the program would fail on the file of some line, it does so with the same
messages and exit code after it has written the lines before; nothing behind is looked at. -/
theorem C69_stops (mach : Machine G F D) (w : App.World G) (conf scp : Str) (a : Nat)
    (s : App.Self G) (h : App.Heap) (c : Option Code) (hx : App.init w conf ⟨0, []⟩ = .ok (some (a, s), h, c))
    (hl : 4 ≤ scp.length) (hw : ¬ IsWav scp) (junk : Nat → Junk F) (rs : List (ScriptEntry × Str)) (e : ScriptEntry)
    (rest : Str) (hfile : w.file scp = some ((rs.map fun p => p.1.line ++ p.1.eol).flatten ++ (e.line ++ e.eol ++ rest)))
    (hrs : ∀ (i : Nat) e t, rs[i]? = some (e, t) → e.Ok ∧
      main mach w (fun _ => junk i) [conf, e.wav] = ⟨[.line t], .ok ()⟩)
    (he : e.Ok) (out : List Out) (x : End)
    (hbad : main mach w (fun _ => junk rs.length) [conf, e.wav] = ⟨out, .error x⟩) :
    main mach w junk [conf, scp] = ⟨(rs.map fun p => Out.line (p.1.name ++ [32] ++ p.2)) ++ out, .error x⟩ := by
  obtain ⟨fuel, hf, hm⟩ := main_script mach hx hl hw junk rs _ hfile hrs
  rw [hm]
  obtain ⟨n, rfl⟩ : ∃ n, fuel = n + 1 := ⟨fuel - 1, by omega⟩
  rw [main_wav mach hx he.isWav] at hbad
  have : scpLoop w (mach.recogniser s) junk (n + 1) rs.length ⟨e.line ++ e.eol ++ rest, false⟩ = ⟨out, .error x⟩ := by
    unfold scpLoop
    rw [readLine_good he.good]
    simp only
    rw [scpLine_entry w _ _ he]
    generalize processAudio w (mach.recogniser s) (junk rs.length) e.wav = p at hbad ⊢
    obtain ⟨o, y⟩ := p
    cases y with
    | ok t => injection hbad with _ hbad; cases hbad
    | error y =>
      injection hbad with h1 h2
      injection h2 with h2
      subst h1 h2
      rfl
  rw [this]

/-- **C69, other lines.**  A line that is not a name and a file ends the run with a message and exit code 22. -/
theorem C69_bad_line (mach : Machine G F D) (w : App.World G) (conf scp : Str) (a : Nat)
    (s : App.Self G) (h : App.Heap) (c : Option Code) (hx : App.init w conf ⟨0, []⟩ = .ok (some (a, s), h, c))
    (hl : 4 ≤ scp.length) (hw : ¬ IsWav scp) (junk : Nat → Junk F) (rs : List (ScriptEntry × Str)) (l eol : Str)
    (rest : Str) (hfile : w.file scp = some ((rs.map fun p => p.1.line ++ p.1.eol).flatten ++ (l ++ eol ++ rest)))
    (hrs : ∀ (i : Nat) e t, rs[i]? = some (e, t) → e.Ok ∧
      main mach w (fun _ => junk i) [conf, e.wav] = ⟨[.line t], .ok ()⟩)
    (hg : GoodLine l eol) (hn : NotTwoParts l) :
    main mach w junk [conf, scp] =
      ⟨(rs.map fun p => Out.line (p.1.name ++ [32] ++ p.2)) ++ [.message], .error (.exit 22)⟩ := by
  obtain ⟨fuel, hf, hm⟩ := main_script mach hx hl hw junk rs _ hfile hrs
  rw [hm]
  obtain ⟨n, rfl⟩ : ∃ n, fuel = n + 1 := ⟨fuel - 1, by omega⟩
  have : scpLoop w (mach.recogniser s) junk (n + 1) rs.length ⟨l ++ eol ++ rest, false⟩ =
      ⟨[.message], .error (.exit 22)⟩ := by
    unfold scpLoop
    rw [readLine_good hg]
    simp only
    unfold scpLine
    obtain ⟨fs, hs, _⟩ := C35_split l [32] (by simp)
    obtain ⟨h1, h2⟩ := (C35_split_inverts_join 32 l fs).mp hs
    rw [hs, lift_ok, bind_ok_nil]
    match fs, h1, h2 with
    | [], _, _ => rfl
    | [_], _, _ => rfl
    | [x, y], h1, h2 =>
      exfalso
      have hxy := hn x y (h1 x (by simp)) (h1 y (by simp))
      rcases h2 with ⟨h2, h3⟩ | ⟨h2, _⟩
      · exact hxy.1 (by simpa using h3) (by simpa [join] using h2)
      · exact hxy.2 (by simpa [join] using h2)
    | _ :: _ :: _ :: _, _, _ => rfl
  rw [this]

/-- **C69 fails without a last newline.**  If the last line of the script does not end with a newline, all results are
written, and then the program fails with a message and exit code 1. -/
theorem C69_missing_newline_fails (mach : Machine G F D) (w : App.World G) (conf scp : Str) (a : Nat)
    (s : App.Self G) (h : App.Heap) (c : Option Code) (hx : App.init w conf ⟨0, []⟩ = .ok (some (a, s), h, c))
    (hl : 4 ≤ scp.length) (hw : ¬ IsWav scp) (junk : Nat → Junk F) (rs : List (ScriptEntry × Str)) (e : ScriptEntry)
    (t : Str) (hfile : w.file scp = some ((rs.map fun p => p.1.line ++ p.1.eol).flatten ++ e.line))
    (hrs : ∀ (i : Nat) e' t', (rs ++ [(e, t)])[i]? = some (e', t') → e'.Ok ∧
      main mach w (fun _ => junk i) [conf, e'.wav] = ⟨[.line t'], .ok ()⟩) :
    main mach w junk [conf, scp] =
      ⟨((rs ++ [(e, t)]).map fun p => Out.line (p.1.name ++ [32] ++ p.2)) ++ [.message], .error (.exit 1)⟩ := by
  obtain ⟨fuel, hf, hm⟩ := main_script mach hx hl hw junk rs e.line hfile (by
    intro i e' t' hi
    apply hrs
    rw [List.getElem?_append_left (List.getElem?_eq_some_iff.mp hi).1]
    exact hi)
  obtain ⟨he, ha⟩ := hrs rs.length e t (by simp)
  rw [main_wav mach hx he.isWav] at ha
  obtain ⟨o, t', hp, ho⟩ := say_iff.mp ha
  have hq := processAudio_quiet hp
  subst hq
  rw [List.nil_append] at ho
  injection ho with ho
  injection ho with ho
  subst ho
  rw [hm]
  obtain ⟨n, rfl⟩ : ∃ n, fuel = n + 2 := ⟨fuel - 2, by omega⟩
  have hr : readLine ⟨e.line, false⟩ = (.line e.line, ⟨[], true⟩) := by
    have hs := he.good.short
    have h1 : e.eol ≠ [] := by rcases he.good.eol with h | h <;> rw [h] <;> simp
    have h2 : 0 < e.eol.length := List.length_pos_iff.mpr h1
    have h3 : e.line ≠ [] := by unfold ScriptEntry.line; simp
    unfold readLine
    simp only [fgets_end 4095 e.line he.good.noLf (by omega)]
    rw [if_neg (by simp), if_neg h3, cstr_id he.good.noNul, stripEnd_id he.good.noLf he.good.noCr]
  have : scpLoop w (mach.recogniser s) junk (n + 2) rs.length ⟨e.line, false⟩ =
      ⟨[.line (e.name ++ [32] ++ t), .message], .error (.exit 1)⟩ := by
    unfold scpLoop
    rw [hr]
    simp only
    rw [scpLine_entry w _ _ he, hp, bind_ok_nil]
    rfl
  rw [this, List.map_append]
  simp

/-- The script `s.scp` of the small model directory: two lines, the second with another line end. -/
example : main Ex.mach Ex.world Ex.junk [[100, 47, 99], [115, 46, 115, 99, 112]] =
    ⟨[.line [120, 32, 104, 105], .line [121, 32]], .ok ()⟩ := by
  obtain ⟨h, c, hx⟩ := Ex.loaded
  refine C69_script_partial Ex.mach Ex.world [100, 47, 99] [115, 46, 115, 99, 112] 0 Ex.self h c hx (by decide) (by unfold IsWav; decide) Ex.junk
    [(⟨[120], [97, 46, 119, 97, 118], [10]⟩, [104, 105]), (⟨[121], [101, 46, 119, 97, 118], [13, 10]⟩, [])] rfl ?_
  intro i e t hi
  match i, hi with
  | 0, hi =>
    injection hi with hi; injection hi with h1 h2; subst h1 h2
    exact ⟨⟨by decide, by decide, isWav_of [97] rfl, by decide, by decide, by decide, .inl rfl, by decide⟩,
      Ex.run_hi (isWav_of [97] rfl) rfl _⟩
  | 1, hi =>
    injection hi with hi; injection hi with h1 h2; subst h1 h2
    exact ⟨⟨by decide, by decide, isWav_of [101] rfl, by decide, by decide, by decide, .inr rfl, by decide⟩,
      Ex.run_empty (isWav_of [101] rfl) rfl _⟩
  | n + 2, hi => cases hi

/-- The script `n.scp` without newline: the result, and exit code 1. -/
example : main Ex.mach Ex.world Ex.junk [[100, 47, 99], [110, 46, 115, 99, 112]] =
    ⟨[.line [120, 32, 104, 105], .message], .error (.exit 1)⟩ := by
  obtain ⟨h, c, hx⟩ := Ex.loaded
  refine C69_missing_newline_fails Ex.mach Ex.world [100, 47, 99] [110, 46, 115, 99, 112] 0 Ex.self h c hx (by decide) (by unfold IsWav; decide) Ex.junk [] ⟨[120], [97, 46, 119, 97, 118], [10]⟩ [104, 105] rfl ?_
  intro i e t hi
  match i, hi with
  | 0, hi =>
    injection hi with hi; injection hi with h1 h2; subst h1 h2
    exact ⟨⟨by decide, by decide, isWav_of [97] rfl, by decide, by decide, by decide, .inl rfl, by decide⟩,
      Ex.run_hi (isWav_of [97] rfl) rfl _⟩
  | n + 1, hi => cases hi

/-- A file that is not there, for `C69_stops`: its line is fine, and the program fails on the file. -/
example : (⟨[120], [98, 46, 119, 97, 118], [10]⟩ : ScriptEntry).Ok ∧
    main Ex.mach Ex.world Ex.junk [[100, 47, 99], [98, 46, 119, 97, 118]] = ⟨[.message], .error (.exit 22)⟩ := by
  refine ⟨⟨by decide, by decide, isWav_of [98] rfl, by decide, by decide, by decide, .inl rfl, by decide⟩, ?_⟩
  obtain ⟨h, c, hx⟩ := Ex.loaded
  have hw : IsWav [98, 46, 119, 97, 118] := isWav_of [98] rfl
  rw [main_wav Ex.mach hx hw]
  rfl

/-- Lines of one and of three parts. -/
example : NotTwoParts [97, 98] ∧ NotTwoParts [97, 32, 98, 32, 99] := by
  have key : ∀ l : Str, (∀ fs, split l [32] = .ok fs → fs.length ≠ 2) → NotTwoParts l := by
    intro l h a b ha hb
    have hf : ∀ f ∈ [a, b], 32 ∉ f := by
      intro f hf
      rcases List.mem_cons.mp hf with rfl | hf
      · exact ha
      · rw [List.mem_singleton] at hf; subst hf; exact hb
    constructor
    · intro hne hl
      exact h [a, b] ((C35_split_inverts_join 32 l _).mpr ⟨hf, .inl ⟨by simp [join, hl], by simpa using hne⟩⟩) rfl
    · intro hl
      exact h [a, b] ((C35_split_inverts_join 32 l _).mpr ⟨hf, .inr ⟨by simp [join, hl], by simp⟩⟩) rfl
  constructor
  · apply key
    intro fs h
    have : split [97, 98] [32] = .ok [[97, 98]] := by decide +kernel
    rw [this] at h
    cases h
    decide
  · apply key
    intro fs h
    have : split [97, 32, 98, 32, 99] [32] = .ok [[97], [98], [99]] := by decide +kernel
    rw [this] at h
    cases h
    decide

/-! ## C70: the end of the data -/

/-- **C70, if nothing follows.**  If the file ends where its header says that the data ends, the program recognises
exactly that data.
Missing for the full property: files in which something follows the data, for which it is false, see
`C70_rest_is_heard`. -/
theorem C70_exact_partial (mach : Machine G F D) (w : App.World G) (conf bytes : Str) (defs : List (Str × Str))
    (m : App.Spec.Model G) (hf : w.file conf = some bytes) (hc : IsConf bytes defs) (hi : Installed w conf defs m)
    (ho : m.Ok w) (vm : List F → List (List F) → List F) (e wd : Nat) (hfit : Fits mach m vm e wd)
    (input : Str) (hw : IsWav input) (file chunk : List UInt8) (b : Nat) (hfile : w.file input = some file)
    (ha : HasChunk file b chunk []) :
    ∃ r, IsRec mach w m r ∧ ∀ (junk : Nat → Junk F) (out : List Out), main mach w junk [conf, input] = ⟨out, .ok ()⟩ →
      ∃ ids ws, Hears r vm b chunk ids ∧ ws.length = ids.length ∧
        (∀ (i : Nat) id word, ids.reverse[i]? = some id → ws[i]? = some word → Spells m.symbols id word) ∧
        out = [.line (join [32] ws)] := by
  obtain ⟨hb, h, _, _, _, _, he, hh, _⟩ := ha
  rw [List.append_nil] at he
  exact C68_program mach w conf bytes defs m hf hc hi ho vm e wd hfit input hw file chunk b hfile ⟨hb, h, he, hh⟩

/-- **C70 is false: what follows is heard.**  The number of bytes in the header is ignored: two files of the small model
directory both declare no data at all; one is recognised as nothing, the other, in which 560 bytes follow, as "hi". -/
theorem C70_rest_is_heard :
    HasChunk (Ex.header 0 0) 1 [] [] ∧ Ex.world.file [101, 46, 119, 97, 118] = some (Ex.header 0 0) ∧
    (∀ junk, main Ex.mach Ex.world junk [[100, 47, 99], [101, 46, 119, 97, 118]] = ⟨[.line []], .ok ()⟩) ∧
    HasChunk (Ex.header 0 0 ++ List.replicate 560 3) 1 [] (List.replicate 560 3) ∧
    Ex.world.file [108, 46, 119, 97, 118] = some (Ex.header 0 0 ++ List.replicate 560 3) ∧
    (∀ junk, main Ex.mach Ex.world junk [[100, 47, 99], [108, 46, 119, 97, 118]] = ⟨[.line [104, 105]], .ok ()⟩) := by
  have hd : Pcm.Spec.WavHeader (Ex.header 0 0) 1 16000 (8 * ((1 : Nat) : Int)) := by
    obtain ⟨_, h, e1, hh⟩ := Ex.header_ok 0 0 []
    rw [List.append_nil, List.append_nil] at e1
    rw [e1]
    exact hh
  exact ⟨⟨.inl rfl, Ex.header 0 0, 0, 0, 0, 0, rfl, hd, rfl, rfl⟩, rfl, Ex.run_empty (isWav_of [101] rfl) rfl,
    ⟨.inl rfl, Ex.header 0 0, 0, 0, 0, 0, rfl, hd, rfl, rfl⟩, rfl, Ex.run_hi (isWav_of [108] rfl) rfl⟩

/-- An audio file with a correct size, for `C70_exact_partial`. -/
example : HasChunk (Ex.header 48 2 ++ List.replicate 560 3) 1 (List.replicate 560 3) [] := by
  obtain ⟨_, h, e1, hh⟩ := Ex.header_ok 48 2 []
  rw [List.append_nil, List.append_nil] at e1
  exact ⟨.inl rfl, Ex.header 48 2, 48, 2, 0, 0, by rw [List.append_nil], by rw [e1]; exact hh, rfl, by decide +kernel⟩

end Verif.Main
