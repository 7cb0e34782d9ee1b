import Verif.MsgReport
import Verif.InitProps

/-!
# C89: what `ce_stt_last_error` tells after `ce_stt_init`
-/

namespace Verif.Msg

open Verif Verif.Text Verif.App Verif.App.Spec Verif.Msg.Spec

variable {G : Type}

/-! ## The model with texts and the model without -/

/-- **C89, the same function.**  Without the buffer it is the function of C65 to C67: texts change nothing else. -/
theorem C89_same (w : World G) (conf : Str) (h : Heap) (buf : Str) (hb : buf.length = 2048) :
    (init w conf h buf).map (fun r => (r.1, r.2.1, r.2.2.1)) = App.init w conf h := by
  have hf : ∀ (a : Nat) (t : Code × Str) (h : Heap) (s : Self G),
      (initFailed a t h s buf).map (fun r => (r.1, r.2.1, r.2.2.1)) = App.initFailed a t.1 h s := by
    intro a t h s
    obtain ⟨b, h1, _, _⟩ := report_shown hb t.2
    unfold initFailed App.initFailed
    rw [h1, ok_bind]
    cases destroy h (some (a, s)) <;> rfl
  unfold init App.init
  rw [← forget_readConf]
  rcases readConf w conf with (⟨c, t⟩ | f) | cf
  · exact hf _ _ _ _
  · rfl
  · simp only [forget]
    rw [← loadAll_plain]
    rcases loadAll w cf h.new.2 with e | ⟨(_ | t), h', s⟩
    · rfl
    · rfl
    · exact hf _ _ _ _

example : noMessage.length = 2048 := List.length_replicate ..

/-- **C89, success.**  A recogniser comes without a text: the buffer is as before, with the text of an earlier error if
there was one. -/
theorem C89_success_keeps_text (w : World G) (conf : Str) (h h' : Heap) (buf buf' : Str) (p : Nat × Self G)
    (c : Option Code) (hb : buf.length = 2048) (hi : init w conf h buf = .ok (some p, h', c, buf')) :
    buf' = buf ∧ c = none := by
  unfold init at hi
  rcases hr : readConf w conf with (⟨c, t⟩ | f) | cf
  · simp only [hr] at hi
    cases (initFailed_shown hb hi).1
  · simp only [hr] at hi
    cases hi
  · simp only [hr] at hi
    obtain ⟨⟨o, h1, s⟩, _, h2⟩ := bind_ok hi
    rcases o with _ | t
    · cases h2
      exact ⟨rfl, rfl⟩
    · cases (initFailed_shown hb h2).1

/-- The example directory is read, and the text `x` of before is kept. -/
example : (init Ex.world [100, 47, 99] ⟨0, []⟩ ([120] ++ List.replicate 2047 0)).map
      (fun r => (r.1.isSome, r.2.2.1, lastError r.2.2.2)) = .ok (true, none, [120]) := by decide +kernel

/-! ## The configuration cannot be read -/

/-- A failure to read the configuration. -/
theorem init_of_conf {w : World G} {conf t : Str} {c : Code} (h : Heap) {buf : Str} (hb : buf.length = 2048)
    (hr : readConf w conf = .error (.status c t)) :
    ∃ h' buf', init w conf h buf = .ok (none, h', some c, buf') ∧ buf'.length = 2048 ∧ lastError buf' = shown t := by
  obtain ⟨b, h1, h2, h3⟩ := report_shown hb t
  have ho : Owns h.new.2.live h.new.2 (Self.empty : Self G) := List.Perm.refl _
  obtain ⟨h4, h5, _⟩ := destroy_owns ho h.new.1
  refine ⟨h4, b, ?_, h2, h3⟩
  unfold init
  simp only [hr]
  unfold initFailed
  rw [h1, ok_bind, h5, ok_bind]

/-- **C89, no configuration.**  The text names the file. -/
theorem C89_no_configuration (w : World G) (conf : Str) (h : Heap) (buf : Str) (hb : buf.length = 2048)
    (hf : w.file conf = none) :
    ∃ h' buf', init w conf h buf = .ok (none, h', some .io, buf') ∧
      lastError buf' = shown ([73, 79, 69, 114, 114, 111, 114, 58, 32, 85, 110, 97, 98, 108, 101, 32, 116, 111, 32,
  111, 112, 101, 110, 32] ++ conf) := by
  have hr : readConf w conf = .error (.status .io ([73, 79, 69, 114, 114, 111, 114, 58, 32, 85, 110, 97, 98, 108, 101,
  32, 116, 111, 32, 111, 112, 101, 110, 32] ++ conf)) := by
    unfold readConf openFile
    rw [hf, ← format_open]
    rfl
  obtain ⟨h', b, h1, _, h3⟩ := init_of_conf h hb hr
  exact ⟨h', b, h1, h3⟩

example : Ex.world.file [99] = none := by decide +kernel

example : (init Ex.world [99] ⟨0, []⟩ noMessage).map (fun r => lastError r.2.2.2) =
    .ok ([73, 79, 69, 114, 114, 111, 114, 58, 32, 85, 110, 97, 98, 108, 101, 32, 116, 111, 32, 111, 112, 101, 110,
  32] ++ [99]) := by decide +kernel

theorem forget_eq_ok {α : Type} {x : Mio α} {a : α} (h : forget x = .ok a) : x = .ok a := by
  rcases x with (⟨c, t⟩ | f) | b
  · cases h
  · cases h
  · cases h
    rfl

/-- The loop goes over good lines and stops at one that is bad. -/
theorem configLoop_stops {name l eol rest : Str} {e : Err} (hl : GoodLine l eol)
    (hbad : ∀ t, configLine name t l = .error e) : ∀ (es : List ConfEntry) (fuel : Nat) (t : List (Str × Str)),
    (∀ e ∈ es, e.Good) → es.length < fuel →
    configLoop name fuel ⟨(es.map (fun e => e.line ++ e.eol)).flatten ++ (l ++ eol ++ rest), false⟩ t = .error e
  | [], fuel + 1, t, _, _ => by
    unfold configLoop
    rw [if_neg (by simp), List.map_nil, List.flatten_nil, List.nil_append, readLine_good hl]
    simp only [hbad]
    rfl
  | x :: es, fuel + 1, t, hes, hfu => by
    have hx := hes x List.mem_cons_self
    have h1 : configLine name t x.line = .ok (addDef t x.mean) := by
      apply forget_eq_ok
      rw [forget_configLine]
      exact configLine_mean hx.2 t
    unfold configLoop
    rw [if_neg (by simp), List.map_cons, List.flatten_cons, List.append_assoc, readLine_good hx.1]
    simp only [h1]
    exact configLoop_stops hl hbad es fuel _ (fun e he => hes e (List.mem_cons_of_mem _ he))
      (by simp only [List.length_cons] at hfu; omega)

theorem readConf_stops {w : World G} {conf l eol rest : Str} {es : List ConfEntry} {e : Err} (hl : GoodLine l eol)
    (hbad : ∀ t, configLine conf t l = .error e) (hes : ∀ e ∈ es, e.Good)
    (hf : w.file conf = some ((es.map (fun e => e.line ++ e.eol)).flatten ++ (l ++ eol ++ rest))) :
    readConf w conf = .error e := by
  unfold readConf openFile
  rw [hf]
  show (configLoop conf _ _ [] >>= _) = _
  rw [configLoop_stops hl hbad es _ _ hes ?_]
  · rfl
  · have : ∀ es : List ConfEntry, (∀ e ∈ es, e.Good) →
        es.length ≤ ((es.map (fun e => e.line ++ e.eol)).flatten).length := by
      intro es
      induction es with
      | nil => intro _; exact Nat.le_refl _
      | cons x es ih =>
        intro h
        have h1 := ih fun e he => h e (List.mem_cons_of_mem _ he)
        have h2 : x.eol.length ≠ 0 := by
          rcases (h x List.mem_cons_self).1.eol with e | e <;> simp [e]
        simp only [List.map_cons, List.flatten_cons, List.length_append, List.length_cons]
        omega
    have := this es hes
    simp only [List.length_append]
    omega

/-- A text without braces has no place for an argument. -/
theorem format_none {s : Str} (h : 123 ∉ s) : ∀ args, format s args = s
  | [] => rfl
  | a :: args => by
    have hf : find [123, 125] s = none := by
      clear args
      induction s with
      | nil => rfl
      | cons c s ih =>
        show (if startsWith [123, 125] (c :: s) = true then some 0 else (find [123, 125] s).map (· + 1)) = _
        rw [if_neg, ih fun hm => h (List.mem_cons_of_mem _ hm)]
        · rfl
        · intro hs
          obtain ⟨r, hr⟩ := (startsWith_braces _).1 hs
          exact h ((List.cons.inj hr).1 ▸ List.mem_cons_self)
    show (match find [123, 125] s with
      | some pos => format (replace2 s pos a) args
      | none => format s args) = _
    rw [hf]
    exact format_none h args

theorem holes_line : Holes 2 tLine :=
  ⟨[85, 110, 101, 120, 112, 101, 99, 116, 101, 100, 32, 108, 105, 110, 101, 32, 105, 110, 32], [58, 32, 123, 125],
  rfl, [58, 32], [], rfl, trivial⟩

theorem trim_text {s t : Str} (h : IsTrimmed s t) : Mio.ofExec (trim s) = .ok t := by
  apply forget_eq_ok
  rw [forget_ofExec]
  exact trim_of h

theorem split_no_sign {l : Str} (hl : l ≠ []) (heq : 61 ∉ l.dropLast) : ∃ f, split l [61] = .ok [f] := by
  obtain ⟨x, hx⟩ : ∃ x, l = l.dropLast ++ [x] := ⟨l.getLast hl, (List.dropLast_concat_getLast hl).symm⟩
  by_cases hs : x = 61
  · refine ⟨l.dropLast, ?_⟩
    rw [C35_split_inverts_join]
    refine ⟨by simpa using heq, .inr ⟨?_, by simp⟩⟩
    rw [hs] at hx
    simpa [join] using hx
  · refine ⟨l, ?_⟩
    rw [C35_split_inverts_join]
    refine ⟨?_, .inl ⟨by simp [join], by simpa using hl⟩⟩
    intro f hf
    rw [List.mem_singleton.1 hf, hx, List.mem_append, not_or]
    exact ⟨heq, by simpa using fun h => hs h.symm⟩

/-- **C89, a line that is no definition.**  The first line of the configuration that is not blank, no comment, and has
no `=` other than as its last byte, makes the configuration corrupt.  The line is in the text.  If the name of the
configuration has no brace, the text is `Unexpected line in `, the name, `: `, and the line. -/
theorem C89_bad_line (w : World G) (conf : Str) (h : Heap) (buf : Str) (hb : buf.length = 2048)
    (es : List ConfEntry) (w0 l w1 eol rest : Str) (hes : ∀ e ∈ es, e.Good) (h0 : ∀ c ∈ w0, White c)
    (h1 : ∀ c ∈ w1, White c) (hl : l ≠ []) (ht : Tight l) (hc : l.head? ≠ some 35) (heq : 61 ∉ l.dropLast)
    (hg : GoodLine (w0 ++ l ++ w1) eol)
    (hf : w.file conf = some ((es.map (fun e => e.line ++ e.eol)).flatten ++ (w0 ++ l ++ w1 ++ eol ++ rest))) :
    ∃ h' buf' t, init w conf h buf = .ok (none, h', some .corruption, buf') ∧ lastError buf' = shown t ∧ l <:+: t ∧
      (123 ∉ conf → t = [67, 111, 114, 114, 117, 112, 116, 105, 111, 110, 58, 32, 85, 110, 101, 120, 112, 101, 99,
  116, 101, 100, 32, 108, 105, 110, 101, 32, 105, 110, 32] ++ conf ++ [58, 32] ++ l) := by
  obtain ⟨f, hs⟩ := split_no_sign hl heq
  have hline : ∀ t, configLine conf t (w0 ++ l ++ w1) = failed .corruption (format tLine [conf, l]) := by
    intro t
    unfold configLine
    rw [trim_text (ht.trimmed h0 h1)]
    show (if l = [] ∨ l.head? = some 35 then _ else _) = _
    rw [if_neg (by
      rintro (h | h)
      · exact hl h
      · exact hc h), hs]
    rfl
  obtain ⟨h', b, e1, _, e3⟩ := init_of_conf h hb (readConf_stops hg hline hes hf)
  refine ⟨h', b, _, e1, e3, ?_, fun hn => ?_⟩
  · obtain ⟨u, v, e⟩ := format_last [conf] tLine l holes_line
    exact ⟨label .corruption ++ u, v, by
      rw [show [conf, l] = [conf] ++ [l] from rfl, ← e]
      simp only [List.append_assoc]⟩
  · rw [show tLine = [85, 110, 101, 120, 112, 101, 99, 116, 101, 100, 32, 108, 105, 110, 101, 32, 105, 110,
  32] ++ 123 :: 125 :: [58, 32, 123, 125] from rfl, format_first _ _ _ _ (by decide),
      show [85, 110, 101, 120, 112, 101, 99, 116, 101, 100, 32, 108, 105, 110, 101, 32, 105, 110, 32] ++ conf ++ [58,
  32, 123, 125] = ([85, 110, 101, 120, 112, 101, 99, 116, 101, 100, 32, 108, 105, 110, 101, 32, 105, 110,
  32] ++ conf ++ [58, 32]) ++ 123 :: 125 :: [] by
        rw [List.append_assoc ([85, 110, 101, 120, 112, 101, 99, 116, 101, 100, 32, 108, 105, 110, 101, 32, 105, 110,
  32] ++ conf)]
        rfl, format_first _ _ _ _ (by
        simp only [List.mem_append, not_or]
        exact ⟨⟨by decide, hn⟩, by decide⟩)]
    simp [format, label]

/-- A directory whose configuration `c` is one line `# a`, one line ` ab `, and more. -/
example : (∀ e ∈ [(⟨[35, 97], [10], none⟩ : ConfEntry)], e.Good) ∧ Tight [97, 98] ∧ (61 : UInt8) ∉ [97, 98].dropLast ∧
    GoodLine ([32] ++ [97, 98] ++ [32]) [10] ∧
    (Ex.world.with [99] (some ([35, 97, 10] ++ ([32] ++ [97, 98] ++ [32] ++ [10] ++ [120])))).file [99] =
      some ((([⟨[35, 97], [10], none⟩] : List ConfEntry).map (fun e => e.line ++ e.eol)).flatten ++
        ([32] ++ [97, 98] ++ [32] ++ [10] ++ [120])) := by
  refine ⟨?_, ⟨by decide, by decide⟩, by decide, ⟨by decide, by decide, by decide, .inl rfl, by decide⟩,
    by decide +kernel⟩
  intro e he
  rw [List.mem_singleton.1 he]
  exact ⟨⟨by decide, by decide, by decide, .inl rfl, by decide⟩, .comment [] [97] (by decide)⟩

example : (init (Ex.world.with [99] (some ([35, 97, 10] ++ ([32] ++ [97, 98] ++ [32] ++ [10] ++ [120])))) [99] ⟨0, []⟩
    noMessage).map (fun r => lastError r.2.2.2) = .ok ([67, 111, 114, 114, 117, 112, 116, 105, 111, 110, 58, 32, 85,
  110, 101, 120, 112, 101, 99, 116, 101, 100, 32, 108, 105, 110, 101, 32, 105, 110, 32, 99, 58, 32, 97, 98]) := by
  decide +kernel

/-- **C89, a line is not shown.**  A line `k==` (and only one with a second `=`: for `k=` see `C89_bad_line`) makes the
program report an empty value.  The text has one place for the name of the configuration and the line: the line is
lost. -/
theorem C89_empty_value_hides_line (w : World G) (conf : Str) (h : Heap) (buf : Str) (hb : buf.length = 2048)
    (es : List ConfEntry) (w0 k ws w1 eol rest : Str) (hes : ∀ e ∈ es, e.Good) (h0 : ∀ c ∈ w0, White c)
    (h1 : ∀ c ∈ w1, White c) (h2 : ∀ c ∈ ws, White c) (hk : k ≠ []) (ht : Tight k) (hc : k.head? ≠ some 35)
    (heq : 61 ∉ k) (hg : GoodLine (w0 ++ (k ++ [61] ++ ws ++ [61]) ++ w1) eol)
    (hf : w.file conf = some ((es.map (fun e => e.line ++ e.eol)).flatten ++
      (w0 ++ (k ++ [61] ++ ws ++ [61]) ++ w1 ++ eol ++ rest))) (hn : 123 ∉ conf) :
    ∃ h' buf', init w conf h buf = .ok (none, h', some .corruption, buf') ∧
      lastError buf' = shown ([67, 111, 114, 114, 117, 112, 116, 105, 111, 110, 58, 32, 86, 97, 108, 117, 101, 32, 99,
  111, 117, 110, 100, 32, 110, 111, 116, 32, 98, 101, 32, 101, 109, 112, 116, 121, 58, 32] ++ conf) := by
  have hs : split (k ++ [61] ++ ws ++ [61]) [61] = .ok [k, ws] := by
    rw [C35_split_inverts_join]
    refine ⟨?_, .inr ⟨by simp [join], by simp⟩⟩
    intro f hm
    simp only [List.mem_cons, List.not_mem_nil, or_false] at hm
    rcases hm with rfl | rfl
    · exact heq
    · exact fun h => not_white_61 (h2 61 h)
  have hti : IsTrimmed (w0 ++ (k ++ [61] ++ ws ++ [61]) ++ w1) (k ++ [61] ++ ws ++ [61]) := by
    refine ⟨w0, w1, by simp, h0, h1, fun c hc => ht.1 c ?_, fun c hc => ?_⟩
    · rw [← hc]
      cases k with
      | nil => exact absurd rfl hk
      | cons => rfl
    · rw [List.getLast?_append] at hc
      cases hc
      exact not_white_61
  have hhead : (k ++ [61] ++ ws ++ [61]).head? = k.head? := by
    cases k with
    | nil => exact absurd rfl hk
    | cons => rfl
  have hline : ∀ t, configLine conf t (w0 ++ (k ++ [61] ++ ws ++ [61]) ++ w1) =
      failed .corruption ([86, 97, 108, 117, 101, 32, 99, 111, 117, 110, 100, 32, 110, 111, 116, 32, 98, 101, 32, 101,
  109, 112, 116, 121, 58, 32] ++ conf) := by
    intro t
    unfold configLine
    rw [trim_text hti]
    show (if k ++ [61] ++ ws ++ [61] = [] ∨ (k ++ [61] ++ ws ++ [61]).head? = some 35 then _ else _) = _
    rw [if_neg (by
      rintro (h | h)
      · simp at h
      · exact hc (hhead ▸ h)), hs]
    show (Mio.ofExec (trim k) >>= _) = _
    have e1 : IsTrimmed k k := by simpa using ht.trimmed (l := []) (r := []) (by simp) (by simp)
    have e2 : IsTrimmed ws [] := ⟨ws, [], by simp, h2, by simp, by simp, by simp⟩
    rw [trim_text e1]
    show (Mio.ofExec (trim ws) >>= _) = _
    rw [trim_text e2]
    show failed .corruption (format tEmpty [conf, _]) = _
    rw [show tEmpty = [86, 97, 108, 117, 101, 32, 99, 111, 117, 110, 100, 32, 110, 111, 116, 32, 98, 101, 32, 101,
  109, 112, 116, 121, 58, 32] ++ 123 :: 125 :: [] from rfl, format_first _ _ _ _ (by decide),
      format_none (by
        simp only [List.mem_append, not_or]
        exact ⟨⟨by decide, hn⟩, by decide⟩), List.append_nil]
  obtain ⟨h', b, e1, _, e3⟩ := init_of_conf h hb (readConf_stops hg hline hes hf)
  refine ⟨h', b, e1, e3.trans ?_⟩
  simp [label]

/-- `ab==` in a configuration `c`. -/
example : Tight [97, 98] ∧ (61 : UInt8) ∉ [97, 98] ∧ GoodLine ([] ++ ([97, 98] ++ [61] ++ [] ++ [61]) ++ []) [10] ∧
    (Ex.world.with [99] (some [97, 98, 61, 61, 10])).file [99] =
      some ((([] : List ConfEntry).map (fun e => e.line ++ e.eol)).flatten ++
        ([] ++ ([97, 98] ++ [61] ++ [] ++ [61]) ++ [] ++ [10] ++ [])) :=
  ⟨⟨by decide, by decide⟩, by decide, ⟨by decide, by decide, by decide, .inl rfl, by decide⟩, by decide +kernel⟩

example : (init (Ex.world.with [99] (some [97, 98, 61, 61, 10])) [99] ⟨0, []⟩ noMessage).map
    (fun r => lastError r.2.2.2) = .ok ([67, 111, 114, 114, 117, 112, 116, 105, 111, 110, 58, 32, 86, 97, 108, 117,
  101, 32, 99, 111, 117, 110, 100, 32, 110, 111, 116, 32, 98, 101, 32, 101, 109, 112, 116, 121, 58, 32,
  99]) := by decide +kernel

/-! ## The configuration is read -/

/-- **C89.**  When `ce_stt_init` fails though the configuration is one, the text is that of a true cause: see `Report`.
The first 2047 bytes of it are shown, or those before a NUL in a name.

Missing for the full property: the name of the configuration for three of the keys and the name of the file for the texts
of `Mute`, for which the claim is false, see `C89_configuration_not_named` and `C89_file_not_named`. -/
theorem C89_report_partial (w : World G) (conf bytes : Str) (defs : List (Str × Str)) (h h' : Heap) (buf buf' : Str)
    (p : Ptr (Self G)) (c : Code) (hb : buf.length = 2048) (hf : w.file conf = some bytes) (hc : IsConf bytes defs)
    (hi : init w conf h buf = .ok (p, h', some c, buf')) :
    p = none ∧ ∃ t, Report w conf defs c t ∧ lastError buf' = shown t := by
  obtain ⟨cf, hr, hk⟩ := readConf_knows hf hc
  have hr' : readConf w conf = .ok cf := forget_eq_ok ((forget_readConf w conf).trans hr)
  unfold init at hi
  simp only [hr'] at hi
  obtain ⟨⟨o, h1, s⟩, e1, e2⟩ := bind_ok hi
  rcases o with _ | ⟨c', t⟩
  · cases e2
  · obtain ⟨a1, a2, _, a4⟩ := initFailed_shown hb e2
    cases a2
    exact ⟨a1, t, reports_loadAll hk _ _ _ _ _ e1, a4⟩

/-- The example directory without the file of the priors. -/
example : (init (Ex.world.with [100, 47, 112] none) [100, 47, 99] ⟨0, []⟩ noMessage).map
      (fun r => (r.1.isNone, r.2.2.1, lastError r.2.2.2)) = .ok (true, some .io, [73, 79, 69, 114, 114, 111, 114, 58,
  32, 85, 110, 97, 98, 108, 101, 32, 116, 111, 32, 111, 112, 101, 110, 32, 100, 47, 112]) := by
  decide +kernel

/-- The example directory with another network, a file of three bytes. -/
example : (init (Ex.world.with [100, 47, 110] (some [1, 2, 3])) [100, 47, 99] ⟨0, []⟩ noMessage).map
      (fun r => (r.1.isNone, r.2.2.1, lastError r.2.2.2)) = .ok (true, some .io, [73, 79, 69, 114, 114, 111, 114, 58,
  32, 102, 97, 105, 108, 101, 100, 32, 116, 111, 32, 114, 101, 97, 100, 58, 32, 100, 47, 110]) := by
  decide +kernel

/-- **C89, what is missing is named.**  If what is there is well formed and something is missing, the answer is the null
pointer with a text that contains a key that is not defined or the name of a file that cannot be opened. -/
theorem C89_missing_is_named (w : World G) (conf bytes : Str) (defs : List (Str × Str)) (h : Heap) (buf : Str)
    (hb : buf.length = 2048) (hf : w.file conf = some bytes) (hc : IsConf bytes defs) (hs : Sound w conf defs)
    (hm : ∃ c, Missing w conf defs c) :
    ∃ h' c buf' t, init w conf h buf = .ok (none, h', some c, buf') ∧ lastError buf' = shown t ∧
      ((c = .corruption ∧ ∃ k, Undefined defs k ∧ [39] ++ k ++ [39] <:+: t) ∨
        (c = .io ∧ ∃ k f, Names conf defs k f ∧ (w.file f = none ∨ w.readGraph f = none) ∧ f <:+: t)) := by
  obtain ⟨h', c, hi, _⟩ := (C66_missing_partial w conf bytes defs h hf hc hs).2 hm
  rw [← C89_same w conf h buf hb] at hi
  cases he : init w conf h buf with
  | error e => rw [he] at hi; cases hi
  | ok r =>
    obtain ⟨p, h1, o, buf'⟩ := r
    rw [he] at hi
    cases hi
    obtain ⟨_, t, hr, hl⟩ := C89_report_partial w conf bytes defs h _ buf buf' _ c hb hf hc he
    refine ⟨_, c, buf', t, rfl, hl, ?_⟩
    obtain ⟨cf, _, hk⟩ := readConf_knows hf hc
    have hpart : ∀ {k f : Str} {bs : List UInt8} {valid : List UInt8 → Prop}, Part w conf defs k valid →
        Names conf defs k f → w.file f = some bs → valid bs := by
      intro k f bs valid hp hn hb
      rcases hp with hu | ⟨g, hg, hv⟩
      · exact absurd hu (names_defined hk hn)
      · rw [names_unique hk hg hn] at hv
        exact hv bs hb
    have hpart' : ∀ {k : Str} {valid : List UInt8 → Prop}, Part w conf defs k valid → (∀ f, ¬ Names conf defs k f) →
        Undefined defs k := by
      intro k valid hp hn
      rcases hp with hu | ⟨g, hg, _⟩
      · exact hu
      · exact absurd hg (hn g)
    have hkey' : ∀ k : Str, [39] ++ k ++ [39] <:+: keyText k := fun k =>
      ⟨[67, 111, 114, 114, 117, 112, 116, 105, 111, 110, 58, 32, 85, 110, 97, 98, 108, 101, 32, 116, 111, 32, 102,
  105, 110, 100, 32, 107, 101, 121, 32], [32, 105, 110, 32], by simp [keyText]⟩
    have hkey : ∀ k rest : Str, [39] ++ k ++ [39] <:+: keyText k ++ rest := fun k rest =>
      ⟨[67, 111, 114, 114, 117, 112, 116, 105, 111, 110, 58, 32, 85, 110, 97, 98, 108, 101, 32, 116, 111, 32, 102,
  105, 110, 100, 32, 107, 101, 121, 32], [32, 105, 110, 32] ++ rest, by simp [keyText]⟩
    cases hr with
    | graphKey hn =>
      refine .inl ⟨rfl, _, ?_, hkey' _⟩
      rcases hs.fst with hu | ⟨f, hf⟩
      · exact hu
      · exact absurd hf (hn f)
    | graph hn hg => exact .inr ⟨rfl, _, _, hn, .inr hg, [73, 79, 69, 114, 114, 111, 114, 58, 32], [], by simp⟩
    | @key k hm hn =>
      refine .inl ⟨rfl, k, ?_, by
        have := hkey k ([39] ++ conf ++ [39])
        simpa only [List.append_assoc] using this⟩
      simp only [List.mem_cons, List.not_mem_nil, or_false] at hm
      rcases hm with rfl | rfl | rfl
      · exact hpart' hs.nnet hn
      · exact hpart' hs.prior hn
      · exact hpart' hs.map hn
    | @number k hm hn =>
      refine .inl ⟨rfl, k, ?_, by
        have := hkey k ([39] ++ conf ++ [39])
        simpa only [List.append_assoc] using this⟩
      rcases hs.number k hm with hu | ⟨n, hn'⟩
      · exact hu
      · exact absurd hn' (hn n)
    | symbolsKey hn => exact .inl ⟨rfl, _, hpart' hs.symbols hn, hkey' _⟩
    | originalKey _ hn => exact .inl ⟨rfl, _, hpart' hs.original hn, hkey' _⟩
    | file hm hn hx => exact .inr ⟨rfl, _, _, hn, .inl hx, [73, 79, 69, 114, 114, 111, 114, 58, 32, 85, 110, 97, 98,
  108, 101, 32, 116, 111, 32, 111, 112, 101, 110, 32], [], by simp⟩
    | @vector k f bs _ _ hm hn hx hv _ _ =>
      refine absurd ?_ hv
      simp only [List.mem_cons, List.not_mem_nil, or_false] at hm
      rcases hm with rfl | rfl | rfl
      · obtain ⟨v, junk, h1, _, h3⟩ := hpart hs.prior hn hx
        exact ⟨v, junk, h1, fun _ _ => trivial, h3⟩
      · exact hpart hs.map hn hx
      · exact hpart hs.original hn hx
    | network hn hx hv _ _ => exact absurd (hpart hs.nnet hn hx) hv
    | symbols hn hx hv _ _ => exact absurd (hpart hs.symbols hn hx) hv
    | large hn hx hv _ _ => exact absurd (hpart hs.large hn hx) hv

/-- The example directory without the file of the priors is sound, and that file is missing. -/
example : Sound (Ex.world.with [100, 47, 112] none) [100, 47, 99] Ex.defs ∧
    Missing (Ex.world.with [100, 47, 112] none) [100, 47, 99] Ex.defs .io :=
  have h := sound_of_installed Ex.installed Ex.model_ok (by intro h; cases h)
  ⟨sound_without h _, .file kPrior _ (by decide) (Ex.names_at 3 rfl (by decide) (by decide) (by decide)) rfl⟩

/-- **C89, which configuration is not told.**  When the graph is not named, the text is the same for every
configuration: it ends where the name should be. -/
theorem C89_configuration_not_named (w : World G) (conf bytes : Str) (defs : List (Str × Str)) (h : Heap) (buf : Str)
    (hb : buf.length = 2048) (hf : w.file conf = some bytes) (hc : IsConf bytes defs)
    (hn : ∀ f, ¬ Names conf defs [102, 115, 116] f) :
    ∃ h' buf', init w conf h buf = .ok (none, h', some .corruption, buf') ∧
      lastError buf' = [67, 111, 114, 114, 117, 112, 116, 105, 111, 110, 58, 32, 85, 110, 97, 98, 108, 101, 32, 116,
  111, 32, 102, 105, 110, 100, 32, 107, 101, 121, 32, 39, 102, 115, 116, 39, 32, 105, 110, 32] := by
  obtain ⟨cf, hr, hk⟩ := readConf_knows hf hc
  have hr' : readConf w conf = .ok cf := forget_eq_ok ((forget_readConf w conf).trans hr)
  obtain ⟨b, h1, _, h3⟩ := report_shown hb (keyText kFst)
  have ho : Owns h.new.2.live h.new.2 (Self.empty : Self G) := List.Perm.refl _
  obtain ⟨h4, h5, _⟩ := destroy_owns ho h.new.1
  have hg : readHclg w cf h.new.2 .empty = .ok (some (.corruption, keyText kFst), h.new.2, .empty) := by
    unfold readHclg
    rcases lookup_cases hk kFst with ⟨_, hd⟩ | ⟨f, hf⟩
    · rw [hd, ok_bind, if_pos rfl, ← keyFst_text]
      rfl
    · exact absurd hf (hn f)
  have hl : loadAll w cf h.new.2 = .ok (some (.corruption, keyText kFst), h.new.2, .empty) := by
    unfold loadAll
    rw [hg]
    rfl
  refine ⟨h4, b, ?_, h3.trans (by decide +kernel)⟩
  unfold init
  simp only [hr', hl, ok_bind]
  unfold initFailed
  rw [h1, ok_bind, h5, ok_bind]

/-- A configuration `d/c` without definitions. -/
example : (Ex.world.with [100, 47, 99] (some (Ex.confOf []))).file [100, 47, 99] = some (Ex.confOf []) ∧
    IsConf (Ex.confOf []) [] ∧ ∀ f, ¬ Names [100, 47, 99] [] [102, 115, 116] f := by
  refine ⟨by decide +kernel, Ex.isConf (by simp), ?_⟩
  rintro f ⟨v, ⟨pre, k, post, he, _⟩, _⟩
  simp at he

/-- **C89, which file is not told.**  A symbol table without the sentence symbols is reported without its name. -/
theorem C89_file_not_named :
    (init (Ex.world.with [100, 47, 115] (some [97, 32, 48, 10])) [100, 47, 99] ⟨0, []⟩ noMessage).map
      (fun r => (r.1.isNone, r.2.2.1, lastError r.2.2.2)) =
      .ok (true, some .corruption, [67, 111, 114, 114, 117, 112, 116, 105, 111, 110, 58, 32, 115, 121, 109, 98, 111,
  108, 95, 116, 97, 98, 108, 101, 58, 32, 117, 110, 97, 98, 108, 101, 32, 116, 111, 32, 102, 105, 110, 100, 32, 66,
  79, 83, 47, 69, 79, 83, 32, 115, 121, 109, 98, 111, 108]) := by decide +kernel

end Verif.Msg
