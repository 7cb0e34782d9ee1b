import Verif.SayModel
import Verif.SaySpec
import Verif.MsgReport
import Verif.ApiAlone
import Verif.PcmHeader
import Verif.MsgProps

/-!
# Lemmas about the texts of failed calls
-/

namespace Verif.Msg

open Verif Verif.Text Verif.App Verif.App.Spec Verif.Msg.Spec Verif.Api Verif.Pcm.Spec

variable {G F D α β : Type}

/-! ## Numbers -/

theorem decVal_concat (s : Str) (c : UInt8) : decVal (s ++ [c]) = decVal s * 10 + (c.toNat - 48) := by
  unfold decVal
  rw [List.foldl_append]
  rfl

theorem digit_toNat {n : Nat} (h : n < 10) : (UInt8.ofNat (48 + n)).toNat = 48 + n := by
  rw [UInt8.toNat_ofNat']
  omega

theorem digit_range {n : Nat} (h : n < 10) : 48 ≤ UInt8.ofNat (48 + n) ∧ UInt8.ofNat (48 + n) ≤ 57 := by
  rw [UInt8.le_iff_toNat_le, UInt8.le_iff_toNat_le, digit_toNat h]
  have h1 : (48 : UInt8).toNat = 48 := rfl
  have h2 : (57 : UInt8).toNat = 57 := rfl
  rw [h1, h2]
  omega

theorem natText_decimal (n : Nat) : Decimal (natText n) n ∧ (n ≠ 0 → (natText n).head? ≠ some 48) := by
  induction n using Nat.strongRecOn with
  | _ n ih =>
    rw [natText]
    split
    · rename_i h
      refine ⟨⟨by simp, ?_, ?_, ?_⟩, ?_⟩
      · intro c hc
        rw [List.mem_singleton.1 hc]
        exact digit_range h
      · by_cases h0 : n = 0
        · exact .inl (by rw [h0]; rfl)
        · right
          intro he
          have := congrArg (Option.map UInt8.toNat) he
          simp only [List.head?_cons, Option.map_some, digit_toNat h, Option.some.injEq] at this
          have h2 : (48 : UInt8).toNat = 48 := rfl
          omega
      · have := decVal_concat [] (UInt8.ofNat (48 + n))
        rw [List.nil_append, digit_toNat h] at this
        rw [this]
        show 0 * 10 + (48 + n - 48) = n
        omega
      · intro h0 he
        have := congrArg (Option.map UInt8.toNat) he
        simp only [List.head?_cons, Option.map_some, digit_toNat h, Option.some.injEq] at this
        have h2 : (48 : UInt8).toNat = 48 := rfl
        omega
    · rename_i h
      obtain ⟨⟨h1, h2, h3, h4⟩, h5⟩ := ih (n / 10) (by omega)
      have h6 := h5 (by omega)
      have hm : n % 10 < 10 := by omega
      have hh : (natText (n / 10) ++ [UInt8.ofNat (48 + n % 10)]).head? ≠ some 48 := by
        cases ht : natText (n / 10) with
        | nil => exact absurd ht h1
        | cons a l =>
          rw [ht] at h6
          exact h6
      refine ⟨⟨by simp, ?_, .inr hh, ?_⟩, fun _ => hh⟩
      · intro c hc
        rcases List.mem_append.1 hc with hc | hc
        · exact h2 c hc
        · rw [List.mem_singleton.1 hc]
          exact digit_range hm
      · rw [decVal_concat, h4, digit_toNat hm]
        omega

theorem intText_numeral (x : Int) : Numeral x (intText x) := by
  unfold intText
  split
  · rename_i h
    right
    refine ⟨h, _, rfl, ?_⟩
    rw [show (-x).toNat = x.natAbs by omega]
    exact (natText_decimal _).1
  · left
    refine ⟨by omega, ?_⟩
    rw [show x.toNat = x.natAbs by omega]
    exact (natText_decimal _).1

theorem intText_noBrace (x : Int) : 123 ∉ intText x := by
  have hd : ∀ n, 123 ∉ natText n := by
    intro n h
    exact absurd ((natText_decimal n).1.2.1 _ h).2 (by decide)
  unfold intText
  split
  · intro h
    rcases List.mem_cons.1 h with h | h
    · exact absurd h (by decide)
    · exact hd _ h
  · exact hd _

/-! ## Texts -/

/-- One place, and an argument without braces: nothing else is put in. -/
theorem format_one (p q a : Str) (hp : 123 ∉ p) (hq : 123 ∉ q) (ha : 123 ∉ a) (args : List Str) :
    format (p ++ 123 :: 125 :: q) (a :: args) = p ++ a ++ q := by
  rw [format_first _ _ _ _ hp, format_none]
  simp only [List.mem_append, not_or]
  exact ⟨⟨hp, ha⟩, hq⟩

theorem format_two (p q r a b : Str) (hp : 123 ∉ p) (hq : 123 ∉ q) (hr : 123 ∉ r) (ha : 123 ∉ a) (hb : 123 ∉ b)
    (args : List Str) :
    format (p ++ 123 :: 125 :: (q ++ 123 :: 125 :: r)) (a :: b :: args) = p ++ a ++ q ++ b ++ r := by
  rw [format_first _ _ _ _ hp, ← List.append_assoc, format_one _ _ _ _ hr hb]
  simp only [List.mem_append, not_or]
  exact ⟨⟨hp, ha⟩, hq⟩

theorem format_three (p q r s a b c : Str) (hp : 123 ∉ p) (hq : 123 ∉ q) (hr : 123 ∉ r) (hs : 123 ∉ s) (ha : 123 ∉ a)
    (hb : 123 ∉ b) (hc : 123 ∉ c) (args : List Str) :
    format (p ++ 123 :: 125 :: (q ++ 123 :: 125 :: (r ++ 123 :: 125 :: s))) (a :: b :: c :: args) =
      p ++ a ++ q ++ b ++ r ++ c ++ s := by
  rw [format_first _ _ _ _ hp, ← List.append_assoc, format_two _ _ _ _ _ _ hr hs hb hc]
  simp only [List.mem_append, not_or]
  exact ⟨⟨hp, ha⟩, hq⟩

/-- The first braces are replaced. -/
theorem format_braces (p q a : Str) (args : List Str) (hp : ¬ [123, 125] <:+: p) :
    format (p ++ 123 :: 125 :: q) (a :: args) = format (p ++ a ++ q) args := by
  have hf : ∀ p : Str, ¬ [123, 125] <:+: p → find [123, 125] (p ++ 123 :: 125 :: q) = some p.length := by
    intro p
    induction p with
    | nil =>
      intro _
      show (if startsWith [123, 125] (123 :: 125 :: q) = true then some 0 else _) = _
      rw [if_pos ((startsWith_braces _).2 ⟨q, rfl⟩)]
      rfl
    | cons c p ih =>
      intro h
      show (if startsWith [123, 125] (c :: (p ++ 123 :: 125 :: q)) = true then some 0 else
        (find [123, 125] (p ++ 123 :: 125 :: q)).map (· + 1)) = _
      rw [if_neg, ih fun ⟨u, v, e⟩ => h ⟨c :: u, v, by rw [← e]; simp⟩]
      · rfl
      · intro hs
        obtain ⟨r, hr⟩ := (startsWith_braces _).1 hs
        obtain ⟨hc, hr⟩ := List.cons.inj hr
        cases p with
        | nil => exact absurd (List.cons.inj hr).1 (by decide)
        | cons d p =>
          exact h ⟨[], p, by rw [hc, (List.cons.inj hr).1]; rfl⟩
  show (match find [123, 125] (p ++ 123 :: 125 :: q) with
    | some pos => format (replace2 (p ++ 123 :: 125 :: q) pos a) args
    | none => format (p ++ 123 :: 125 :: q) args) = _
  rw [hf p hp]
  show format (replace2 (p ++ 123 :: 125 :: q) p.length a) args = _
  unfold replace2
  rw [List.take_left' rfl, ← List.drop_drop, List.drop_left' rfl]
  rfl

/-- The first of several braces. -/
theorem braces_first {s : Str} (h : [123, 125] <:+: s) : ∃ a b, s = a ++ 123 :: 125 :: b ∧ ¬ [123, 125] <:+: a := by
  induction s with
  | nil =>
    obtain ⟨u, v, e⟩ := h
    simp at e
  | cons c s ih =>
    by_cases hs : ∃ r, c :: s = 123 :: 125 :: r
    · obtain ⟨r, hr⟩ := hs
      refine ⟨[], r, hr, ?_⟩
      rintro ⟨u, v, e⟩
      simp at e
    · obtain ⟨u, v, e⟩ := h
      cases u with
      | nil => exact absurd ⟨v, by simpa using e.symm⟩ hs
      | cons d u =>
        obtain ⟨hd, e⟩ := List.cons.inj e
        obtain ⟨a, b, e1, e2⟩ := ih ⟨u, v, e⟩
        subst hd
        refine ⟨d :: a, b, by rw [e1]; rfl, ?_⟩
        rintro ⟨u', v', e'⟩
        cases u' with
        | nil =>
          refine hs ⟨v' ++ 123 :: 125 :: b, ?_⟩
          rw [e1, ← List.cons_append, ← e']
          simp
        | cons _ u' => exact e2 ⟨u', v', (List.cons.inj e').2⟩

/-! ## The status without the text -/

theorem forget_setFormat (r : Pcm.Reader) (f : Pcm.Format) : forget (setFormat r f) = r.setFormat f := by
  unfold setFormat Pcm.Reader.setFormat
  rw [forget_ite, forget_ite, forget_ite]
  rfl

theorem forget_readerProcess (conv : Int → F) (r : Pcm.Reader) (data : Option (List UInt8)) (size : Int) :
    forget (readerProcess conv r data size) = r.process conv data size := by
  unfold readerProcess Pcm.Reader.process
  cases data with
  | none => rfl
  | some mem =>
    dsimp only
    rw [forget_ite, forget_ite, forget_ite, forget_bind, forget_ofExec]
    rfl

theorem plain_readI16 : Plain readI16 Verif.readI16 := (plain_readBytes 2).bind fun _ => .pure _

theorem plain_checkRates (ch rate br ba bits : Int) :
    Plain (checkRates ch rate br ba bits) (Pcm.checkRates ch rate br ba bits) := by
  unfold checkRates Pcm.checkRates
  cases i32 (rate * bits) with
  | error f => exact .fault f
  | ok m =>
    exact .ite (.fail _ _) (.ite (.fail _ _) ((plain_readTag _).bind fun _ => plain_readI32.bind fun _ => .pure _))

theorem plain_readPcmHeader : Plain readPcmHeader Pcm.readPcmHeader :=
  (plain_readTag _).bind fun _ => plain_readI32.bind fun _ => (plain_readTag _).bind fun _ =>
    (plain_readTag _).bind fun _ => plain_readI32.bind fun _ => .ite (.fail _ _) <|
      plain_readI16.bind fun _ => .ite (.fail _ _) <| plain_readI16.bind fun _ => plain_readI32.bind fun _ =>
        plain_readI32.bind fun _ => plain_readI16.bind fun _ => plain_readI16.bind fun _ => plain_checkRates _ _ _ _ _

/-- What the buffer shows after a call that may fail. -/
theorem saying_cases {buf : Str} (hb : buf.length = 2048) (r : Mio α) :
    ∃ buf', saying buf r = .ok buf' ∧ buf'.length = 2048 ∧
      (∀ c t, r = .error (.status c t) → lastError buf' = shown t) ∧
      ((∀ c t, r ≠ .error (.status c t)) → buf' = buf) := by
  rcases r with (⟨c, t⟩ | f) | a
  · obtain ⟨b, h1, h2, h3⟩ := report_shown hb t
    exact ⟨b, h1, h2, fun c' t' he => by cases he; exact h3, fun h => absurd rfl (h c t)⟩
  · exact ⟨buf, rfl, hb, (fun c t he => by cases he), fun _ => rfl⟩
  · exact ⟨buf, rfl, hb, (fun c t he => by cases he), fun _ => rfl⟩

/-! ## The texts of `ce_utt_init` and `ce_stt_process` -/

theorem setFormat_told {w : World G} {r : Pcm.Reader} {f : Pcm.Format} {c : Code} {t : Str}
    (h : setFormat r f = .error (.status c t)) (p : Option Nat) : Told w (.uttInit p f : Call F) t := by
  unfold setFormat at h
  split at h
  · rename_i hc
    cases h
    rw [show tChannels = [110, 117, 109, 95, 99, 104, 97, 110, 110, 101, 108, 115, 32, 61, 32] ++ 123 :: 125 :: [32,
  110, 111, 116, 32, 115, 117, 112, 112, 111, 114, 116, 101, 100] from rfl,
      format_one _ _ _ (by decide) (by decide) (intText_noBrace _)]
    exact .channels hc (intText_numeral _)
  · split at h
    · rename_i hc
      cases h
      rw [show tRate = [115, 97, 109, 112, 108, 101, 95, 114, 97, 116, 101, 32, 61, 32] ++ 123 :: 125 :: [32, 110,
  111, 116, 32, 115, 117, 112, 112, 111, 114, 116, 101, 100] from rfl,
        format_one _ _ _ (by decide) (by decide) (intText_noBrace _)]
      exact .rate hc (intText_numeral _)
    · split at h
      · cases h
      · rename_i hc
        cases h
        rw [show tBits = [98, 105, 116, 115, 95, 112, 101, 114, 95, 115, 97, 109, 112, 108, 101, 32, 61, 61, 32, 56,
  44, 32, 49, 54, 32, 111, 114, 32, 51, 50, 32, 101, 120, 112, 101, 99, 116, 101, 100, 44, 32, 98, 117, 116,
  32] ++ 123 :: 125 :: [32, 102, 111, 117, 110, 100] from rfl,
          format_one _ _ _ (by decide) (by decide) (intText_noBrace _)]
        exact .bits (by simpa using hc) (intText_numeral _)

theorem readerProcess_told {w : World G} {conv : Int → F} {r : Pcm.Reader} (hr : r.ready = true)
    {data : Option (List UInt8)} {size : Int} {c : Code} {t : Str}
    (h : readerProcess conv r data size = .error (.status c t)) (u : Option Nat) (mem : Stt.Mem F) :
    Told w (.process u mem data size) t := by
  unfold readerProcess at h
  cases data with
  | none =>
    cases h
    exact .noBuffer
  | some bs =>
    dsimp only at h
    split at h
    · rename_i hs
      cases h
      rw [show tSize = [117, 110, 101, 120, 112, 101, 99, 116, 101, 100, 32, 115, 105, 122, 101, 58,
  32] ++ 123 :: 125 :: [] from rfl,
        format_one _ _ _ (by decide) (by decide) (intText_noBrace _), List.append_nil]
      exact .size hs (intText_numeral _)
    · rw [hr] at h
      split at h
      · rename_i h0
        cases h0
      · split at h
        · cases h
        · exfalso
          cases hd : Pcm.decodeBuffer conv r.format.bits (r.buffer ++ bs.take size.toNat) with
          | error e => rw [hd] at h; cases h
          | ok x => rw [hd] at h; cases h

/-! ## The text of `ce_read_pcm_header` -/

theorem bytes_at {file : List UInt8} {o n : Nat} (hn : n ≠ 0) (h : o + n ≤ file.length) (name : Str) :
    readBytes n name (file.drop o) = .ok (field file o n, file.drop (o + n)) := by
  unfold readBytes
  rw [if_neg (by rw [List.length_drop]; omega), List.drop_drop]
  rfl

theorem bytes_short {file : List UInt8} {o n : Nat} (h : file.length < o + n) (ho : o + n ≤ 44) :
    Says (fun _ t => HeaderText file t) (readBytes n [] (file.drop o)) := by
  unfold readBytes
  split
  · refine .failed ?_
    exact .short (by omega)
  · exact .ok _

/-- A reader at offset `o` of a file says what is true of the file, and continues at `o'`. -/
def HeadAt (file : List UInt8) (o : Nat) (p : Rm α) : Prop := Says (fun _ t => HeaderText file t) (p [] (file.drop o))

theorem HeadAt.bytes {file : List UInt8} {o n : Nat} {k : List UInt8 → Rm β} (hn : n ≠ 0) (ho : o + n ≤ 44)
    (hk : o + n ≤ file.length → HeadAt file (o + n) (k (field file o n))) : HeadAt file o (readBytes n >>= k) := by
  show Says _ (readBytes n [] (file.drop o) >>= fun x => k x.1 [] x.2)
  by_cases h : o + n ≤ file.length
  · rw [bytes_at hn h]
    exact hk h
  · refine (bytes_short (by omega) ho).bind fun x hx => ?_
    unfold readBytes at hx
    rw [if_pos (by rw [List.length_drop]; omega)] at hx
    cases hx

theorem Rm.bind_assoc {γ : Type} (p : Rm α) (q : α → Rm β) (r : β → Rm γ) :
    (p >>= q >>= r) = (p >>= fun a => q a >>= r) := by
  funext name bs
  show ((p name bs >>= fun x => q x.1 name x.2) >>= fun y => r y.1 name y.2) =
    (p name bs >>= fun x => q x.1 name x.2 >>= fun y => r y.1 name y.2)
  cases p name bs <;> rfl

theorem HeadAt.i32 {file : List UInt8} {o : Nat} {k : Int → Rm β} (ho : o + 4 ≤ 44)
    (hk : o + 4 ≤ file.length → HeadAt file (o + 4) (k (signed 4 (field file o 4)))) :
    HeadAt file o (readI32 >>= k) := by
  unfold readI32
  rw [Rm.bind_assoc]
  refine .bytes (by decide) ho fun h => ?_
  have := hk h
  rw [Pcm.signed4_eq (Pcm.field_length h)] at this
  exact this

theorem HeadAt.i16 {file : List UInt8} {o : Nat} {k : Int → Rm β} (ho : o + 2 ≤ 44)
    (hk : o + 2 ≤ file.length → HeadAt file (o + 2) (k (signed 2 (field file o 2)))) :
    HeadAt file o (readI16 >>= k) := by
  unfold readI16
  rw [Rm.bind_assoc]
  refine .bytes (by decide) ho fun h => ?_
  have := hk h
  rw [Pcm.signed2_eq (Pcm.field_length h)] at this
  exact this

theorem noBraces_append {p s : Str} (hp : 123 ∉ p) (hs : ¬ [123, 125] <:+: s) : ¬ [123, 125] <:+: p ++ s := by
  induction p with
  | nil => exact hs
  | cons c p ih =>
    rintro ⟨u, v, e⟩
    cases u with
    | nil => exact hp (by rw [← (List.cons.inj e).1]; exact List.mem_cons_self)
    | cons d u => exact ih (fun h => hp (List.mem_cons_of_mem _ h)) ⟨u, v, (List.cons.inj e).2⟩

theorem noBraces_append' {p s : Str} (hp : ¬ [123, 125] <:+: p) (hs : 123 ∉ s) (hh : s.head? ≠ some 125) :
    ¬ [123, 125] <:+: p ++ s := by
  induction p with
  | nil =>
    have := noBraces_append (p := s) (s := []) hs (by rintro ⟨u, v, e⟩; simp at e)
    simpa using this
  | cons c p ih =>
    rintro ⟨u, v, e⟩
    cases u with
    | nil =>
      obtain ⟨hc, e⟩ := List.cons.inj e
      cases p with
      | nil =>
        apply hh
        rw [show s = 125 :: v from e.symm]
        rfl
      | cons d p =>
        exact hp ⟨[], p, by rw [← hc, ← (List.cons.inj e).1]; rfl⟩
    | cons d u =>
      exact ih (fun ⟨u, v, e⟩ => hp ⟨c :: u, v, by rw [← e]; simp⟩) ⟨u, v, (List.cons.inj e).2⟩

theorem tag_text {file : List UInt8} {o : Nat} {tag : Str} (hm : (o, tag) ∈ Spec.tags) (h : o + 4 ≤ file.length)
    (hne : field file o 4 ≠ tag) (hb : 123 ∉ tag) :
    HeaderText file (label .corruption ++ format tVerify [tag, cstr (field file o 4), []]) := by
  have hp : 123 ∉ [82, 101, 97, 100, 65, 110, 100, 86, 101, 114, 105, 102, 121, 83, 116, 114, 105, 110, 103, 58, 32,
  39] ++ tag ++ [39, 32, 101, 120, 112, 101, 99, 116, 101, 100, 32, 98, 117, 116, 32, 39] := by
    simp only [List.mem_append, not_or]
    exact ⟨⟨by decide, hb⟩, by decide⟩
  have e1 : format tVerify [tag, cstr (field file o 4), []] =
      format ([82, 101, 97, 100, 65, 110, 100, 86, 101, 114, 105, 102, 121, 83, 116, 114, 105, 110, 103, 58, 32,
  39] ++ tag ++ [39, 32, 101, 120, 112, 101, 99, 116, 101, 100, 32, 98, 117, 116, 32,
  39] ++ (cstr (field file o 4) ++ [39, 32, 102, 111, 117, 110, 100, 32, 105, 110, 32, 123, 125])) [[]] := by
    rw [show tVerify = [82, 101, 97, 100, 65, 110, 100, 86, 101, 114, 105, 102, 121, 83, 116, 114, 105, 110, 103, 58,
  32, 39] ++ 123 :: 125 :: [39, 32, 101, 120, 112, 101, 99, 116, 101, 100, 32, 98, 117, 116, 32, 39, 123, 125, 39, 32,
  102, 111, 117, 110, 100, 32, 105, 110, 32, 123, 125] from rfl,
      format_first _ _ _ _ (by decide),
      show [82, 101, 97, 100, 65, 110, 100, 86, 101, 114, 105, 102, 121, 83, 116, 114, 105, 110, 103, 58, 32,
  39] ++ tag ++ [39, 32, 101, 120, 112, 101, 99, 116, 101, 100, 32, 98, 117, 116, 32, 39, 123, 125, 39, 32, 102, 111,
  117, 110, 100, 32, 105, 110, 32, 123, 125] =
        ([82, 101, 97, 100, 65, 110, 100, 86, 101, 114, 105, 102, 121, 83, 116, 114, 105, 110, 103, 58, 32,
  39] ++ tag ++ [39, 32, 101, 120, 112, 101, 99, 116, 101, 100, 32, 98, 117, 116, 32, 39]) ++ 123 :: 125 :: [39, 32,
  102, 111, 117, 110, 100, 32, 105, 110, 32, 123, 125] by
          simp only [List.append_assoc]; rfl, format_first _ _ _ _ hp, List.append_assoc _ (cstr (field file o 4))]
  rw [e1]
  by_cases hc : [123, 125] <:+: cstr (field file o 4)
  · obtain ⟨a, b, e, ha⟩ := braces_first hc
    have := format_braces ([82, 101, 97, 100, 65, 110, 100, 86, 101, 114, 105, 102, 121, 83, 116, 114, 105, 110, 103,
  58, 32, 39] ++ tag ++ [39, 32, 101, 120, 112, 101, 99, 116, 101, 100, 32, 98, 117, 116, 32, 39] ++ a) (b ++ [39, 32,
  102, 111, 117, 110, 100, 32, 105, 110, 32, 123, 125]) [] []
      (noBraces_append hp ha)
    rw [e, show [82, 101, 97, 100, 65, 110, 100, 86, 101, 114, 105, 102, 121, 83, 116, 114, 105, 110, 103, 58, 32,
  39] ++ tag ++ [39, 32, 101, 120, 112, 101, 99, 116, 101, 100, 32, 98, 117, 116, 32,
  39] ++ ((a ++ 123 :: 125 :: b) ++ [39, 32, 102, 111, 117, 110, 100, 32, 105, 110, 32, 123, 125]) =
      [82, 101, 97, 100, 65, 110, 100, 86, 101, 114, 105, 102, 121, 83, 116, 114, 105, 110, 103, 58, 32,
  39] ++ tag ++ [39, 32, 101, 120, 112, 101, 99, 116, 101, 100, 32, 98, 117, 116, 32,
  39] ++ a ++ 123 :: 125 :: (b ++ [39, 32, 102, 111, 117, 110, 100, 32, 105, 110, 32, 123, 125]) by
        simp only [List.append_assoc, List.cons_append], this]
    have := HeaderText.braces (a := a) (b := b) hm h hne (by
      simp only [cstr] at e
      rw [e]
      simp)
    simp only [label, format, List.append_assoc, List.append_nil, List.nil_append] at this ⊢
    exact this
  · have hn : ¬ [123, 125] <:+: ([82, 101, 97, 100, 65, 110, 100, 86, 101, 114, 105, 102, 121, 83, 116, 114, 105, 110,
  103, 58, 32, 39] ++ tag ++ [39, 32, 101, 120, 112, 101, 99, 116, 101, 100, 32, 98, 117, 116, 32, 39]) ++
        (cstr (field file o 4) ++ [39, 32, 102, 111, 117, 110, 100, 32, 105, 110, 32]) :=
      noBraces_append hp (noBraces_append' hc (by decide) (by decide))
    have := format_braces (_ ++ (cstr (field file o 4) ++ [39, 32, 102, 111, 117, 110, 100, 32, 105, 110,
  32])) [] [] [] hn
    rw [show [82, 101, 97, 100, 65, 110, 100, 86, 101, 114, 105, 102, 121, 83, 116, 114, 105, 110, 103, 58, 32,
  39] ++ tag ++ [39, 32, 101, 120, 112, 101, 99, 116, 101, 100, 32, 98, 117, 116, 32,
  39] ++ (cstr (field file o 4) ++ [39, 32, 102, 111, 117, 110, 100, 32, 105, 110, 32, 123, 125]) =
      ([82, 101, 97, 100, 65, 110, 100, 86, 101, 114, 105, 102, 121, 83, 116, 114, 105, 110, 103, 58, 32,
  39] ++ tag ++ [39, 32, 101, 120, 112, 101, 99, 116, 101, 100, 32, 98, 117, 116, 32,
  39]) ++ (cstr (field file o 4) ++ [39, 32, 102, 111, 117, 110, 100, 32, 105, 110, 32]) ++
        123 :: 125 :: [] by simp only [List.append_assoc]; rfl, this]
    have := HeaderText.tag hm h hne hc
    simp only [label, format, List.append_assoc, List.append_nil, cstr] at this ⊢
    exact this

theorem HeadAt.tag {file : List UInt8} {o : Nat} {tag : Str} {k : Unit → Rm β} (hm : (o, tag) ∈ Spec.tags)
    (hl : tag.length = 4) (h0 : 0 ∉ tag) (hb : 123 ∉ tag) (ho : o + 4 ≤ 44)
    (hk : o + 4 ≤ file.length → HeadAt file (o + 4) (k ())) : HeadAt file o (readTag tag >>= k) := by
  unfold readTag
  rw [Rm.bind_assoc, hl]
  refine .bytes (by decide) ho fun h => ?_
  by_cases hc : cstr (field file o 4) = tag
  · rw [if_pos hc]
    exact hk h
  · rw [if_neg hc]
    refine Says.bind (.failed ?_) fun _ he => by cases he
    refine tag_text hm h (fun he => hc ?_) hb
    rw [he]
    exact (cstr_eq h0 rfl).mpr rfl

theorem HeadAt.fail {file : List UInt8} {o : Nat} {c : Code} {t : Str → Str}
    (h : HeaderText file (label c ++ t [])) : HeadAt file o (Rm.fail c t : Rm α) := .failed h

theorem header_text (file : List UInt8) : Says (fun _ t => HeaderText file t) (readPcmHeader [] file) := by
  show HeadAt file 0 readPcmHeader
  unfold readPcmHeader
  refine .tag (by decide) rfl (by decide) (by decide) (by omega) fun _ => ?_
  refine .i32 (by omega) fun _ => ?_
  refine .tag (by decide) rfl (by decide) (by decide) (by omega) fun _ => ?_
  refine .tag (by decide) rfl (by decide) (by decide) (by omega) fun _ => ?_
  refine .i32 (by omega) fun h20 => ?_
  by_cases h1 : signed 4 (field file (0 + 4 + 4 + 4 + 4) 4) ≠ 16
  · rw [if_pos h1]
    refine .fail ?_
    rw [show tSubchunk = [115, 117, 98, 99, 104, 117, 110, 107, 49, 95, 115, 105, 122, 101, 32, 61, 61, 32, 49, 54,
  32, 101, 120, 112, 101, 99, 116, 101, 100, 44, 32, 98, 117, 116, 32] ++ 123 :: 125 :: ([32, 102, 111, 117, 110, 100,
  58, 32] ++ 123 :: 125 :: []) from rfl,
      format_two _ _ _ _ _ (by decide) (by decide) (by decide) (intText_noBrace _) (by decide), List.append_nil,
      List.append_nil]
    exact .size h20 h1 (intText_numeral _)
  rw [if_neg h1]
  refine .i16 (by omega) fun h22 => ?_
  by_cases h2 : signed 2 (field file (0 + 4 + 4 + 4 + 4 + 4) 2) ≠ 1
  · rw [if_pos h2]
    refine .fail ?_
    rw [show tAudio = [97, 117, 100, 105, 111, 95, 102, 111, 114, 109, 97, 116, 32, 61, 61, 32, 49, 32, 101, 120, 112,
  101, 99, 116, 101, 100, 44, 32, 98, 117, 116, 32] ++ 123 :: 125 :: ([32, 102, 111, 117, 110, 100, 58,
  32] ++ 123 :: 125 :: []) from rfl,
      format_two _ _ _ _ _ (by decide) (by decide) (by decide) (intText_noBrace _) (by decide), List.append_nil,
      List.append_nil]
    exact .pcm h22 h2 (intText_numeral _)
  rw [if_neg h2]
  refine .i16 (by omega) fun _ => .i32 (by omega) fun _ => .i32 (by omega) fun _ => .i16 (by omega) fun _ =>
    .i16 (by omega) fun h36 => ?_
  unfold checkRates
  by_cases hi : InI32 (signed 4 (field file 24 4) * signed 2 (field file 34 2))
  · rw [i32_of hi]
    dsimp only
    by_cases h3 : signed 4 (field file 28 4) ≠ (signed 4 (field file 24 4) * signed 2 (field file 34 2)).tdiv 8
    · rw [if_pos h3]
      refine .fail ?_
      rw [show tBytesRate = [98, 121, 116, 101, 115, 95, 114, 97, 116, 101, 32, 61, 61, 32] ++ 123 :: 125 :: ([32,
  101, 120, 112, 101, 99, 116, 101, 100, 44, 32, 98, 117, 116, 32] ++ 123 :: 125 :: ([32, 102, 111, 117, 110, 100, 58,
  32] ++
          123 :: 125 :: [])) from rfl, format_three _ _ _ _ _ _ _ (by decide) (by decide) (by decide) (by decide)
          (intText_noBrace _) (intText_noBrace _) (by decide), List.append_nil, List.append_nil]
      exact .rate h36 h3 (intText_numeral _) (intText_numeral _)
    rw [if_neg h3]
    by_cases h4 : signed 2 (field file 32 2) ≠ (signed 2 (field file 34 2)).tdiv 8
    · rw [if_pos h4]
      refine .fail ?_
      rw [show tBlockAlign = [98, 108, 111, 99, 107, 95, 97, 108, 105, 103, 110, 32, 61, 61,
  32] ++ 123 :: 125 :: ([32, 101, 120, 112, 101, 99, 116, 101, 100, 44, 32, 98, 117, 116, 32] ++ 123 :: 125 :: ([32,
  102, 111, 117, 110, 100, 58, 32] ++
          123 :: 125 :: [])) from rfl, format_three _ _ _ _ _ _ _ (by decide) (by decide) (by decide) (by decide)
          (intText_noBrace _) (intText_noBrace _) (by decide), List.append_nil, List.append_nil]
      exact .align h36 h4 (intText_numeral _) (intText_numeral _)
    rw [if_neg h4]
    refine .tag (by decide) rfl (by decide) (by decide) (by omega) fun _ => ?_
    exact .i32 (by omega) fun _ => .ok _
  · rw [i32_not hi]
    exact .fault _

/-! ## The text of `ce_stt_init` -/

/-- The text begins with the kind of error. -/
abbrev Kind (c : Code) (t : Str) : Prop := Labelled c t

theorem kind_open (w : World G) (f : Str) : Says Kind (openFile w f) :=
  says_openFile fun _ => by
    rw [← format_open]
    exact labelled _ (by decide)

theorem kind_key {key : Str} (c : Config) : Says Kind (keyNotFound c key : Mio α) := .failed (labelled _ (by decide))

theorem kind_readKey {w : World G} {c : Config} {key : Str} {p : Rm α} (hp : SaysRm (fun _ => Kind) p) :
    Says Kind (readKey w c key p) :=
  ((Says.ofExec _).bind fun _ _ => .ite (kind_key _) (.ok _)).bind fun _ _ => (kind_open _ _).bind fun _ _ =>
    (hp _ _).bind fun _ _ => .ok _

theorem kind_getInteger (c : Config) (key : Str) : Says Kind (getInteger c key) :=
  (Says.ofExec _).bind fun _ _ => .ite (kind_key _) (.ok _)

theorem kind_of_tells {p : Rm α} (h : SaysRm Tells p) : SaysRm (fun _ => Kind) p := h.imp fun _ _ _ h => h.1

theorem kind_of_tellsOr {p : Rm α} (h : SaysRm TellsOr p) : SaysRm (fun _ => Kind) p := h.imp fun _ _ _ h => h.1

theorem kind_amRead (w : World G) (c : Config) : Says Kind (amRead w c) :=
  (kind_readKey (kind_of_tellsOr says_readNnet)).bind fun _ _ =>
    (kind_readKey (kind_of_tells says_readVec)).bind fun _ _ => (Says.ofExec _).bind fun _ _ =>
      (kind_getInteger _ _).bind fun _ _ => (kind_getInteger _ _).bind fun _ _ => (kind_getInteger _ _).bind fun _ _ =>
        (kind_getInteger _ _).bind fun _ _ => (kind_readKey (kind_of_tells says_readVec)).bind fun _ _ =>
          (Says.ofExec _).bind fun _ _ => .ok _

theorem kind_symbolsRead (w : World G) (f : Str) : Says Kind (symbolsRead w f) :=
  (kind_open _ _).bind fun _ _ => ((says_symbolLoop f _ _ _).imp fun _ _ h => h.1).bind fun _ _ =>
    (says_findBosEos _ f).imp fun _ _ h => h.1

theorem kind_configLine (name : Str) (t : List (Str × Str)) (l : Str) : Says Kind (configLine name t l) := by
  unfold configLine
  refine (Says.ofExec _).bind fun l _ => .ite (.ok _) ((Says.ofExec _).bind fun fields _ => ?_)
  rcases fields with _ | ⟨k, _ | ⟨v, _ | ⟨c, r⟩⟩⟩
  · exact .failed (labelled _ (by decide))
  · exact .failed (labelled _ (by decide))
  · exact (Says.ofExec _).bind fun _ _ => (Says.ofExec _).bind fun _ _ =>
      .ite (.failed (labelled _ (by decide))) (.ok _)
  · exact .failed (labelled _ (by decide))

theorem kind_configLoop (name : Str) : ∀ (fuel : Nat) (f : File) (t : List (Str × Str)),
    Says Kind (configLoop name fuel f t)
  | 0, _, _ => .fault _
  | fuel + 1, f, t => by
    unfold configLoop
    refine .ite (.ok _) ?_
    rcases readLine f with ⟨(_ | l | _), f'⟩
    all_goals first
      | exact .ok _
      | exact .failed (labelled _ (by decide))
      | exact (kind_configLine _ _ _).bind fun _ _ => kind_configLoop name fuel _ _

theorem kind_readConf (w : World G) (name : Str) : Says Kind (readConf w name) :=
  (kind_open _ _).bind fun _ _ => (kind_configLoop _ _ _ _).bind fun _ _ => .ok _

theorem Reports.bind {P : Code → Str → Prop} {x : Exec α} {f : α → Exec (Stage G)} (hf : ∀ a, Reports P (f a)) :
    Reports P (x >>= f) := by
  intro c t h s he
  obtain ⟨a, _, h2⟩ := bind_ok he
  exact hf a c t h s h2

theorem Reports.ite {P : Code → Str → Prop} {q : Prop} [Decidable q] {x y : Exec (Stage G)} (hx : Reports P x)
    (hy : Reports P y) : Reports P (if q then x else y) := by split <;> assumption

theorem kind_loadAll (w : World G) (c : Config) (h : Heap) : Reports Kind (loadAll w c h) := by
  have hl : ∀ {c : Code} {t : Str} {h : Heap} {s : Self G}, c ≠ .runtime → Reports Kind (leave c t h s) :=
    fun hc => .leave (labelled _ hc)
  refine .andThen (.andThen (.andThen (.andThen ?_ fun h s => ?_) fun h s => ?_) fun h s => ?_) fun h s => .done _ _
  · unfold readHclg
    refine .bind fun name => .ite (hl (by decide)) ?_
    cases w.readGraph name with
    | none => exact hl (by decide)
    | some g => exact .done _ _
  · exact .settle (kind_amRead _ _) _ _ _
  · exact .bind fun name => .ite (hl (by decide)) (.settle (kind_symbolsRead _ _) _ _ _)
  · refine .bind fun large => .ite (.done _ _) (.bind fun original => .ite (hl (by decide)) ?_)
    refine .andThen (.andThen ?_ fun h s => ?_) fun h s => ?_
    · unfold readOriginal
      cases w.file original with
      | none => exact hl (by decide)
      | some bs =>
        exact .settle ((kind_of_tells says_readVec _ _).bind fun _ _ => .ofExec _) _ _ _
    · unfold readLarge
      cases w.file large with
      | none => exact hl (by decide)
      | some bs =>
        exact .settle ((kind_of_tellsOr says_fstRead _ _).bind fun _ _ => (Says.ofExec _).bind fun _ _ => .ok _) _ _ _
    · unfold newDelta
      intro c t h' s' he
      split at he <;> cases he

/-- A failed `ce_stt_init`. -/
theorem init_told {w : World G} {conf : Str} {h h' : Heap} {buf buf' : Str} {c : Option Code} (hb : buf.length = 2048)
    (hi : init w conf h buf = .ok (none, h', c, buf')) :
    (∃ c', c = some c') ∧ buf'.length = 2048 ∧
      ∃ t, Told w (.sttInit conf : Call F) t ∧ lastError buf' = shown t := by
  unfold init at hi
  rcases hr : readConf w conf with (⟨c', t⟩ | f) | cf
  · simp only [hr] at hi
    obtain ⟨_, e2, e3, e4⟩ := initFailed_shown hb hi
    refine ⟨⟨_, e2⟩, e3, t, .init ?_ ?_ ⟨_, kind_readConf w conf _ _ hr⟩, e4⟩
    · intro hf
      unfold readConf openFile at hr
      rw [hf] at hr
      cases hr
      exact format_open conf
    · intro bytes defs hf hc
      obtain ⟨cf, h1, _⟩ := readConf_knows hf hc
      rw [forget_eq_ok ((forget_readConf w conf).trans h1)] at hr
      cases hr
  · simp only [hr] at hi
    cases hi
  · simp only [hr] at hi
    obtain ⟨⟨o, h1, s⟩, e1, e2⟩ := bind_ok hi
    rcases o with _ | ⟨c', t⟩
    · cases e2
    · obtain ⟨_, a2, a3, a4⟩ := initFailed_shown hb e2
      refine ⟨⟨_, a2⟩, a3, t, .init ?_ ?_ ⟨_, kind_loadAll _ _ _ _ _ _ _ e1⟩, a4⟩
      · intro hf
        unfold readConf openFile at hr
        rw [hf] at hr
        cases hr
      · intro bytes defs hf hc
        obtain ⟨cf', h1, hk⟩ := readConf_knows hf hc
        rw [forget_eq_ok ((forget_readConf w conf).trans h1)] at hr
        cases hr
        exact ⟨c', reports_loadAll hk _ _ _ _ _ e1⟩

end Verif.Msg
