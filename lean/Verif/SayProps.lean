import Verif.SayRun
import Verif.ApiProps

/-!
# C90: what `ce_stt_last_error` tells in any program
-/

namespace Verif.Msg

open Verif Verif.Text Verif.App Verif.App.Spec Verif.Msg.Spec Verif.Api Verif.Api.Spec Verif.Pcm.Spec

variable {G F D : Type}

theorem ready_start : Ready (.start : Session G F) := by intro a x h; cases h

theorem noMessage_length : noMessage.length = 2048 := List.length_replicate ..

/-- **C90, the same program.**  Without the texts it is the program of C82: the answers and the faults are the same. -/
theorem C90_same (mach : Main.Machine G F D) (w : World G) (cs : List (Call F)) :
    (run mach w .start cs).map (fun r => (r.1, r.2.1)) = Api.run mach w .start cs := by
  obtain ⟨h1, h2⟩ := run_marks (mach := mach) (w := w) cs ready_start noMessage_length
  cases h : Api.run mach w .start cs with
  | error f =>
    rw [show run mach w .start cs = _ from h1 f h]
    rfl
  | ok y =>
    obtain ⟨xs, s⟩ := y
    obtain ⟨b, e, _⟩ := h2 xs s h
    rw [show run mach w .start cs = _ from e]
    rfl

/-- The program of C82 with two utterances. -/
example : (run Main.Ex.mach Main.Ex.world .start Ex.two).map (fun r => (r.1, lastError r.2.2)) =
    .ok (Ex.answers, [82, 117, 110, 116, 105, 109, 101, 69, 114, 114, 111, 114, 58, 32, 117, 110, 101, 120, 112, 101,
  99, 116, 101, 100, 32, 115, 105, 122, 101, 58, 32, 48]) := by decide +kernel

/-- **C90.**  Whatever a program has called, `ce_stt_last_error` shows the text of the last call that failed, and
nothing if none failed.  The text tells a cause that is true of what that call was given, with the numbers that were
wrong.

Missing for the full property: of a wrong block alignment the text shows another number, see
`C90_alignment_not_shown`; and of `ce_stt_init` what is missing in C89. -/
theorem C90_last_error_partial (mach : Main.Machine G F D) (w : World G) (cs : List (Call F)) (xs : List (Ret F))
    (s : Session G F) (buf : Str) (h : run mach w .start cs = .ok (xs, s, buf)) :
    LastTold w (cs.zip xs) (lastError buf) := by
  have hs : Api.run mach w .start cs = .ok (xs, s) := by
    rw [← C90_same, h]
    rfl
  obtain ⟨b, e, _, hor⟩ := (run_marks (mach := mach) (w := w) cs ready_start noMessage_length).2 xs s hs
  rw [show run mach w (.start, noMessage) cs = _ from h] at e
  cases e
  rcases hor with ⟨hn, rfl⟩ | h
  · exact .inl ⟨hn, by decide +kernel⟩
  · exact .inr h

/-- A program that fails four times and succeeds in between, and what it reads after each call. -/
def Ex.trouble : List (Call Int) :=
  [.sttInit [120], .sttInit Ex.dir, .uttInit (some 1) ⟨2, 16000, 16⟩, .uttInit (some 1) Stt.toyFormat,
    .process none (Stt.toyMem 1 7) none 3, .readHeader [82, 73, 70, 70]]

example : (List.range 7).map (fun n => (run Main.Ex.mach Main.Ex.world .start (Ex.trouble.take n)).map
      (fun r => lastError r.2.2)) =
    [.ok [], .ok [73, 79, 69, 114, 114, 111, 114, 58, 32, 85, 110, 97, 98, 108, 101, 32, 116, 111, 32, 111, 112, 101,
  110, 32, 120], .ok [73, 79, 69, 114, 114, 111, 114, 58, 32, 85, 110, 97, 98, 108, 101, 32, 116, 111, 32, 111, 112,
  101, 110, 32, 120],
      .ok [67, 111, 114, 114, 117, 112, 116, 105, 111, 110, 58, 32, 110, 117, 109, 95, 99, 104, 97, 110, 110, 101,
  108, 115, 32, 61, 32, 50, 32, 110, 111, 116, 32, 115, 117, 112, 112, 111, 114, 116, 101, 100], .ok [67, 111, 114,
  114, 117, 112, 116, 105, 111, 110, 58, 32, 110, 117, 109, 95, 99, 104, 97, 110, 110, 101, 108, 115, 32, 61, 32, 50,
  32, 110, 111, 116, 32, 115, 117, 112, 112, 111, 114, 116, 101, 100],
      .ok [117, 116, 116, 32, 105, 115, 32, 78, 85, 76, 76], .ok [73, 79, 69, 114, 114, 111, 114, 58, 32, 102, 97,
  105, 108, 101, 100, 32, 116, 111, 32, 114, 101, 97, 100, 58, 32]] := by
  decide +kernel

/-! ## The texts fit -/

theorem decVal_large {s : Str} (hd : ∀ c ∈ s, 48 ≤ c ∧ c ≤ 57) (hs : s ≠ []) (hh : s.head? ≠ some 48) :
    10 ^ (s.length - 1) ≤ decVal s := by
  obtain ⟨a, l, rfl⟩ : ∃ a l, s = a :: l := by
    cases s with
    | nil => exact absurd rfl hs
    | cons a l => exact ⟨a, l, rfl⟩
  have ha : 1 ≤ a.toNat - 48 := by
    have h1 := (hd a List.mem_cons_self).1
    rw [UInt8.le_iff_toNat_le] at h1
    have h2 : (48 : UInt8).toNat = 48 := rfl
    have h3 : a.toNat ≠ 48 := fun h => hh (by
      rw [List.head?_cons]
      congr
      exact UInt8.toNat.inj h)
    omega
  clear hd hs hh
  have key : ∀ (l : Str) (n : Nat), n * 10 ^ l.length ≤ l.foldl (fun n c => n * 10 + (c.toNat - 48)) n := by
    intro l
    induction l with
    | nil => intro n; simp
    | cons b l ih =>
      intro n
      refine Nat.le_trans ?_ (ih _)
      rw [List.length_cons, Nat.pow_succ, Nat.mul_comm (10 ^ l.length) 10, ← Nat.mul_assoc]
      exact Nat.mul_le_mul_right _ (Nat.le_add_right _ _)
  have := key l (0 * 10 + (a.toNat - 48))
  refine Nat.le_trans ?_ this
  rw [List.length_cons, Nat.add_sub_cancel]
  calc 10 ^ l.length = 1 * 10 ^ l.length := (Nat.one_mul _).symm
    _ ≤ _ := Nat.mul_le_mul_right _ (by omega)

theorem decimal_short {s : Str} {n : Nat} (h : Decimal s n) (hn : n < 10 ^ 20) : s.length ≤ 20 ∧ 0 ∉ s := by
  obtain ⟨h1, h2, h3, h4⟩ := h
  refine ⟨?_, fun h => absurd (h2 0 h).1 (by decide)⟩
  rcases h3 with rfl | h3
  · decide
  · refine Decidable.by_contra fun hl => ?_
    have h5 := decVal_large h2 h1 h3
    have h6 : 10 ^ 20 ≤ 10 ^ (s.length - 1) := Nat.pow_le_pow_right (by decide) (by omega)
    omega

theorem numeral_short {x : Int} {s : Str} (h : Numeral x s) (hx : x.natAbs < 10 ^ 20) : s.length ≤ 21 ∧ 0 ∉ s := by
  rcases h with ⟨h0, h⟩ | ⟨h0, d, rfl, h⟩
  · have := decimal_short h (by omega)
    exact ⟨by omega, this.2⟩
  · have := decimal_short h (by omega)
    refine ⟨by rw [List.length_cons]; omega, ?_⟩
    intro hm
    rcases List.mem_cons.1 hm with hm | hm
    · cases hm
    · exact this.2 hm

theorem inI32_abs {x : Int} (h : InI32 x) : x.natAbs < 10 ^ 20 := by
  unfold InI32 at h
  omega

theorem shown_short {t : Str} (hl : t.length ≤ 2047) (h0 : 0 ∉ t) : shown t = t := by
  unfold shown
  have : t.takeWhile (· ≠ 0) = t := by
    clear hl
    induction t with
    | nil => rfl
    | cons c t ih =>
      rw [List.takeWhile_cons_of_pos, ih fun h => h0 (List.mem_cons_of_mem _ h)]
      simpa using fun h : c = 0 => h0 (h ▸ List.mem_cons_self)
  rw [this, List.take_of_length_le hl]

theorem inI32_signed4 {bs : List UInt8} (h : bs.length = 4) : InI32 (signed 4 bs) := by
  rw [Pcm.signed4_eq h]
  exact decI32_in _

theorem inI32_signed2 {bs : List UInt8} (h : bs.length = 2) : -32768 ≤ signed 2 bs ∧ signed 2 bs ≤ 32767 := by
  rw [Pcm.signed2_eq h]
  exact decI16_in _

theorem tdiv_abs (x : Int) : (x.tdiv 8).natAbs ≤ x.natAbs := by
  rw [Int.natAbs_tdiv]
  exact Nat.div_le_self _ _

theorem rate_abs {a b : Int} (ha : InI32 a) (hb : -32768 ≤ b ∧ b ≤ 32767) : ((a * b).tdiv 8).natAbs < 10 ^ 20 := by
  refine Nat.lt_of_le_of_lt (tdiv_abs _) ?_
  rw [Int.natAbs_mul]
  unfold InI32 at ha
  calc a.natAbs * b.natAbs ≤ 2147483648 * 32768 := Nat.mul_le_mul (by omega) (by omega)
    _ < 10 ^ 20 := by decide

theorem length_field (bs : List UInt8) (o n : Nat) : (field bs o n).length ≤ n := by
  unfold field
  rw [List.length_take]
  omega

theorem takeWhile_le (s : Str) : (s.takeWhile (· ≠ 0)).length ≤ s.length :=
  (List.takeWhile_sublist _).length_le

/-- The texts about a header are short and have no NUL. -/
theorem header_short {file : List UInt8} {t : Str} (h : HeaderText file t) : t.length ≤ 2047 ∧ 0 ∉ t := by
  have htag : ∀ {o : Nat} {tag : Str}, (o, tag) ∈ Spec.tags → tag.length = 4 ∧ 0 ∉ tag := by
    intro o tag hm
    simp only [Spec.tags, List.mem_cons, Prod.mk.injEq, List.not_mem_nil, or_false] at hm
    rcases hm with ⟨_, rfl⟩ | ⟨_, rfl⟩ | ⟨_, rfl⟩ | ⟨_, rfl⟩ <;> decide
  cases h with
  | short _ => decide
  | @tag o tag hm hl _ _ =>
    obtain ⟨h1, h2⟩ := htag hm
    have h3 := takeWhile_le (field file o 4)
    have h4 := length_field file o 4
    refine ⟨?_, ?_⟩
    · simp only [List.length_append, List.length_cons, List.length_nil]
      omega
    · simp only [List.mem_append, not_or]
      exact ⟨⟨⟨⟨by decide, h2⟩, by decide⟩, nul_takeWhile _⟩, by decide⟩
  | @braces o tag a b hm hl _ he =>
    obtain ⟨h1, h2⟩ := htag hm
    have h3 := takeWhile_le (field file o 4)
    have h4 := length_field file o 4
    have h5 := nul_takeWhile (field file o 4)
    rw [he] at h3 h5
    simp only [List.mem_append, not_or] at h5
    simp only [List.length_append, List.length_cons, List.length_nil] at h3
    refine ⟨?_, ?_⟩
    · simp only [List.length_append, List.length_cons, List.length_nil]
      omega
    · simp only [List.mem_append, not_or]
      exact ⟨⟨⟨⟨⟨by decide, h2⟩, by decide⟩, h5.1.1⟩, h5.2⟩, by decide⟩
  | size hl _ hn =>
    obtain ⟨h1, h2⟩ := numeral_short hn (inI32_abs (inI32_signed4 (Pcm.field_length hl)))
    refine ⟨?_, ?_⟩
    · simp only [List.length_append, List.length_cons, List.length_nil]
      omega
    · simp only [List.mem_append, not_or]
      exact ⟨⟨by decide, h2⟩, by decide⟩
  | pcm hl _ hn =>
    have := inI32_signed2 (Pcm.field_length hl)
    obtain ⟨h1, h2⟩ := numeral_short hn (by omega)
    refine ⟨?_, ?_⟩
    · simp only [List.length_append, List.length_cons, List.length_nil]
      omega
    · simp only [List.mem_append, not_or]
      exact ⟨⟨by decide, h2⟩, by decide⟩
  | rate hl _ hm hn =>
    obtain ⟨h1, h2⟩ := numeral_short hn (inI32_abs (inI32_signed4 (Pcm.field_length (by omega))))
    obtain ⟨h3, h4⟩ := numeral_short hm (rate_abs (inI32_signed4 (Pcm.field_length (by omega)))
      (inI32_signed2 (Pcm.field_length (by omega))))
    refine ⟨?_, ?_⟩
    · simp only [List.length_append, List.length_cons, List.length_nil]
      omega
    · simp only [List.mem_append, not_or]
      exact ⟨⟨⟨⟨by decide, h4⟩, by decide⟩, h2⟩, by decide⟩
  | align hl _ hm hn =>
    have hs := inI32_signed2 (Pcm.field_length (bs := file) (o := 34) (n := 2) (by omega))
    have ht := tdiv_abs (signed 2 (field file 34 2))
    obtain ⟨h1, h2⟩ := numeral_short hn (inI32_abs (inI32_signed4 (Pcm.field_length (by omega))))
    obtain ⟨h3, h4⟩ := numeral_short hm (by omega)
    refine ⟨?_, ?_⟩
    · simp only [List.length_append, List.length_cons, List.length_nil]
      omega
    · simp only [List.mem_append, not_or]
      exact ⟨⟨⟨⟨by decide, h4⟩, by decide⟩, h2⟩, by decide⟩

/-- **C90, the texts fit.**  What is shown is the whole text, for all calls but `ce_stt_init`, whose texts have names of
any length in them. -/
theorem C90_in_full (w : World G) (c : Call F) (t : Str) (ht : Told w c t) (hs : Small c) : shown t = t := by
  have one : ∀ {p q n : Str} {x : Int}, Numeral x n → InI32 x → p.length + q.length ≤ 2000 → 0 ∉ p → 0 ∉ q →
      shown (p ++ n ++ q) = p ++ n ++ q := by
    intro p q n x hn hx hl hp hq
    obtain ⟨h1, h2⟩ := numeral_short hn (inI32_abs hx)
    refine shown_short ?_ ?_
    · simp only [List.length_append]
      omega
    · simp only [List.mem_append, not_or]
      exact ⟨⟨hp, h2⟩, hq⟩
  cases ht with
  | init => exact hs.elim
  | channels _ hn => exact one hn hs.1 (by decide) (by decide) (by decide)
  | rate _ hn => exact one hn hs.2.1 (by decide) (by decide) (by decide)
  | bits _ hn => exact one hn hs.2.2 (by decide) (by decide) (by decide)
  | null => exact shown_short (by decide) (by decide)
  | noBuffer => exact shown_short (by decide) (by decide)
  | size _ hn =>
    have := one (q := []) (p := [82, 117, 110, 116, 105, 109, 101, 69, 114, 114, 111, 114, 58, 32, 117, 110, 101, 120,
  112, 101, 99, 116, 101, 100, 32, 115, 105, 122, 101, 58, 32]) hn hs (by decide) (by decide) (by decide)
    simpa using this
  | header h => exact shown_short (header_short h).1 (header_short h).2

example : Told Ex.world (.uttInit (some 1) ⟨2, 16000, 16⟩ : Call Int) [67, 111, 114, 114, 117, 112, 116, 105, 111,
  110, 58, 32, 110, 117, 109, 95, 99, 104, 97, 110, 110, 101, 108, 115, 32, 61, 32, 50, 32, 110, 111, 116, 32, 115,
  117, 112, 112, 111, 114, 116, 101, 100] ∧
    Small (.uttInit (some 1) ⟨2, 16000, 16⟩ : Call Int) :=
  ⟨.channels (n := [50]) (by decide) (.inl ⟨by decide, by decide, by decide, .inr (by decide), by decide⟩),
    by decide, by decide, by decide⟩

/-! ## A number that is not shown -/

theorem tag_ok {file : List UInt8} {o : Nat} {tag : Str} (hl : tag.length = 4) (h0 : 0 ∉ tag) (h : o + 4 ≤ file.length)
    (he : field file o 4 = tag) (name : Str) : readTag tag name (file.drop o) = .ok ((), file.drop (o + 4)) := by
  unfold readTag
  show (readBytes tag.length name (file.drop o) >>= fun x =>
    (if cstr x.1 = tag then pure () else Rm.fail _ _ : Rm Unit) name x.2) = _
  rw [hl, bytes_at (by decide) h, he]
  show (if cstr tag = tag then pure () else Rm.fail _ _ : Rm Unit) name _ = _
  rw [if_pos ((cstr_eq h0 rfl).mpr rfl)]
  rfl

theorem i32_ok {file : List UInt8} {o : Nat} (h : o + 4 ≤ file.length) (name : Str) :
    readI32 name (file.drop o) = .ok (signed 4 (field file o 4), file.drop (o + 4)) := by
  unfold readI32
  show (readBytes 4 name (file.drop o) >>= fun x => .ok (decI32 x.1, x.2)) = _
  rw [bytes_at (by decide) h, Pcm.signed4_eq (Pcm.field_length h)]
  rfl

theorem i16_ok {file : List UInt8} {o : Nat} (h : o + 2 ≤ file.length) (name : Str) :
    readI16 name (file.drop o) = .ok (signed 2 (field file o 2), file.drop (o + 2)) := by
  unfold readI16
  show (readBytes 2 name (file.drop o) >>= fun x => .ok (decI16 x.1, x.2)) = _
  rw [bytes_at (by decide) h, Pcm.signed2_eq (Pcm.field_length h)]
  rfl

theorem rm_step {α β : Type} {p : Rm α} {k : α → Rm β} {name : Str} {bs bs' : List UInt8} {a : α}
    (h : p name bs = .ok (a, bs')) : (p >>= k) name bs = k a name bs' := by
  show (p name bs >>= fun x => k x.1 name x.2) = _
  rw [h]
  rfl

/-- The text for a wrong block alignment. -/
theorem align_text {h rest : List UInt8} {ch rate bits ba : Int} (hh : Header h ch rate ((rate * bits).tdiv 8) ba bits)
    (hi : InI32 (rate * bits)) (hb : ba ≠ bits.tdiv 8) :
    readPcmHeader [] (h ++ rest) = .error (.status .corruption ([67, 111, 114, 114, 117, 112, 116, 105, 111, 110, 58,
  32, 98, 108, 111, 99, 107, 95, 97, 108, 105, 103, 110, 32, 61, 61, 32] ++
      intText (bits.tdiv 8) ++ [32, 101, 120, 112, 101, 99, 116, 101, 100, 44, 32, 98, 117, 116,
  32] ++ intText ((rate * bits).tdiv 8) ++ [32, 102, 111, 117, 110, 100, 58, 32])) := by
  have hl := hh.length
  have hL : 44 ≤ (h ++ rest).length := by
    rw [List.length_append]
    omega
  have hf : ∀ o n, o + n ≤ 44 → field (h ++ rest) o n = field h o n := fun o n hon => Pcm.field_append (by omega)
  unfold readPcmHeader
  rw [rm_step (bs := h ++ rest) (tag_ok (tag := Pcm.tagRiff) (file := h ++ rest) (o := 0) rfl (by decide) (by omega)
      ((hf 0 4 (by omega)).trans hh.riff) []), rm_step (i32_ok (o := 0 + 4) (by omega) []),
    rm_step (tag_ok (tag := Pcm.tagWave) (o := 0 + 4 + 4) rfl (by decide) (by omega) ((hf 8 4 (by omega)).trans hh.wave) []),
    rm_step (tag_ok (tag := Pcm.tagFmt) (o := 0 + 4 + 4 + 4) rfl (by decide) (by omega) ((hf 12 4 (by omega)).trans hh.fmt) []),
    rm_step (i32_ok (o := 0 + 4 + 4 + 4 + 4) (by omega) []),
    if_neg (fun h => h ((congrArg (signed 4) (hf 16 4 (by omega))).trans hh.fmtSize)),
    rm_step (i16_ok (o := 0 + 4 + 4 + 4 + 4 + 4) (by omega) []),
    if_neg (fun h => h ((congrArg (signed 2) (hf 20 2 (by omega))).trans hh.pcm)),
    rm_step (i16_ok (o := 0 + 4 + 4 + 4 + 4 + 4 + 2) (by omega) []),
    rm_step (i32_ok (o := 0 + 4 + 4 + 4 + 4 + 4 + 2 + 2) (by omega) []),
    rm_step (i32_ok (o := 0 + 4 + 4 + 4 + 4 + 4 + 2 + 2 + 4) (by omega) []),
    rm_step (i16_ok (o := 0 + 4 + 4 + 4 + 4 + 4 + 2 + 2 + 4 + 4) (by omega) []),
    rm_step (i16_ok (o := 0 + 4 + 4 + 4 + 4 + 4 + 2 + 2 + 4 + 4 + 2) (by omega) []),
    show signed 4 (field (h ++ rest) (0 + 4 + 4 + 4 + 4 + 4 + 2 + 2) 4) = rate from
      (congrArg (signed 4) (hf 24 4 (by omega))).trans hh.rate_eq,
    show signed 4 (field (h ++ rest) (0 + 4 + 4 + 4 + 4 + 4 + 2 + 2 + 4) 4) = (rate * bits).tdiv 8 from
      (congrArg (signed 4) (hf 28 4 (by omega))).trans hh.byteRate_eq,
    show signed 2 (field (h ++ rest) (0 + 4 + 4 + 4 + 4 + 4 + 2 + 2 + 4 + 4) 2) = ba from
      (congrArg (signed 2) (hf 32 2 (by omega))).trans hh.blockAlign_eq,
    show signed 2 (field (h ++ rest) (0 + 4 + 4 + 4 + 4 + 4 + 2 + 2 + 4 + 4 + 2) 2) = bits from
      (congrArg (signed 2) (hf 34 2 (by omega))).trans hh.bits_eq]
  unfold checkRates
  rw [i32_of hi]
  dsimp only
  rw [if_neg (fun h => h rfl), if_pos hb]
  show failed _ (format tBlockAlign _) = _
  rw [show tBlockAlign = [98, 108, 111, 99, 107, 95, 97, 108, 105, 103, 110, 32, 61, 61, 32] ++ 123 :: 125 :: ([32,
  101, 120, 112, 101, 99, 116, 101, 100, 44, 32, 98, 117, 116, 32] ++ 123 :: 125 :: ([32, 102, 111, 117, 110, 100, 58,
  32] ++
      123 :: 125 :: [])) from rfl, format_three _ _ _ _ _ _ _ (by decide) (by decide) (by decide) (by decide)
      (intText_noBrace _) (intText_noBrace _) (by decide), List.append_nil, List.append_nil]
  unfold failed
  simp only [label, List.append_assoc]
  rfl

/-- **C90, a number that is not shown.**  A header that is right but for its block alignment: the text says that the
byte rate was found where the alignment was expected.  So the full property is false of the code. -/
theorem C90_alignment_not_shown (mach : Main.Machine G F D) (w : World G) (s : Session G F) (buf : Str)
    (hb : buf.length = 2048) (h rest : List UInt8) (ch rate bits ba : Int)
    (hh : Header h ch rate ((rate * bits).tdiv 8) ba bits) (hi : InI32 (rate * bits)) (ha : ba ≠ bits.tdiv 8) :
    ∃ s' buf' m n, step mach w (s, buf) (.readHeader (h ++ rest)) = .ok (.format none, s', buf') ∧
      lastError buf' = [67, 111, 114, 114, 117, 112, 116, 105, 111, 110, 58, 32, 98, 108, 111, 99, 107, 95, 97, 108,
  105, 103, 110, 32, 61, 61, 32] ++ m ++ [32, 101, 120, 112, 101, 99, 116, 101, 100, 44, 32, 98, 117, 116,
  32] ++ n ++ [32, 102, 111, 117, 110, 100, 58, 32] ∧
      Numeral (bits.tdiv 8) m ∧ Numeral ((rate * bits).tdiv 8) n := by
  have ht := align_text (rest := rest) hh hi ha
  have hfg := plain_readPcmHeader [] (h ++ rest)
  rw [ht] at hfg
  obtain ⟨b, b1, _, b3, _⟩ := saying_cases hb (readPcmHeader [] (h ++ rest))
  refine ⟨{ s with msg := .status .corruption }, b, _, _, ?_, ?_, intText_numeral (bits.tdiv 8),
    intText_numeral ((rate * bits).tdiv 8)⟩
  · show (Api.readHeader s (h ++ rest) >>= fun y => saying buf (readPcmHeader [] (h ++ rest)) >>= fun b =>
      .ok (y.1, y.2, b)) = _
    unfold Api.readHeader
    rw [← hfg, b1]
    rfl
  · rw [b3 _ _ ht]
    obtain ⟨x, y⟩ := header_short (header_text _ _ _ ht)
    exact shown_short x y

/-- A header with 16 bits per sample, one channel, and a block alignment of 4 bytes where it is 2. -/
def Ex.wrongAlign : List UInt8 :=
  [82, 73, 70, 70, 0, 0, 0, 0, 87, 65, 86, 69, 102, 109, 116, 32, 16, 0, 0, 0, 1, 0, 1, 0, 128, 62, 0, 0, 0, 125, 0, 0,
    4, 0, 16, 0, 100, 97, 116, 97, 0, 0, 0, 0]

example : Header Ex.wrongAlign 1 16000 (((16000 : Int) * 16).tdiv 8) 4 16 ∧ InI32 (16000 * 16) ∧
    (4 : Int) ≠ (16 : Int).tdiv 8 :=
  ⟨⟨by decide, by decide, by decide, by decide, by decide, by decide, by decide, by decide, by decide, by decide,
    by decide, by decide⟩, by decide, by decide⟩

example : (run Main.Ex.mach Main.Ex.world .start [.readHeader Ex.wrongAlign]).map (fun r => lastError r.2.2) =
    .ok [67, 111, 114, 114, 117, 112, 116, 105, 111, 110, 58, 32, 98, 108, 111, 99, 107, 95, 97, 108, 105, 103, 110,
  32, 61, 61, 32, 50, 32, 101, 120, 112, 101, 99, 116, 101, 100, 44, 32, 98, 117, 116, 32, 51, 50, 48, 48, 48, 32,
  102, 111, 117, 110, 100, 58, 32] := by decide +kernel

/-- A tag with braces in it: the text loses them and shows others at its end. -/
example : (run Main.Ex.mach Main.Ex.world .start [.readHeader (115 :: 123 :: 125 :: 120 :: [1, 2])]).map
    (fun r => lastError r.2.2) =
    .ok [67, 111, 114, 114, 117, 112, 116, 105, 111, 110, 58, 32, 82, 101, 97, 100, 65, 110, 100, 86, 101, 114, 105,
  102, 121, 83, 116, 114, 105, 110, 103, 58, 32, 39, 82, 73, 70, 70, 39, 32, 101, 120, 112, 101, 99, 116, 101, 100,
  32, 98, 117, 116, 32, 39, 115, 120, 39, 32, 102, 111, 117, 110, 100, 32, 105, 110, 32, 123, 125] := by decide +kernel

end Verif.Msg
