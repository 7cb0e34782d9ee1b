import Verif.HeaderModel
import Verif.HeaderSpec
import Verif.PcmProps

/-!
# Property C115: the caller's format object

`ce_read_pcm_header` fills an object of its caller, and answers a null pointer when the header is not accepted.
-/

namespace Verif.Header

open Verif.Pcm (Format tagRiff tagWave tagFmt tagData)
open Verif.Pcm.Spec (field signed)
open Spec

/-! ## The answer is that of the model without memory -/

/-- `t` answers as `m`, whatever is in the format object; the values may differ as `R` allows. -/
def Sim {α β : Type} (R : α → β → Prop) (m : Rd α) (t : Into β) : Prop := ∀ s : Mem,
  (∃ f, t s = .error f ∧ m s.file = .error (.fault f)) ∨
  (∃ c s', t s = .ok (.error c, s') ∧ m s.file = .error (.status c)) ∨
  ∃ a b s', t s = .ok (.ok b, s') ∧ m s.file = .ok (a, s'.file) ∧ R a b

theorem sim_pure {α β : Type} {R : α → β → Prop} {a : α} {b : β} (h : R a b) : Sim R (pure a) (pure b) :=
  fun s => .inr (.inr ⟨a, b, s, rfl, rfl, h⟩)

theorem sim_fail {α β : Type} {R : α → β → Prop} (c : Code) : Sim R (Rd.fail c) (fail c) :=
  fun s => .inr (.inl ⟨c, s, rfl, rfl⟩)

theorem into_bind {α β : Type} (t : Into α) (u : α → Into β) (s : Mem) : (t >>= u) s = (t s >>= fun x => match x.1 with
    | .error c => .ok (.error c, x.2)
    | .ok a => u a x.2) := rfl

theorem sim_bind {α β γ δ : Type} {R : α → β → Prop} {Q : γ → δ → Prop} {m : Rd α} {t : Into β} {n : α → Rd γ} {u : β → Into δ}
    (h : Sim R m t) (hn : ∀ a b, R a b → Sim Q (n a) (u b)) : Sim Q (m >>= n) (t >>= u) := by
  intro s
  rw [into_bind, show (m >>= n) s.file = (m s.file >>= fun x => n x.1 x.2) from rfl]
  rcases h s with ⟨f, e1, e2⟩ | ⟨c, s', e1, e2⟩ | ⟨a, b, s', e1, e2, e3⟩
  · rw [e1, e2]
    exact .inl ⟨f, rfl, rfl⟩
  · rw [e1, e2]
    exact .inr (.inl ⟨c, s', rfl, rfl⟩)
  · rw [e1, e2]
    exact hn a b e3 s'

theorem sim_store {α β : Type} {R : α → β → Prop} (f : Format → Format) {n : Rd α} {u : Into β} (h : Sim R n u) :
    Sim R n (store f >>= fun _ => u) := fun s => h { s with fmt := f s.fmt }

theorem sim_read (n : Nat) : Sim Eq (readBytes n) (read n) := by
  intro s
  unfold read readBytes
  by_cases h : n = 0 ∨ s.file.length < n
  · rw [if_pos h, if_pos h]
    exact .inr (.inl ⟨_, _, rfl, rfl⟩)
  · rw [if_neg h, if_neg h]
    exact .inr (.inr ⟨_, _, _, rfl, rfl, rfl⟩)

theorem sim_ite {α β : Type} {R : α → β → Prop} {p : Prop} [Decidable p] {m n : Rd α} {t u : Into β} (h1 : Sim R m t)
    (h2 : Sim R n u) : Sim R (if p then m else n) (if p then t else u) := by
  split
  · exact h1
  · exact h2

theorem sim_tag (t : List UInt8) : Sim Eq (readTag t) (tag t) := by
  refine sim_bind (sim_read _) fun v v' e => ?_
  subst e
  exact sim_ite (sim_pure rfl) (sim_fail _)

theorem sim_int32 : Sim Eq readI32 int32 :=
  sim_bind (sim_read 4) fun _ _ e => sim_pure (congrArg decI32 e)

theorem sim_int16 : Sim Eq readI16 int16 :=
  sim_bind (sim_read 2) fun _ _ e => sim_pure (congrArg decI16 e)

theorem sim_int {α β : Type} {R : α → β → Prop} (x : Int) {n : Int → Rd α} {u : Int → Into β} (h : ∀ v, Sim R (n v) (u v)) :
    Sim R (match i32 x with
      | .error f => Rd.fault f
      | .ok m => n m) (int x >>= u) := by
  intro s
  rw [into_bind]
  unfold int
  cases i32 x with
  | error f => exact .inl ⟨f, rfl, rfl⟩
  | ok v => exact h v s

theorem sim_header : Sim (fun _ _ => True) Pcm.readPcmHeader readPcmHeader := by
  unfold Pcm.readPcmHeader readPcmHeader
  refine sim_bind (sim_tag _) fun _ _ _ => sim_bind sim_int32 fun _ _ _ => sim_bind (sim_tag _) fun _ _ _ =>
    sim_bind (sim_tag _) fun _ _ _ => sim_bind sim_int32 fun a b e => ?_
  subst e
  refine sim_ite (sim_fail _) (sim_bind sim_int16 fun a b e => ?_)
  subst e
  refine sim_ite (sim_fail _) (sim_bind sim_int16 fun ch b e => ?_)
  subst e
  refine sim_store _ (sim_bind sim_int32 fun rate b e => ?_)
  subst e
  refine sim_store _ (sim_bind sim_int32 fun br b e => ?_)
  subst e
  refine sim_bind sim_int16 fun ba b e => ?_
  subst e
  refine sim_bind sim_int16 fun bits b e => ?_
  subst e
  unfold Pcm.checkRates
  refine sim_int _ fun v => sim_ite (sim_fail _) (sim_ite (sim_fail _) (sim_store _ ?_))
  exact sim_bind (sim_tag _) fun _ _ _ => sim_bind sim_int32 fun _ _ _ => sim_pure trivial

/-! ## What is in the format object -/

/-- Where a read of `n` bytes at `k` ends. -/
theorem read_at {file : List UInt8} {f : Format} {k n : Nat} (h0 : n ≠ 0) (h : k + n ≤ file.length) :
    read n ⟨f, file.drop k⟩ = .ok (.ok (field file k n), ⟨f, file.drop (k + n)⟩) := by
  unfold read field
  rw [if_neg (by rw [List.length_drop]; omega)]
  simp only [List.drop_drop]

theorem read_short {file : List UInt8} {f : Format} {k n : Nat} (h : file.length < k + n) :
    read n ⟨f, file.drop k⟩ = .ok (.error .io, ⟨f, file.drop (k + n)⟩) := by
  unfold read
  by_cases hk : n = 0
  · rw [if_pos (.inl hk)]
    simp only [List.drop_drop]
  · rw [if_pos (.inr (by rw [List.length_drop]; omega))]
    simp only [List.drop_drop]

/-- After the part `t`, if it ends well, the part `u`. -/
theorem into_ok {α β : Type} {t : Into α} {u : α → Into β} {s s' : Mem} {a : α} (h : t s = .ok (.ok a, s')) :
    (t >>= u) s = u a s' := by
  rw [into_bind, h]
  rfl

theorem into_bad {α β : Type} {t : Into α} {u : α → Into β} {s s' : Mem} {c : Code} (h : t s = .ok (.error c, s')) :
    (t >>= u) s = .ok (.error c, s') := by
  rw [into_bind, h]
  rfl

theorem field_length {file : List UInt8} {k n : Nat} (h : k + n ≤ file.length) : (field file k n).length = n := by
  unfold field
  rw [List.length_take, List.length_drop]
  omega

theorem tag_cases {file : List UInt8} {f : Format} {k : Nat} {t : List UInt8} (h0 : (0 : UInt8) ∉ t) (hn : t.length = 4) :
    (k + 4 ≤ file.length ∧ field file k 4 = t ∧ tag t ⟨f, file.drop k⟩ = .ok (.ok (), ⟨f, file.drop (k + 4)⟩)) ∨
    (¬ (k + 4 ≤ file.length ∧ field file k 4 = t) ∧ ∃ c, tag t ⟨f, file.drop k⟩ = .ok (.error c, ⟨f, file.drop (k + 4)⟩)) := by
  unfold tag
  rw [hn]
  by_cases h : k + 4 ≤ file.length
  · rw [into_ok (read_at (by decide) h)]
    by_cases ht : field file k 4 = t
    · rw [if_pos ((cstr_eq h0 (by rw [field_length h, hn])).mpr ht)]
      exact .inl ⟨h, ht, rfl⟩
    · rw [if_neg (fun e => ht ((cstr_eq h0 (by rw [field_length h, hn])).mp e))]
      exact .inr ⟨fun e => ht e.2, _, rfl⟩
  · rw [into_bad (read_short (by omega))]
    exact .inr ⟨fun e => h e.1, _, rfl⟩

theorem int32_cases {file : List UInt8} {f : Format} {k : Nat} :
    (k + 4 ≤ file.length ∧ int32 ⟨f, file.drop k⟩ = .ok (.ok (signed 4 (field file k 4)), ⟨f, file.drop (k + 4)⟩)) ∨
    (file.length < k + 4 ∧ int32 ⟨f, file.drop k⟩ = .ok (.error .io, ⟨f, file.drop (k + 4)⟩)) := by
  unfold int32
  by_cases h : k + 4 ≤ file.length
  · rw [into_ok (read_at (by decide) h), Pcm.signed4_eq (field_length h)]
    exact .inl ⟨h, rfl⟩
  · rw [into_bad (read_short (by omega))]
    exact .inr ⟨by omega, rfl⟩

theorem int16_cases {file : List UInt8} {f : Format} {k : Nat} :
    (k + 2 ≤ file.length ∧ int16 ⟨f, file.drop k⟩ = .ok (.ok (signed 2 (field file k 2)), ⟨f, file.drop (k + 2)⟩)) ∨
    (file.length < k + 2 ∧ int16 ⟨f, file.drop k⟩ = .ok (.error .io, ⟨f, file.drop (k + 2)⟩)) := by
  unfold int16
  by_cases h : k + 2 ≤ file.length
  · rw [into_ok (read_at (by decide) h), Pcm.signed2_eq (field_length h)]
    exact .inl ⟨h, rfl⟩
  · rw [into_bad (read_short (by omega))]
    exact .inr ⟨by omega, rfl⟩

/-- The reader stops before the first field. -/
theorem written_none {file : List UInt8} {f : Format} (h : ¬ (Begins file ∧ 24 ≤ file.length)) : Written file f f where
  channels := fun h1 h2 => absurd ⟨h1, h2⟩ h
  channelsKept := fun _ => rfl
  rate := fun h1 h2 => absurd ⟨h1, by omega⟩ h
  rateKept := fun _ => rfl
  bits := fun a => absurd ⟨a.begins, by have := a.length; omega⟩ h
  bitsKept := fun _ => rfl

/-- What all ends have in common. -/
def Left (file : List UInt8) (f : Format) (x : Except Code Unit × Mem) : Prop :=
  Written file f x.2.fmt ∧ (∃ n ≤ 44, x.2.file = file.drop n) ∧
    (x.1 = .ok () → x.2.file = file.drop 44 ∧ Agrees file ∧ 44 ≤ file.length ∧ field file 36 4 = tagData) ∧
    (Begins file → 36 ≤ file.length → InI32 (signed 4 (field file 24 4) * signed 2 (field file 34 2))) ∧
    (Agrees file → field file 36 4 ≠ tagData → x.2.file = file.drop 40)

theorem left_none {file : List UInt8} {f : Format} {c : Code} {n : Nat} (hn : n ≤ 44) (h : ¬ (Begins file ∧ 24 ≤ file.length)) :
    Left file f (.error c, ⟨f, file.drop n⟩) := ⟨written_none h, ⟨n, hn, rfl⟩, fun e => (by cases e),
    fun h1 h2 => absurd ⟨h1, by omega⟩ h, fun h1 => absurd ⟨h1.begins, by have := h1.length; omega⟩ h⟩

/-- The same for a run that ends with a fault. -/
def Ends (file : List UInt8) (f : Format) : Exec (Except Code Unit × Mem) → Prop
  | .error z => z = .ub ∧ Begins file ∧ 36 ≤ file.length ∧ ¬ InI32 (signed 4 (field file 24 4) * signed 2 (field file 34 2))
  | .ok x => Left file f x

theorem header_ends (file : List UInt8) (f : Format) : Ends file f (readPcmHeader ⟨f, file.drop 0⟩) := by
  unfold readPcmHeader
  rcases tag_cases (file := file) (f := f) (k := 0) (t := tagRiff) (by decide) rfl with ⟨_, h1, e⟩ | ⟨hn, c, e⟩
  rotate_left
  · rw [into_bad e]
    exact left_none (by decide) fun hb => hn ⟨by have := hb.2; omega, hb.1.riff⟩
  rw [into_ok e]
  rcases int32_cases (file := file) (f := f) (k := 0 + 4) with ⟨_, e⟩ | ⟨hn, e⟩
  rotate_left
  · rw [into_bad e]
    exact left_none (by decide) fun hb => by have := hb.2; omega
  rw [into_ok e]
  rcases tag_cases (file := file) (f := f) (k := 0 + 4 + 4) (t := tagWave) (by decide) rfl with ⟨_, h2, e⟩ | ⟨hn, c, e⟩
  rotate_left
  · rw [into_bad e]
    exact left_none (by decide) fun hb => hn ⟨by have := hb.2; omega, hb.1.wave⟩
  rw [into_ok e]
  rcases tag_cases (file := file) (f := f) (k := 0 + 4 + 4 + 4) (t := tagFmt) (by decide) rfl with ⟨_, h3, e⟩ | ⟨hn, c, e⟩
  rotate_left
  · rw [into_bad e]
    exact left_none (by decide) fun hb => hn ⟨by have := hb.2; omega, hb.1.fmt⟩
  rw [into_ok e]
  rcases int32_cases (file := file) (f := f) (k := 0 + 4 + 4 + 4 + 4) with ⟨_, e⟩ | ⟨hn, e⟩
  rotate_left
  · rw [into_bad e]
    exact left_none (by decide) fun hb => by have := hb.2; omega
  rw [into_ok e]
  by_cases h4 : signed 4 (field file (0 + 4 + 4 + 4 + 4) 4) = 16
  rotate_left
  · rw [if_pos h4]
    exact left_none (by decide) fun hb => h4 hb.1.fmtSize
  rw [if_neg (not_not_intro h4)]
  rcases int16_cases (file := file) (f := f) (k := 0 + 4 + 4 + 4 + 4 + 4) with ⟨l1, e⟩ | ⟨hn, e⟩
  rotate_left
  · rw [into_bad e]
    exact left_none (by decide) fun hb => by have := hb.2; omega
  rw [into_ok e]
  by_cases h5 : signed 2 (field file (0 + 4 + 4 + 4 + 4 + 4) 2) = 1
  rotate_left
  · rw [if_pos h5]
    exact left_none (by decide) fun hb => h5 hb.1.pcm
  rw [if_neg (not_not_intro h5)]
  have hb : Begins file := ⟨l1, h1, h2, h3, h4, h5⟩
  rcases int16_cases (file := file) (f := f) (k := 22) with ⟨l2, e⟩ | ⟨hn, e⟩
  rotate_left
  · rw [into_bad e]
    exact left_none (by decide) fun hb => by have := hb.2; omega
  rw [into_ok e]
  generalize hch : signed 2 (field file 22 2) = ch
  rw [into_ok (a := ()) (s' := ⟨⟨ch, f.rate, f.bits⟩, file.drop 24⟩) rfl]
  have w1 : ∀ {c : Code} {n : Nat}, n ≤ 44 → file.length < 28 →
      Left file f (.error c, ⟨⟨ch, f.rate, f.bits⟩, file.drop n⟩) := fun hn hl =>
    ⟨⟨fun _ _ => hch.symm, fun hx => absurd ⟨hb, l2⟩ hx, fun _ hx => by omega, fun _ => rfl,
      fun a => (by have := a.length; omega), fun _ => rfl⟩, ⟨_, hn, rfl⟩, fun e => (by cases e), fun _ _ => (by omega),
      fun a => by have := a.length; omega⟩
  rcases int32_cases (file := file) (f := ⟨ch, f.rate, f.bits⟩) (k := 24) with ⟨l3, e⟩ | ⟨hn, e⟩
  rotate_left
  · rw [into_bad e]
    exact w1 (by decide) (by omega)
  rw [into_ok e]
  generalize hra : signed 4 (field file 24 4) = rate
  rw [into_ok (a := ()) (s' := ⟨⟨ch, rate, f.bits⟩, file.drop 28⟩) rfl]
  have w2 : ∀ {c : Code} {n : Nat}, n ≤ 44 → ¬ Agrees file →
      (36 ≤ file.length → InI32 (signed 4 (field file 24 4) * signed 2 (field file 34 2))) →
      Left file f (.error c, ⟨⟨ch, rate, f.bits⟩, file.drop n⟩) := fun hn ha hx =>
    ⟨⟨fun _ _ => hch.symm, fun hx => absurd ⟨hb, l2⟩ hx, fun _ _ => hra.symm, fun hx => absurd ⟨hb, l3⟩ hx,
      fun a => absurd a ha, fun _ => rfl⟩, ⟨_, hn, rfl⟩, fun e => (by cases e), fun _ => hx, fun a => absurd a ha⟩
  rcases int32_cases (file := file) (f := ⟨ch, rate, f.bits⟩) (k := 28) with ⟨l4, e⟩ | ⟨hn, e⟩
  rotate_left
  · rw [into_bad e]
    exact w2 (by decide) (fun a => by have := a.length; omega) (by omega)
  rw [into_ok e]
  rcases int16_cases (file := file) (f := ⟨ch, rate, f.bits⟩) (k := 28 + 4) with ⟨l5, e⟩ | ⟨hn, e⟩
  rotate_left
  · rw [into_bad e]
    exact w2 (by decide) (fun a => by have := a.length; omega) (by omega)
  rw [into_ok e]
  rcases int16_cases (file := file) (f := ⟨ch, rate, f.bits⟩) (k := 28 + 4 + 2) with ⟨l6, e⟩ | ⟨hn, e⟩
  rotate_left
  · rw [into_bad e]
    exact w2 (by decide) (fun a => by have := a.length; omega) (by omega)
  rw [into_ok e]
  generalize hbi : signed 2 (field file (28 + 4 + 2) 2) = bits
  cases hi : i32 (rate * bits) with
  | error z =>
    rw [into_bind, show int (rate * bits) ⟨⟨ch, rate, f.bits⟩, file.drop (28 + 4 + 2 + 2)⟩ = .error z by
      unfold int; rw [hi]; rfl]
    unfold i32 at hi
    split at hi
    · cases hi
    · rename_i ho
      cases hi
      refine ⟨rfl, hb, l6, ?_⟩
      rw [hra, show signed 2 (field file 34 2) = bits from hbi]
      exact ho
  | ok m =>
    obtain ⟨rfl, ho⟩ : m = rate * bits ∧ InI32 (rate * bits) := by
      unfold i32 at hi
      split at hi
      · rename_i ho
        exact ⟨(Except.ok.inj hi).symm, ho⟩
      · cases hi
    have ho' : InI32 (signed 4 (field file 24 4) * signed 2 (field file 34 2)) := by
      rw [hra, show signed 2 (field file 34 2) = bits from hbi]
      exact ho
    rw [into_ok (a := rate * bits) (s' := ⟨⟨ch, rate, f.bits⟩, file.drop (28 + 4 + 2 + 2)⟩) (by unfold int; rw [hi]; rfl)]
    by_cases h6 : signed 4 (field file 28 4) = (rate * bits).tdiv 8
    rotate_left
    · rw [if_pos h6]
      exact w2 (by decide) (fun a => h6 (by
        have := a.byteRate
        rw [hra, show signed 2 (field file 34 2) = bits from hbi] at this
        exact this)) fun _ => ho'
    rw [if_neg (not_not_intro h6)]
    by_cases h7 : signed 2 (field file (28 + 4) 2) = bits.tdiv 8
    rotate_left
    · rw [if_pos h7]
      exact w2 (by decide) (fun a => h7 (by
        have := a.blockAlign
        rw [show signed 2 (field file 34 2) = bits from hbi] at this
        exact this)) fun _ => ho'
    rw [if_neg (not_not_intro h7)]
    have ha : Agrees file := ⟨hb, l6, by
      rw [hra, show signed 2 (field file 34 2) = bits from hbi]; exact h6, by
      rw [show signed 2 (field file 34 2) = bits from hbi]; exact h7⟩
    have hw : Written file f ⟨ch, rate, bits⟩ :=
      ⟨fun _ _ => hch.symm, fun hx => absurd ⟨hb, l2⟩ hx, fun _ _ => hra.symm, fun hx => absurd ⟨hb, l3⟩ hx,
        fun _ => hbi.symm, fun hx => absurd ha hx⟩
    rw [into_ok (a := ()) (s' := ⟨⟨ch, rate, bits⟩, file.drop 36⟩) rfl]
    rcases tag_cases (file := file) (f := ⟨ch, rate, bits⟩) (k := 36) (t := tagData) (by decide) rfl with ⟨_, h8, e⟩ | ⟨hn, c, e⟩
    rotate_left
    · rw [into_bad e]
      exact ⟨hw, ⟨_, by decide, rfl⟩, fun e => (by cases e), fun _ _ => ho', fun _ _ => rfl⟩
    rw [into_ok e]
    rcases int32_cases (file := file) (f := ⟨ch, rate, bits⟩) (k := 36 + 4) with ⟨l7, e⟩ | ⟨hn, e⟩
    rotate_left
    · rw [into_bad e]
      exact ⟨hw, ⟨_, by decide, rfl⟩, fun e => (by cases e), fun _ _ => ho', fun _ hx => absurd h8 hx⟩
    rw [into_ok e]
    exact ⟨hw, ⟨_, by decide, rfl⟩, fun _ => ⟨rfl, ha, l7, h8⟩, fun _ _ => ho', fun _ hx => absurd h8 hx⟩

theorem ce_cases (fmt : Format) (file : List UInt8) :
    (∃ z, ceReadPcmHeader fmt file = .error z ∧ Pcm.readPcmHeader file = .error (.fault z)) ∨
    (∃ c f rest, ceReadPcmHeader fmt file = .ok (some c, f, rest) ∧ Pcm.readPcmHeader file = .error (.status c)) ∨
    ∃ a f rest, ceReadPcmHeader fmt file = .ok (none, f, rest) ∧ Pcm.readPcmHeader file = .ok (a, rest) := by
  unfold ceReadPcmHeader
  rcases sim_header ⟨fmt, file⟩ with ⟨z, e1, e2⟩ | ⟨c, s', e1, e2⟩ | ⟨a, b, s', e1, e2, -⟩
  · rw [e1]
    exact .inl ⟨z, rfl, e2⟩
  · rw [e1]
    exact .inr (.inl ⟨c, _, _, rfl, e2⟩)
  · rw [e1]
    exact .inr (.inr ⟨a, _, _, rfl, e2⟩)

theorem ce_left {fmt f' : Format} {file rest : List UInt8} {st : Option Code}
    (h : ceReadPcmHeader fmt file = .ok (st, f', rest)) : Written file fmt f' ∧ (∃ n ≤ 44, rest = file.drop n) ∧
      (st = none → rest = file.drop 44 ∧ Agrees file ∧ 44 ≤ file.length ∧ field file 36 4 = tagData) ∧
      (Begins file → 36 ≤ file.length → InI32 (signed 4 (field file 24 4) * signed 2 (field file 34 2))) ∧
      (Agrees file → field file 36 4 ≠ tagData → rest = file.drop 40) := by
  unfold ceReadPcmHeader at h
  obtain ⟨x, h1, h2⟩ := bind_ok h
  have g := header_ends file fmt
  rw [show readPcmHeader ⟨fmt, file.drop 0⟩ = .ok x from h1] at g
  obtain ⟨g1, g2, g3, g4⟩ := g
  obtain ⟨r, s⟩ := x
  cases r with
  | error c =>
    cases h2
    exact ⟨g1, g2, fun e => (by cases e), g4⟩
  | ok u =>
    cases h2
    exact ⟨g1, g2, fun _ => g3 rfl, g4⟩

theorem ce_fault {fmt : Format} {file : List UInt8} {z : Fault} (h : ceReadPcmHeader fmt file = .error z) :
    z = .ub ∧ Begins file ∧ 36 ≤ file.length ∧ ¬ InI32 (signed 4 (field file 24 4) * signed 2 (field file 34 2)) := by
  have g := header_ends file fmt
  unfold ceReadPcmHeader at h
  rw [show readPcmHeader ⟨fmt, file⟩ = readPcmHeader ⟨fmt, file.drop 0⟩ from rfl] at h
  cases e : readPcmHeader ⟨fmt, file.drop 0⟩ with
  | error y =>
    rw [e] at g h
    cases h
    exact g
  | ok x =>
    rw [e, ok_bind] at h
    split at h <;> cases h

/-- **C115, success.**  `ce_read_pcm_header` answers with the pointer it was given exactly for a header that C26 accepts; then
the object has the three fields of the header, whatever was in it, and the file is at the first byte of the audio. -/
theorem C115_accepted (fmt : Format) (file rest : List UInt8) (ch rate bits : Int) :
    ceReadPcmHeader fmt file = .ok (none, ⟨ch, rate, bits⟩, rest) ↔
      ∃ h, file = h ++ rest ∧ InI32 (rate * bits) ∧
        Pcm.Spec.Header h ch rate ((rate * bits).tdiv 8) (bits.tdiv 8) bits := by
  rw [← Pcm.C26_accepted]
  have key : ∀ {a f : Format} {r : List UInt8}, ceReadPcmHeader fmt file = .ok (none, f, r) →
      Pcm.readPcmHeader file = .ok (a, r) → f = a := by
    intro a f r h1 h2
    obtain ⟨g1, -, g3, -⟩ := ce_left h1
    obtain ⟨-, ha, hl, -⟩ := g3 rfl
    obtain ⟨ach, arate, abits⟩ := a
    obtain ⟨h, rfl, -, hh⟩ := (Pcm.C26_accepted _ _ _ _ _).mp h2
    have hf : ∀ k n, k + n ≤ 44 → field (h ++ r) k n = field h k n := by
      intro k n hk
      unfold field
      rw [List.drop_append_of_le_length (by rw [hh.length]; omega), List.take_append_of_le_length (by
        rw [List.length_drop, hh.length]; omega)]
    obtain ⟨fch, frate, fbits⟩ := f
    have e1 := g1.channels ha.begins (by omega)
    have e2 := g1.rate ha.begins (by omega)
    have e3 := g1.bits ha
    rw [hf 22 2 (by omega), hh.channels_eq] at e1
    rw [hf 24 4 (by omega), hh.rate_eq] at e2
    rw [hf 34 2 (by omega), hh.bits_eq] at e3
    simp only at e1 e2 e3
    rw [e1, e2, e3]
  rcases ce_cases fmt file with ⟨z, e1, e2⟩ | ⟨c, f, r, e1, e2⟩ | ⟨a, f, r, e1, e2⟩
  · rw [e1, e2]
    constructor <;> intro h <;> cases h
  · rw [e1, e2]
    constructor <;> intro h <;> cases h
  · obtain rfl := key e1 e2
    rw [e1, e2]
    constructor <;> intro h <;> cases h <;> rfl

/-- **C115, what is left behind.**  However the call ends (unless with overflow), the object has the fields that the file gave
before it ended, and its own old fields for the rest; the file is at most 44 bytes further. -/
theorem C115_written {fmt f' : Format} {file rest : List UInt8} {st : Option Code}
    (h : ceReadPcmHeader fmt file = .ok (st, f', rest)) : Written file fmt f' ∧ ∃ n ≤ 44, rest = file.drop n :=
  ⟨(ce_left h).1, (ce_left h).2.1⟩

/-- **C115, refused and untouched.**  A file that does not begin as a PCM file leaves the object as it was, and the answer is a
null pointer. -/
theorem C115_untouched_partial (fmt : Format) (file : List UInt8) (h : ¬ (Begins file ∧ 24 ≤ file.length)) :
    ∃ c rest, ceReadPcmHeader fmt file = .ok (some c, fmt, rest) := by
  have hno : ∀ {st : Option Code} {f : Format} {r : List UInt8}, ceReadPcmHeader fmt file = .ok (st, f, r) → f = fmt := by
    intro st f r e
    have w := (ce_left e).1
    obtain ⟨a, b, c⟩ := f
    obtain ⟨a', b', c'⟩ := fmt
    have e1 := w.channelsKept h
    have e2 := w.rateKept fun x => h ⟨x.1, by omega⟩
    have e3 := w.bitsKept fun x => h ⟨x.begins, by have := x.length; omega⟩
    simp only at e1 e2 e3
    rw [e1, e2, e3]
  rcases ce_cases fmt file with ⟨z, e1, e2⟩ | ⟨c, f, r, e1, e2⟩ | ⟨a, f, r, e1, e2⟩
  · obtain ⟨-, g1, g2, -⟩ := ce_fault e1
    exact absurd ⟨g1, by omega⟩ h
  · obtain rfl := hno e1
    exact ⟨c, r, e1⟩
  · obtain ⟨-, -, g, -⟩ := ce_left e1
    obtain ⟨-, ha, hl, -⟩ := g rfl
    exact absurd ⟨ha.begins, by omega⟩ h

/-- **C115, overflow.**  The call is undefined only when a file of at least 36 bytes begins as a PCM file and the product of
its sample rate and sample size is not an `int`; and always then. -/
theorem C115_undefined (fmt : Format) (file : List UInt8) (z : Fault) : ceReadPcmHeader fmt file = .error z ↔
    z = .ub ∧ Begins file ∧ 36 ≤ file.length ∧ ¬ InI32 (signed 4 (field file 24 4) * signed 2 (field file 34 2)) := by
  refine ⟨ce_fault, ?_⟩
  rintro ⟨rfl, hb, hl, hi⟩
  cases e : ceReadPcmHeader fmt file with
  | error y => rw [(ce_fault e).1]
  | ok x =>
    obtain ⟨st, f, r⟩ := x
    exact absurd ((ce_left e).2.2.2.1 hb hl) hi

/-- **C115 fails.**  A header that is right except that something other than the tag of the audio follows (as in files with a
`LIST` chunk before the audio) is refused with a null pointer; but by then the whole object is overwritten, and the reader takes
what is in it for a good format. -/
theorem C115_refused_but_filled (fmt : Format) {file : List UInt8} (ha : Agrees file) (hl : 40 ≤ file.length)
    (hi : InI32 (signed 4 (field file 24 4) * signed 2 (field file 34 2))) (hd : field file 36 4 ≠ [100, 97, 116, 97]) :
    ∃ c, ceReadPcmHeader fmt file = .ok (some c, ⟨signed 2 (field file 22 2), signed 4 (field file 24 4),
      signed 2 (field file 34 2)⟩, file.drop 40) := by
  cases e : ceReadPcmHeader fmt file with
  | error z => exact absurd hi (ce_fault e).2.2.2
  | ok x =>
    obtain ⟨st, ⟨fc, fr, fb⟩, r⟩ := x
    obtain ⟨w, -, g, -, g'⟩ := ce_left e
    cases st with
    | none => exact absurd (g rfl).2.2.2 hd
    | some c =>
      refine ⟨c, ?_⟩
      rw [g' ha hd, show fc = _ from w.channels ha.begins (by omega), show fr = _ from w.rate ha.begins (by omega),
        show fb = _ from w.bits ha]

/-! ## Examples -/

/-- 40 bytes: one channel, 16 kHz, 16 bits, and a `LIST` chunk. -/
def listed : List UInt8 :=
  [82, 73, 70, 70, 0, 0, 0, 0, 87, 65, 86, 69, 102, 109, 116, 32, 16, 0, 0, 0, 1, 0, 1, 0,
    128, 62, 0, 0, 0, 125, 0, 0, 2, 0, 16, 0, 76, 73, 83, 84]

theorem listed_rate (rest : List UInt8) : signed 4 (field (listed ++ rest) 24 4) = 16000 := by
  show signed 4 [128, 62, 0, 0] = _
  decide

theorem listed_bits (rest : List UInt8) : signed 2 (field (listed ++ rest) 34 2) = 16 := by
  show signed 2 [16, 0] = _
  decide

theorem listed_channels (rest : List UInt8) : signed 2 (field (listed ++ rest) 22 2) = 1 := by
  show signed 2 [1, 0] = _
  decide

theorem listed_length (rest : List UInt8) : 40 ≤ (listed ++ rest).length := by
  rw [List.length_append, show listed.length = 40 from rfl]
  omega

theorem listed_agrees (rest : List UInt8) : Agrees (listed ++ rest) where
  begins := ⟨by have := listed_length rest; omega, rfl, rfl, rfl, by show signed 4 [16, 0, 0, 0] = _; decide,
    by show signed 2 [1, 0] = _; decide⟩
  length := by have := listed_length rest; omega
  byteRate := by
    rw [listed_rate, listed_bits]
    show signed 4 [0, 125, 0, 0] = _
    decide
  blockAlign := by
    rw [listed_bits]
    show signed 2 [2, 0] = _
    decide

-- refused, and filled with a format that `ce_utt_init` takes
example (fmt : Format) (rest : List UInt8) : ∃ c, ceReadPcmHeader fmt (listed ++ rest) = .ok (some c, ⟨1, 16000, 16⟩, rest) ∧
    Pcm.Reader.new.setFormat ⟨1, 16000, 16⟩ = .ok ⟨true, ⟨1, 16000, 16⟩, []⟩ := by
  obtain ⟨c, h⟩ := C115_refused_but_filled fmt (listed_agrees rest) (listed_length rest) (by
    rw [listed_rate, listed_bits]; decide) (by
    show [76, 73, 83, 84] ≠ _; decide)
  rw [listed_rate, listed_bits, listed_channels] at h
  exact ⟨c, h, rfl⟩

-- a file that ends after the number of channels: the object is a mixture
example : ceReadPcmHeader ⟨1, 16000, 8⟩ ((listed.take 22) ++ [2, 0]) = .ok (some .io, ⟨2, 16000, 8⟩, []) := by decide

example : Written ((listed.take 22) ++ [2, 0]) ⟨1, 16000, 8⟩ ⟨2, 16000, 8⟩ :=
  (C115_written (file := (listed.take 22) ++ [2, 0]) (rest := []) (st := some .io) (by decide)).1

-- a script instead of an audio file
example (fmt : Format) : ∃ c rest, ceReadPcmHeader fmt [97, 32, 98, 46, 119, 97, 118, 10] = .ok (some c, fmt, rest) :=
  C115_untouched_partial fmt _ fun h => absurd h.2 (by decide)

-- 2^31 - 1 samples of 16 bits in a second
example (fmt : Format) : ceReadPcmHeader fmt (listed.take 24 ++ [255, 255, 255, 127, 0, 0, 0, 0, 2, 0, 16, 0]) = .error .ub :=
  (C115_undefined fmt _ .ub).mpr ⟨rfl, ⟨by decide, rfl, rfl, rfl, by decide, by decide⟩, by decide, by decide⟩

-- an accepted header
example (fmt : Format) (rest : List UInt8) :
    ceReadPcmHeader fmt (Pcm.exampleHeader 1 2 0 125 ++ rest) = .ok (none, ⟨1, 16000, 16⟩, rest) :=
  (C115_accepted fmt _ rest 1 16000 16).mpr ⟨_, rfl, by decide,
    ⟨rfl, rfl, rfl, rfl, by decide, by decide, by decide, by decide, by decide, by decide, by decide, rfl⟩⟩

end Verif.Header
