import Verif.PcmLemmas

/-!
# Lemmas about the wave header
-/

namespace Verif.Pcm

open Spec

theorem field_length {bs : List UInt8} {o n : Nat} (h : o + n ≤ bs.length) : (field bs o n).length = n := by
  unfold field; rw [List.length_take, List.length_drop]; omega

theorem drop_field (bs : List UInt8) (o n : Nat) : bs.drop o = field bs o n ++ bs.drop (o + n) := by
  unfold field
  rw [← List.drop_drop, List.take_append_drop]

theorem tag_at {bs t : List UInt8} {o : Nat} (h0 : (0 : UInt8) ∉ t) (ht : t ≠ [])
    (h : o + t.length ≤ bs.length) :
    readTag t (bs.drop o) =
      if field bs o t.length = t then .ok ((), bs.drop (o + t.length)) else bad .corruption := by
  rw [drop_field bs o t.length]
  by_cases hc : field bs o t.length = t
  · rw [if_pos hc]
    conv => lhs; arg 2; rw [hc]
    exact readTag_append h0 ht
  · rw [if_neg hc]
    unfold readTag
    rw [Rd.bind_of (readBytes_append (fun h => ht (List.length_eq_zero_iff.mp h)) (field_length h)),
      if_neg (fun h' => hc ((cstr_eq h0 (field_length h)).mp h'))]
    rfl

theorem i32_at {bs : List UInt8} {o : Nat} (h : o + 4 ≤ bs.length) :
    readI32 (bs.drop o) = .ok (signed 4 (field bs o 4), bs.drop (o + 4)) := by
  rw [drop_field bs o 4, readI32_raw (field_length h), signed4_eq (field_length h)]

theorem i16_at {bs : List UInt8} {o : Nat} (h : o + 2 ≤ bs.length) :
    readI16 (bs.drop o) = .ok (signed 2 (field bs o 2), bs.drop (o + 2)) := by
  rw [drop_field bs o 2, readI16_append (field_length h), signed2_eq (field_length h)]

/-- What the checks of `ReadPcmHeader` decide, as a condition on the bytes. -/
def headerResult (bs : List UInt8) : Io (Format × List UInt8) :=
  if field bs 0 4 ≠ tagRiff ∨ field bs 8 4 ≠ tagWave ∨ field bs 12 4 ≠ tagFmt ∨
      signed 4 (field bs 16 4) ≠ 16 ∨ signed 2 (field bs 20 2) ≠ 1 then bad .corruption
  else if ¬ InI32 (signed 4 (field bs 24 4) * signed 2 (field bs 34 2)) then .error (.fault .ub)
  else if signed 4 (field bs 28 4) ≠ (signed 4 (field bs 24 4) * signed 2 (field bs 34 2)).tdiv 8 ∨
      signed 2 (field bs 32 2) ≠ (signed 2 (field bs 34 2)).tdiv 8 ∨
      field bs 36 4 ≠ tagData then bad .corruption
  else .ok (⟨signed 2 (field bs 22 2), signed 4 (field bs 24 4), signed 2 (field bs 34 2)⟩, bs.drop 44)

theorem checkRates_at {bs : List UInt8} (h : 44 ≤ bs.length) (ch rate br ba bits : Int) :
    checkRates ch rate br ba bits (bs.drop 36) =
      if ¬ InI32 (rate * bits) then .error (.fault .ub)
      else if br ≠ (rate * bits).tdiv 8 ∨ ba ≠ bits.tdiv 8 ∨ field bs 36 4 ≠ tagData then bad .corruption
      else .ok (⟨ch, rate, bits⟩, bs.drop 44) := by
  unfold checkRates
  by_cases h0 : InI32 (rate * bits)
  · rw [i32_of h0, if_neg (show ¬ ¬ InI32 (rate * bits) from fun h => h h0)]
    simp only
    by_cases h1 : br ≠ (rate * bits).tdiv 8
    · rw [if_pos h1, if_pos (Or.inl h1)]; rfl
    · rw [if_neg h1]
      by_cases h2 : ba ≠ bits.tdiv 8
      · rw [if_pos h2, if_pos (Or.inr (Or.inl h2))]; rfl
      · rw [if_neg h2]
        have ht := tag_at (bs := bs) (t := tagData) (o := 36) (by decide) (by decide)
          (show 36 + 4 ≤ bs.length by omega)
        rw [show tagData.length = 4 from rfl] at ht
        by_cases h3 : field bs 36 4 ≠ tagData
        · rw [if_neg h3] at ht
          rw [if_pos (Or.inr (Or.inr h3))]
          exact Rd.bind_error ht
        · have h3' : field bs 36 4 = tagData := Decidable.not_not.mp h3
          rw [if_pos h3'] at ht
          rw [if_neg (by simp only [not_or]; exact ⟨h1, h2, h3⟩), Rd.bind_of ht,
            Rd.bind_of (i32_at (by omega))]
          rfl
  · rw [i32_not h0, if_pos h0]
    rfl

theorem header_at {bs : List UInt8} (h : 44 ≤ bs.length) : readPcmHeader bs = headerResult bs := by
  have tag : ∀ (t : List UInt8) (o : Nat), (0 : UInt8) ∉ t → t.length = 4 → o + 4 ≤ bs.length →
      readTag t (bs.drop o) = if field bs o 4 = t then .ok ((), bs.drop (o + 4)) else bad .corruption := by
    intro t o h0 h4 hl
    have := tag_at (bs := bs) (t := t) (o := o) h0 (by intro h; subst h; cases h4) (by omega)
    rwa [h4] at this
  have t1 := tag tagRiff 0 (by decide) rfl (by omega)
  have t2 := tag tagWave 8 (by decide) rfl (by omega)
  have t3 := tag tagFmt 12 (by decide) rfl (by omega)
  unfold readPcmHeader headerResult
  by_cases h1 : field bs 0 4 = tagRiff
  · rw [if_pos h1] at t1
    rw [Rd.bind_of (show readTag tagRiff bs = _ from t1), Rd.bind_of (i32_at (o := 0 + 4) (by omega))]
    by_cases h2 : field bs 8 4 = tagWave
    · rw [if_pos h2] at t2
      rw [Rd.bind_of t2]
      by_cases h3 : field bs 12 4 = tagFmt
      · rw [if_pos h3] at t3
        rw [Rd.bind_of t3, Rd.bind_of (i32_at (o := 12 + 4) (by omega))]
        by_cases h4 : signed 4 (field bs 16 4) ≠ 16
        · rw [if_pos h4, if_pos (by simp only [h4, ne_eq, not_false_eq_true, true_or, or_true])]; rfl
        · rw [if_neg h4, Rd.bind_of (i16_at (o := 12 + 4 + 4) (by omega))]
          by_cases h5 : signed 2 (field bs 20 2) ≠ 1
          · rw [if_pos h5, if_pos (by simp only [h5, ne_eq, not_false_eq_true, or_true])]; rfl
          · rw [if_neg h5, if_neg (by
              simp only [not_or]
              exact ⟨fun h => h h1, fun h => h h2, fun h => h h3, h4, h5⟩),
              Rd.bind_of (i16_at (o := 12 + 4 + 4 + 2) (by omega)),
              Rd.bind_of (i32_at (o := 12 + 4 + 4 + 2 + 2) (by omega)),
              Rd.bind_of (i32_at (o := 12 + 4 + 4 + 2 + 2 + 4) (by omega)),
              Rd.bind_of (i16_at (o := 12 + 4 + 4 + 2 + 2 + 4 + 4) (by omega)),
              Rd.bind_of (i16_at (o := 12 + 4 + 4 + 2 + 2 + 4 + 4 + 2) (by omega))]
            exact checkRates_at h _ _ _ _ _
      · rw [if_neg h3] at t3
        rw [if_pos (by simp only [h3, ne_eq, not_false_eq_true, true_or, or_true])]
        exact Rd.bind_error t3
    · rw [if_neg h2] at t2
      rw [if_pos (by simp only [h2, ne_eq, not_false_eq_true, true_or, or_true])]
      exact Rd.bind_error t2
  · rw [if_neg h1] at t1
    rw [if_pos (by simp only [h1, ne_eq, not_false_eq_true, true_or])]
    exact Rd.bind_error t1

theorem Local.checkRates (ch rate br ba bits : Int) : Local (checkRates ch rate br ba bits) := by
  unfold Pcm.checkRates
  cases i32 (rate * bits) with
  | error f => exact Local.fault f
  | ok m =>
    exact Local.ite (Local.fail _) (Local.ite (Local.fail _)
      (Local.bind (Local.tag _) (fun _ => Local.bind Local.i32 (fun _ => Local.pure _))))

theorem Local.header : Local readPcmHeader :=
  Local.bind (Local.tag _) fun _ => Local.bind Local.i32 fun _ => Local.bind (Local.tag _) fun _ =>
    Local.bind (Local.tag _) fun _ => Local.bind Local.i32 fun _ => Local.ite (Local.fail _)
      (Local.bind Local.i16 fun _ => Local.ite (Local.fail _)
        (Local.bind Local.i16 fun _ => Local.bind Local.i32 fun _ => Local.bind Local.i32 fun _ =>
          Local.bind Local.i16 fun _ => Local.bind Local.i16 fun _ => Local.checkRates _ _ _ _ _))

/-- An accepted file has at least 44 bytes and 44 of them are consumed. -/
theorem header_ok_length {bs rest : List UInt8} {f : Format} (h : readPcmHeader bs = .ok (f, rest)) :
    44 ≤ bs.length := by
  have h1 := Local.header bs (List.replicate 44 0)
  rw [h] at h1
  have h2 : readPcmHeader (bs ++ List.replicate 44 0) = .ok (f, rest ++ List.replicate 44 0) := h1
  rw [header_at (by simp)] at h2
  have h3 : rest ++ List.replicate 44 0 = (bs ++ List.replicate 44 0).drop 44 := by
    unfold headerResult at h2
    split at h2
    · cases h2
    · split at h2
      · cases h2
      · split at h2
        · cases h2
        · injection h2 with h2
          exact (Prod.mk.inj h2).2.symm
  have h4 := congrArg List.length h3
  simp only [List.length_append, List.length_replicate, List.length_drop] at h4
  omega

theorem field_append {h rest : List UInt8} {o n : Nat} (hl : o + n ≤ h.length) :
    field (h ++ rest) o n = field h o n := by
  unfold field
  rw [List.drop_append_of_le_length (by omega), List.take_append_of_le_length (by
    rw [List.length_drop]; omega)]

/-- Exactly which headers `ReadPcmHeader` accepts. -/
theorem header_iff (bs rest : List UInt8) (ch rate bits : Int) :
    readPcmHeader bs = .ok (⟨ch, rate, bits⟩, rest) ↔
      ∃ h, bs = h ++ rest ∧ InI32 (rate * bits) ∧
        Header h ch rate ((rate * bits).tdiv 8) (bits.tdiv 8) bits := by
  constructor
  · intro hok
    have hl := header_ok_length hok
    rw [header_at hl] at hok
    unfold headerResult at hok
    split at hok
    · cases hok
    · rename_i c1
      split at hok
      · cases hok
      · rename_i c2
        split at hok
        · cases hok
        · rename_i c3
          injection hok with hok
          obtain ⟨e1, e2⟩ := Prod.mk.inj hok
          injection e1 with e1 e3 e4
          simp only [not_or, Decidable.not_not] at c1 c2 c3
          have hf : ∀ o n, o + n ≤ 44 → field (bs.take 44) o n = field bs o n := by
            intro o n hon
            conv => rhs; rw [← List.take_append_drop 44 bs]
            rw [field_append (by rw [List.length_take]; omega)]
          refine ⟨bs.take 44, ?_, ?_, ?_⟩
          · rw [← e2, List.take_append_drop]
          · rw [← e3, ← e4]; exact c2
          · subst e1 e3 e4
            exact ⟨by rw [List.length_take]; omega, by rw [hf _ _ (by omega)]; exact c1.1,
              by rw [hf _ _ (by omega)]; exact c1.2.1, by rw [hf _ _ (by omega)]; exact c1.2.2.1,
              by rw [hf _ _ (by omega)]; exact c1.2.2.2.1, by rw [hf _ _ (by omega)]; exact c1.2.2.2.2,
              by rw [hf _ _ (by omega)], by rw [hf _ _ (by omega)],
              by rw [hf _ _ (by omega)]; exact c3.1, by rw [hf _ _ (by omega)]; exact c3.2.1,
              by rw [hf _ _ (by omega)], by rw [hf _ _ (by omega)]; exact c3.2.2⟩
  · rintro ⟨h, rfl, hi, hh⟩
    have hl := hh.length
    rw [header_at (by rw [List.length_append]; omega)]
    unfold headerResult
    have hf : ∀ o n, o + n ≤ 44 → field (h ++ rest) o n = field h o n :=
      fun o n hon => field_append (by omega)
    rw [hf 0 4 (by omega), hf 8 4 (by omega), hf 12 4 (by omega), hf 16 4 (by omega), hf 20 2 (by omega),
      hf 24 4 (by omega), hf 34 2 (by omega), hf 28 4 (by omega), hf 32 2 (by omega), hf 36 4 (by omega),
      hf 22 2 (by omega), hh.fmtSize, hh.pcm, hh.rate_eq, hh.bits_eq, hh.byteRate_eq, hh.blockAlign_eq,
      hh.channels_eq, if_neg, if_neg (fun h => h hi), if_neg]
    · congr 2
      rw [← hl, List.drop_left]
    · simp only [not_or, Decidable.not_not]; exact ⟨trivial, trivial, hh.data⟩
    · simp only [not_or, Decidable.not_not]; exact ⟨hh.riff, hh.wave, hh.fmt, trivial, trivial⟩

/-- Every header with the right tags: what is left to decide. -/
theorem header_cases {h : List UInt8} {ch rate br ba bits : Int} (hh : Header h ch rate br ba bits)
    (rest : List UInt8) :
    readPcmHeader (h ++ rest) =
      if ¬ InI32 (rate * bits) then .error (.fault .ub)
      else if br ≠ (rate * bits).tdiv 8 ∨ ba ≠ bits.tdiv 8 then bad .corruption
      else .ok (⟨ch, rate, bits⟩, rest) := by
  have hl := hh.length
  rw [header_at (by rw [List.length_append]; omega)]
  unfold headerResult
  have hf : ∀ o n, o + n ≤ 44 → field (h ++ rest) o n = field h o n :=
    fun o n hon => field_append (by omega)
  rw [hf 0 4 (by omega), hf 8 4 (by omega), hf 12 4 (by omega), hf 16 4 (by omega), hf 20 2 (by omega),
    hf 24 4 (by omega), hf 34 2 (by omega), hf 28 4 (by omega), hf 32 2 (by omega), hf 36 4 (by omega),
    hf 22 2 (by omega), hh.fmtSize, hh.pcm, hh.rate_eq, hh.bits_eq, hh.byteRate_eq, hh.blockAlign_eq,
    hh.channels_eq, if_neg (by
      simp only [not_or, Decidable.not_not]; exact ⟨hh.riff, hh.wave, hh.fmt, trivial, trivial⟩),
    show (h ++ rest).drop 44 = rest by rw [← hl, List.drop_left]]
  have hd : ∀ p q : Prop, (p ∨ q ∨ field h 36 4 ≠ tagData) ↔ (p ∨ q) := by
    intro p q
    have : ¬ (field h 36 4 ≠ tagData) := fun h => h hh.data
    simp only [this, or_false]
  simp only [hd]

end Verif.Pcm
