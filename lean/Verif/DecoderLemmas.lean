import Verif.DecoderSpec

/-!
# Helper lemmas about the beam search
-/

set_option linter.unusedSectionVars false

namespace Verif.Decoder

open Verif Verif.Fst

variable {F D : Type}

theorem foldlM_inv {α β : Type} {P : β → Prop} {f : β → α → Exec β} :
    ∀ {l : List α} {b b' : β}, (∀ b a b', a ∈ l → P b → f b a = .ok b' → P b') → P b →
      l.foldlM f b = .ok b' → P b'
  | [], b, b', _, hb, h => by
    cases (by simpa [pure, Except.pure] using h : b = b'); exact hb
  | a :: l, b, b', hs, hb, h => by
    rw [List.foldlM_cons] at h
    obtain ⟨b1, h1, h2⟩ := bind_ok h
    exact foldlM_inv (fun b a b' ha => hs b a b' (by simp [ha])) (hs _ _ _ (by simp) hb h1) h2

/-! ## Insertion -/

theorem indexExact_nodup {d : Dec F} (h : IndexExact d) {i j : Nat} {t u : Token F}
    (hi : d.toks[i]? = some t) (hj : d.toks[j]? = some u) (hs : t.state = u.state) : i = j := by
  have h1 := (h t.state i).2 ⟨t, hi, rfl⟩
  have h2 := (h t.state j).2 ⟨u, hj, hs.symm⟩
  rw [h1] at h2; exact Option.some.inj h2

/-- What an insertion does. -/
structure Ins (ar : Arith F D) (d : Dec F) (tok : Token F) (ins : Bool) (d' : Dec F) : Prop where
  exact : IndexExact d'
  prev : d'.prev = d.prev
  frames : d'.frames = d.frames
  eos : d'.eos = d.eos
  mem : ∀ t ∈ d'.toks, t ∈ d.toks ∨ (ins = true ∧ t = tok)
  keep : ∀ (i : Nat) (t : Token F), d.toks[i]? = some t → ∃ t', d'.toks[i]? = some t' ∧ t'.state = t.state ∧
    (t' = t ∨ (ar.flt t'.cost t.cost = true ∧ ins = true ∧ t.state = tok.state))
  here : ∃ t ∈ d'.toks, t.state = tok.state ∧ (t = tok ∨ ar.flt tok.cost t.cost = false)
  same : ins = false → d' = d
  live : d.live - d.toks.length ≤ d'.live - d'.toks.length
  nonempty : d'.toks ≠ []

theorem insertTok_spec (e : Env F D) {d : Dec F} (h : IndexExact d) (st : State) (label : Int)
    (hist : List Int) (cost : F) :
    ∃ ins d', insertTok e d st label hist cost = .ok (ins, d') ∧
      Ins e.ar d ⟨st, cost, extendHist hist label⟩ ins d' := by
  unfold insertTok
  cases hl : d.idx.lookup st with
  | none =>
    have hno : ∀ (i : Nat) t, d.toks[i]? = some t → t.state ≠ st := by
      intro i t ht hs
      have := (h st i).2 ⟨t, ht, hs⟩
      simp [hl] at this
    refine ⟨true, _, rfl, ?_⟩
    refine ⟨?_, rfl, rfl, rfl, ?_, ?_, ?_, by simp, ?_, by simp⟩
    · intro s i
      rw [List.lookup_cons]
      by_cases hs : s = st
      · subst hs
        simp only [beq_self_eq_true, Option.some.injEq]
        constructor
        · rintro rfl; exact ⟨⟨s, cost, extendHist hist label⟩, by simp, rfl⟩
        · rintro ⟨t, ht, hts⟩
          rw [List.getElem?_append] at ht
          split at ht
          · exact absurd hts (hno _ _ ht)
          · simp [List.getElem?_singleton] at ht
            omega
      · have : (s == st) = false := by simpa using hs
        simp only [this]
        rw [h s i]
        constructor
        · rintro ⟨t, ht, hts⟩
          refine ⟨t, ?_, hts⟩
          rw [List.getElem?_append_left]
          · exact ht
          · exact (List.getElem?_eq_some_iff.1 ht).1
        · rintro ⟨t, ht, hts⟩
          rw [List.getElem?_append] at ht
          split at ht
          · exact ⟨t, ht, hts⟩
          · simp only [List.getElem?_singleton] at ht
            split at ht
            · cases ht; exact absurd hts.symm hs
            · cases ht
    · intro t ht
      simp only [List.mem_append, List.mem_singleton] at ht
      rcases ht with ht | ht
      · exact .inl ht
      · exact .inr ⟨rfl, ht⟩
    · intro i t ht
      refine ⟨t, ?_, rfl, .inl rfl⟩
      rw [List.getElem?_append_left]
      · exact ht
      · exact (List.getElem?_eq_some_iff.1 ht).1
    · exact ⟨⟨st, cost, extendHist hist label⟩, by simp, rfl, .inl rfl⟩
    · simp; omega
  | some i =>
    obtain ⟨old, ho, hos⟩ := (h st i).1 hl
    have hi : i < d.toks.length := (List.getElem?_eq_some_iff.1 ho).1
    simp only [ho]
    cases hc : e.ar.flt cost old.cost with
    | true =>
      refine ⟨true, _, rfl, ?_⟩
      refine ⟨?_, rfl, rfl, rfl, ?_, ?_, ?_, by simp, ?_, ?_⟩
      · intro s j
        rw [h s j]
        show _ ↔ ∃ t, (d.toks.set i _)[j]? = some t ∧ _
        rw [List.getElem?_set]
        by_cases hij : i = j
        · subst hij
          simp only [ho, hi, if_true, Option.some.injEq]
          constructor
          · rintro ⟨t, rfl, hts⟩
            exact ⟨_, rfl, by rw [← hts, hos]⟩
          · rintro ⟨t, rfl, hts⟩
            exact ⟨_, rfl, by rw [← hts, hos]⟩
        · simp [hij]
      · intro t ht
        rcases List.mem_or_eq_of_mem_set ht with ht | ht
        · exact .inl ht
        · exact .inr ⟨rfl, ht⟩
      · intro j t ht
        show ∃ t', (d.toks.set i _)[j]? = some t' ∧ _
        rw [List.getElem?_set]
        by_cases hij : i = j
        · subst hij
          rw [ho] at ht; cases ht
          refine ⟨_, by simp [hi]; rfl, hos.symm, .inr ⟨hc, rfl, hos⟩⟩
        · exact ⟨t, by simp [hij, ht], rfl, .inl rfl⟩
      · refine ⟨⟨st, cost, extendHist hist label⟩, ?_, rfl, .inl rfl⟩
        exact List.mem_set (by exact hi) _
      · simp; omega
      · intro hn
        have := congrArg List.length hn
        simp at this
        rw [this] at hi; simp at hi
    | false =>
      refine ⟨false, d, rfl, ?_⟩
      refine ⟨h, rfl, rfl, rfl, fun t ht => .inl ht, fun j t ht => ⟨t, ht, rfl, .inl rfl⟩, ?_, fun _ => rfl,
        Int.le_refl _, ?_⟩
      · exact ⟨old, List.mem_of_getElem? ho, hos, .inr hc⟩
      · rintro hn; rw [hn] at hi; simp at hi

theorem insertTok_ins {e : Env F D} {d d' : Dec F} {st : State} {label : Int} {hist : List Int} {cost : F}
    {ins : Bool} (h : IndexExact d) (hi : insertTok e d st label hist cost = .ok (ins, d')) :
    Ins e.ar d ⟨st, cost, extendHist hist label⟩ ins d' := by
  obtain ⟨i, d1, h1, h2⟩ := insertTok_spec e h st label hist cost
  rw [h1] at hi; cases hi; exact h2

/-! ## Language model and scores -/

theorem addLm_move {e : Env F D} {s l s' : Int} {t t' : D} (h : addLm e s l t = .ok (s', t')) :
    ∃ k, LmMove e s l s' k ∧ t' = k t := by
  unfold addLm at h
  cases hm : e.lm with
  | none => rw [hm] at h; cases h; exact ⟨id, .off hm, rfl⟩
  | some lm =>
    rw [hm] at h
    obtain ⟨⟨s1, w⟩, h1, h2⟩ := bind_ok h
    cases h2
    unfold propagateLm at h1
    split at h1
    · rename_i hl
      obtain ⟨r, hr, h3⟩ := bind_ok h1
      cases r with
      | none => cases h3; exact ⟨_, .unknown hm hl hr, rfl⟩
      | some a => cases h3; exact ⟨_, .word hm hl hr, rfl⟩
    · rename_i hl
      cases h1
      have : l = 0 := by omega
      subst this
      exact ⟨_, .silent hm, rfl⟩

theorem addLm_of {e : Env F D} {s l s' : Int} {k : D → D} (h : LmMove e s l s' k) (t : D) :
    addLm e s l t = .ok (s', k t) := by
  cases h with
  | off hm => simp [addLm, hm]
  | silent hm => simp [addLm, hm, propagateLm, ok_bind]
  | word hm hl hr => simp [addLm, hm, propagateLm, hl, hr, ok_bind]
  | unknown hm hl hr => simp [addLm, hm, propagateLm, hl, hr, ok_bind]

theorem vget_iff {α : Type} {v : List α} {i : Int} {x : α} :
    vget v i = .ok x ↔ ∃ n : Nat, i = n ∧ v[n]? = some x := by
  unfold vget
  constructor
  · intro h
    obtain ⟨_, h1, h2⟩ := bind_ok h
    have h2 := aget_ok h2
    exact ⟨i.toNat, (Int.toNat_of_nonneg h2.1).symm, h2.2.2⟩
  · rintro ⟨n, rfl, hn⟩
    have hlt := (List.getElem?_eq_some_iff.1 hn).1
    have hc : decide ((n : Int) < v.length) = true := by
      simp; omega
    rw [hc, cassert_true, ok_bind, aget_nat hn]

theorem logLikelihood_iff {e : Env F D} {f : List F} {t : Int} {v : F} :
    logLikelihood e f t = .ok v ↔ IsScore e f t v := by
  unfold logLikelihood IsScore
  constructor
  · intro h
    obtain ⟨p, h1, h2⟩ := bind_ok h
    obtain ⟨lp, h3, h4⟩ := bind_ok h2
    cases h4
    obtain ⟨ti, ht, h1⟩ := vget_iff.1 h1
    obtain ⟨pi, hp, h5⟩ := vget_iff.1 h3
    subst hp
    exact ⟨ti, pi, lp, ht, h1, h5, rfl⟩
  · rintro ⟨ti, pi, lp, ht, h1, h3, rfl⟩
    rw [vget_iff.2 ⟨ti, ht, h1⟩, ok_bind, vget_iff.2 ⟨pi, rfl, h3⟩, ok_bind]

theorem emitTotal_ok {e : Env F D} {f : List F} {c : F} {a : GArc F} {t : D}
    (h : emitTotal e f c a = .ok t) :
    ∃ v, IsScore e f a.ilabel v ∧ t = e.ar.toD (e.ar.fadd (e.ar.fadd c a.weight) (e.ar.fneg v)) := by
  obtain ⟨v, h1, h2⟩ := bind_ok h
  cases h2
  exact ⟨v, logLikelihood_iff.1 h1, rfl⟩

theorem emitTotal_of {e : Env F D} {f : List F} {c v : F} {a : GArc F} (h : IsScore e f a.ilabel v) :
    emitTotal e f c a = .ok (e.ar.toD (e.ar.fadd (e.ar.fadd c a.weight) (e.ar.fneg v))) := by
  unfold emitTotal
  rw [logLikelihood_iff.2 h, ok_bind]

end Verif.Decoder
