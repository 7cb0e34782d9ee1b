import Verif.NanSpec
import Verif.DecoderSample
import Verif.DecoderOptimal

/-!
# The beam search and values that are not numbers
-/

namespace Verif.Decoder

open Verif Verif.Fst

variable {F D : Type} {fn : F → Bool} {dn : D → Bool}

/-! ## Costs that leave no hope -/

variable {sl cl : F → Bool} {dl : D → Bool}

/-- NaN leaves no hope. -/
theorem NanLaws.lost {e : Env F D} (hl : NanLaws e.ar fn dn) : LostLaws e fn fn dn where
  score h := hl.neg (hl.mul _ h)
  addl := hl.addl
  addr := hl.addr
  toD := hl.toD
  toF := hl.toF
  daddl := hl.daddl
  dltl := hl.dltl
  inf := hl.inf
  inf_round := hl.inf_round

theorem LostLaws.move {e : Env F D} (hl : LostLaws e sl cl dl) {s w l : Int} {k : D → D} (hk : LmMove e s w l k) {c : D}
    (hc : dl c = true) : dl (k c) = true := by
  cases hk with
  | off => exact hc
  | silent => exact hl.daddl _ hc
  | word => exact hl.daddl _ hc
  | unknown => exact hl.daddl _ hc

theorem LostLaws.step {e : Env F D} (hl : LostLaws e sl cl dl) {s w l : Int} {k : D → D} (hk : LmMove e s w l k) {c wt a : F}
    (h : cl c = true ∨ cl wt = true ∨ cl a = true) : cl (stepCost e c wt a k) = true := by
  refine hl.toF (hl.move hk (hl.toD ?_))
  rcases h with h | h | h
  · exact hl.addl _ (hl.addl _ h)
  · exact hl.addl _ (hl.addr _ h)
  · exact hl.addr _ h

theorem endCost_lost {e : Env F D} (hl : LostLaws e sl cl dl) {eos : Bool} {t : Token F} {c : D} (h : EndCost e eos t c)
    (hc : cl t.cost = true) : dl c = true := by
  have hd := hl.toD hc
  rcases h with ⟨_, rfl⟩ | ⟨_, _, rfl⟩ | ⟨_, _, _, _, _, rfl⟩
  · exact hd
  · exact hl.daddl _ hd
  · exact hl.daddl _ (hl.daddl _ hd)

/-- Tokens whose costs leave no hope never win. -/
theorem bestLoop_lost {e : Env F D} (hl : LostLaws e sl cl dl) {eos : Bool} : ∀ {l : List (Token F)} {b : Option (Token F)}
    {c : D} {r : Option (Token F) × D}, (∀ t ∈ l, cl t.cost = true) → bestLoop e eos l b c = .ok r → r = (b, c)
  | [], _, _, _, _, h => by cases h; rfl
  | t :: l, b, c, r, ht, h => by
    obtain ⟨x, h1, h2⟩ := bind_ok h
    have hx : dl x = true := endCost_lost hl (pathCost_iff.1 h1) (ht t (by simp))
    rw [if_neg (by rw [hl.dltl _ hx]; simp)] at h2
    exact bestLoop_lost hl (fun u hu => ht u (by simp [hu])) h2

theorem bestPath_lost {e : Env F D} (hl : LostLaws e sl cl dl) {d : Dec F} (ht : ∀ t ∈ d.toks, cl t.cost = true)
    {r : List Int × F} (h : bestPath e d = .ok r) : r = ([], e.ar.zero) := by
  obtain ⟨⟨b, c⟩, h1, h2⟩ := bind_ok h
  have := bestLoop_lost hl ht h1
  cases this
  cases h2
  rfl

/-! ## A frame without hope -/

theorem score_lost {e : Env F D} (hl : LostLaws e sl cl dl) {f : List F} (hf : ∀ x ∈ f, sl x = true) {t : Int} {v : F}
    (h : IsScore e f t v) : cl (e.ar.fneg v) = true := by
  obtain ⟨_, _, lp, _, _, h3, rfl⟩ := h
  exact hl.score (hf lp (List.mem_of_getElem? h3))

theorem emitClosed_lost {e : Env F D} (hl : LostLaws e sl cl dl) {f : List F} (hf : ∀ x ∈ f, sl x = true) :
    EmitClosed e f (fun _ => True) (fun t => cl t.cost = true) :=
  fun _ _ _ _ _ _ _ _ hv hk => hl.step hk (.inr (.inr (score_lost hl hf hv)))

theorem tighten_lost {e : Env F D} (hl : LostLaws e sl cl dl) (ab : F) (nwc : D) {t : D} (ht : dl t = true) :
    tighten e.ar ab nwc t = nwc := by
  unfold tighten
  rw [if_neg (by rw [hl.dltl _ (hl.daddl _ ht)]; decide)]

theorem bestArc_lost {e : Env F D} (hl : LostLaws e sl cl dl) {f : List F} (hf : ∀ x ∈ f, sl x = true) {ab c : F}
    {nwc nwc' : D} {a : GArc F} (h : bestArc e f ab c nwc a = .ok nwc') : nwc' = nwc := by
  unfold bestArc at h
  split at h
  · cases h; rfl
  · obtain ⟨t, h1, h2⟩ := bind_ok h
    obtain ⟨v, hv, rfl⟩ := emitTotal_ok h1
    cases h2
    exact tighten_lost hl _ _ (hl.toD (hl.addr _ (score_lost hl hf hv)))

theorem emitArc_lost {e : Env F D} (hl : LostLaws e sl cl dl) {f : List F} (hf : ∀ x ∈ f, sl x = true) {ab : F}
    {t : Token F} {b b' : D × Dec F} {a : GArc F} (h : emitArc e f ab t b a = .ok b') : b'.1 = b.1 := by
  obtain ⟨nwc, d⟩ := b
  obtain ⟨nwc', d'⟩ := b'
  rcases emitArc_cases h with ⟨_, rfl, _⟩ | ⟨v, _, hv, ⟨_, rfl, _⟩ | ⟨_, _, _, _, _, _, _, _, rfl⟩⟩
  · rfl
  · rfl
  · exact tighten_lost hl _ _ (hl.toD (hl.addr _ (score_lost hl hf hv)))

theorem emitTok_lost {e : Env F D} (hl : LostLaws e sl cl dl) {f : List F} (hf : ∀ x ∈ f, sl x = true) {wc ab : F}
    {t : Token F} {b b' : D × Dec F} (h : emitTok e f wc ab b t = .ok b') : b'.1 = b.1 := by
  unfold emitTok at h
  split at h
  · cases h; rfl
  · obtain ⟨⟨n, d⟩, h1, h2⟩ := bind_ok h
    cases h2
    have h3 := foldlM_inv (P := fun x : D × Dec F => x.1 = b.1)
      (fun x a x' _ hx hs => (emitArc_lost hl hf hs).trans hx) rfl h1
    exact h3

theorem process_lost {e : Env F D} (hl : LostLaws e sl cl dl) {f : List F} (hf : ∀ x ∈ f, sl x = true) {fuel : Nat}
    {d d' : Dec F} {b : Bool} {c : Option (Cutoffs F D)} (hprev : d.prev = [] ∨ d.toks = [])
    (h : process e fuel f d = .ok (b, c, d')) :
    b = false ∧ (∀ t ∈ d'.toks, cl t.cost = true) ∧ (d'.prev = [] ∨ d'.toks = []) := by
  have hne : d.toks ≠ [] := by
    intro hn
    rw [process_nil hn] at h; cases h
  have hprev : d.prev = [] := hprev.resolve_right hne
  obtain ⟨d1, h1, h⟩ := process_cases h
  obtain ⟨_, hq, _, _, hn, hs, _⟩ := processEmitting_inv (emitClosed_lost hl hf) hprev (fun _ _ => trivial) h1
  rcases h with ⟨rfl, rfl, rfl⟩ | ⟨c', rfl, ⟨_, rfl, rfl⟩ | ⟨hfin, d2, h2, h⟩⟩
  · exact ⟨rfl, hq, .inr (by rw [hn rfl]; exact hprev)⟩
  · exact ⟨rfl, hq, .inl (hs (by simp))⟩
  · obtain ⟨cut, ab, best, _, h3 | ⟨_, nwc0, nwc, d3, h4, h5, h6, _⟩⟩ := processEmitting_cases h1
    · cases h3.1
    · cases h6
      have e0 : nwc0 = e.ar.inf := foldlM_inv (P := fun x : D => x = e.ar.inf)
        (fun x a x' _ hx hs => (bestArc_lost hl hf hs).trans hx) rfl h4
      have e1 : nwc = nwc0 := foldlM_inv (P := fun x : D × Dec F => x.1 = nwc0)
        (fun x a x' _ hx hs => (emitTok_lost hl hf hs).trans hx) rfl h5
      subst e1 e0
      simp only at hfin
      rw [hl.inf_round] at hfin
      cases hfin

/-! ## The frames after it -/

theorem cutoffLoop_lost {e : Env F D} (hl : LostLaws e sl cl dl) {n : Nat} : ∀ {l : List (Token F)} {x : Nat}
    {cs : List F} {c0 : D} {t0 : Token F}, (∀ t ∈ l, cl t.cost = true) → (cutoffLoop e.ar n l x cs c0 t0).2.1 = c0
  | [], _, _, _, _, _ => rfl
  | t :: l, x, cs, c0, t0, h => by
    unfold cutoffLoop
    simp only
    rw [if_neg (by rw [hl.dltl _ (hl.toD (h t (by simp)))]; decide)]
    exact cutoffLoop_lost hl fun u hu => h u (by simp [hu])

theorem getCutoff_lost {e : Env F D} (hl : LostLaws e sl cl dl) {l : List (Token F)} (h : ∀ t ∈ l, cl t.cost = true)
    {cut : D} {ab : F} {t : Token F} (hg : getCutoff e.ar l = .ok (cut, ab, t)) : cut = e.ar.inf := by
  obtain ⟨t0, cs, best, _, h1, h2⟩ := getCutoff_cases hg
  have hb : best = e.ar.inf := by
    have := cutoffLoop_lost hl (n := l.length) (x := 802) (cs := []) (c0 := e.ar.inf) (t0 := t0) h
    rw [h1] at this
    exact this
  subst hb
  rcases h2 with ⟨_, h2, _⟩ | ⟨h2, _⟩
  · exact h2
  · rw [hl.inf] at h2; cases h2

theorem process_after_lost {e : Env F D} (hl : LostLaws e sl cl dl) {d : Dec F} (ht : ∀ t ∈ d.toks, cl t.cost = true)
    (hprev : d.prev = [] ∨ d.toks = []) {fuel : Nat} {f : List F} {b : Bool} {c : Option (Cutoffs F D)} {d' : Dec F}
    (h : process e fuel f d = .ok (b, c, d')) : b = false ∧ c = none ∧ d'.toks = [] := by
  have hne : d.toks ≠ [] := by
    intro hn
    rw [process_nil hn] at h; cases h
  have hprev : d.prev = [] := hprev.resolve_right hne
  obtain ⟨d1, h1, h⟩ := process_cases h
  obtain ⟨cut, ab, best, hg, ⟨rfl, rfl, _⟩ | ⟨hfin, _⟩⟩ := processEmitting_cases h1
  · rcases h with ⟨_, rfl, rfl⟩ | ⟨_, h, _⟩
    · exact ⟨rfl, rfl, hprev⟩
    · cases h
  · rw [getCutoff_lost hl ht hg, hl.inf_round] at hfin; cases hfin

theorem process_after_lost_ok {e : Env F D} (hl : LostLaws e sl cl dl) {d : Dec F} (ht : ∀ t ∈ d.toks, cl t.cost = true)
    (hne : d.toks ≠ []) (fuel : Nat) (f : List F) : ∃ r, process e fuel f d = .ok r := by
  cases hd : d.toks with
  | nil => exact absurd hd hne
  | cons t0 l =>
    unfold process processEmitting
    simp only [hd]
    rw [hd] at ht
    unfold getCutoff
    have h := cutoffLoop_lost hl (n := (t0 :: l).length) (x := 802) (cs := []) (c0 := e.ar.inf) (t0 := t0) ht
    rcases hc : cutoffLoop e.ar (t0 :: l).length (t0 :: l) 802 [] e.ar.inf t0 with ⟨cs, best, t⟩
    rw [hc] at h
    simp only at h
    subst h
    simp only [hc, hl.inf, if_true, ok_bind, hl.inf_round]
    exact ⟨_, rfl⟩

/-! ## Paths of numbers -/

theorem num_step {e : Env F D} (hl : NanLaws e.ar fn dn) {s w l : Int} {k : D → D} (hk : LmMove e s w l k) {c wt a : F}
    (h : fn (stepCost e c wt a k) = false) : fn c = false ∧ fn wt = false ∧ fn a = false := by
  refine ⟨?_, ?_, ?_⟩
  · cases hc : fn c with
    | false => rfl
    | true => rw [hl.lost.step hk (.inl hc)] at h; cases h
  · cases hc : fn wt with
    | false => rfl
    | true => rw [hl.lost.step hk (.inr (.inl hc))] at h; cases h
  · cases hc : fn a with
    | false => rfl
    | true => rw [hl.lost.step hk (.inr (.inr hc))] at h; cases h

/-- A path whose cost is a number uses numbers only. -/
theorem PathTo.num {e : Env F D} (hl : NanLaws e.ar fn dn) {s0 : State} {fs : List (List F)} {p : List (GArc F)}
    {s : State} {c : F} (h : PathTo e s0 fs p s c) (hc : fn c = false) : NumPath e fn s0 fs p s c := by
  induction h with
  | nil => exact .nil
  | eps _ ha h0 hk ih =>
    obtain ⟨h1, h2, _⟩ := num_step hl hk hc
    exact .eps (ih h1) ha h0 h2 hk hc
  | emit _ ha h0 hf hv hk ih =>
    obtain ⟨h1, h2, h3⟩ := num_step hl hk hc
    obtain ⟨ti, pi, lp, e1, e2, e3, rfl⟩ := hv
    refine .emit (ih h1) ha h0 h2 hf ⟨ti, pi, lp, e1, e2, e3, ?_, rfl⟩ hk hc
    cases hn : fn lp with
    | false => rfl
    | true => rw [hl.neg (hl.mul _ hn)] at h3; cases h3

theorem endCost_num {e : Env F D} (hl : NanLaws e.ar fn dn) {eos : Bool} {t : Token F} {c : D} (h : EndCost e eos t c)
    (hc : dn c = false) : fn t.cost = false := by
  cases hn : fn t.cost with
  | false => rfl
  | true => rw [endCost_lost hl.lost h hn] at hc; cases hc

/-! ## Too many tokens -/

theorem not_comparable {ar : Arith F D} (hl : NanLaws ar fn dn) {cs : List F} {a b x : F} (ha : a ∈ cs) (hb : b ∈ cs)
    (hx : x ∈ cs) (hab : ar.flt a b = true) (hn : fn x = true) : ¬ Comparable ar cs := by
  intro h
  have := h.tie a ha x hx b hb (hl.fltr _ hn) (hl.fltl _ hn) (hl.fltl _ hn) (hl.fltr _ hn)
  rw [hab] at this
  cases this

theorem getCutoff_ub {ar : Arith F D} {l : List (Token F)} (hn : 30000 < l.length) {t0 : Token F} (h0 : l.head? = some t0)
    {cs : List F} {best : D} {t : Token F} (hc : cutoffLoop ar l.length l 802 [] ar.inf t0 = (cs, best, t))
    (hf : ar.finite best = true) (hcm : ¬ Comparable ar cs) : getCutoff ar l = .error .ub := by
  cases l with
  | nil => cases h0
  | cons u l =>
    cases h0
    unfold getCutoff
    simp only [hc]
    rw [if_neg (by rw [hf]; decide)]
    have : weakOrder ar cs = false := by
      cases hw : weakOrder ar cs with
      | false => rfl
      | true => exact absurd (weakOrder_iff.1 hw) hcm
    unfold maxActive
    rw [if_pos hn, if_pos this]
    rfl

theorem process_ub {e : Env F D} {fuel : Nat} {f : List F} {d : Dec F} (h : getCutoff e.ar d.toks = .error .ub) :
    process e fuel f d = .error .ub := by
  unfold process processEmitting
  simp only [h, error_bind]

end Verif.Decoder
