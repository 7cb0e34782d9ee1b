import Verif.BeamSpec
import Verif.DecoderProps

/-!
# Lemmas about what the beam keeps
-/

namespace Verif.Decoder.Beam

open Verif Verif.Fst

variable {F D : Type}

/-- With at most 30000 tokens the cutoff is the beam above the best token. -/
theorem cutoff_few {ar : Arith F D} (ho : DOrder ar) {fn : F → Bool} {dn : D → Bool} (hl : NanLaws ar fn dn)
    {l : List (Token F)} (hn : l.length ≤ 30000) {cut : D} {ab : F} {t : Token F}
    (h : getCutoff ar l = .ok (cut, ab, t)) (hc : ar.finite (ar.toD (ar.toF cut)) = true) :
    t ∈ l ∧ cut = ar.dadd (ar.toD t.cost) (ar.toD ar.beam) ∧ ab = ar.beam := by
  obtain ⟨t0, cs, best, _, h1, h2⟩ := getCutoff_cases h
  obtain ⟨_, _, h3, _⟩ := cutoffLoop_spec ho h1
  rcases h2 with ⟨_, rfl, _⟩ | ⟨hf, m, hm, h2⟩
  · rw [hl.inf_round] at hc; cases hc
  · rw [maxActive, if_neg (by omega)] at hm
    cases hm
    cases h2
    rcases h3 with ⟨rfl, _⟩ | ⟨h3, rfl, _⟩
    · rw [hl.inf] at hf; cases hf
    · exact ⟨h3, rfl, rfl⟩

/-- What the cutoff for the arcs of a frame may be: the beam above a cost `R` holds of, or infinite. -/
def Next (ar : Arith F D) (R : D → Prop) (n : D) : Prop :=
  n = ar.inf ∨ ∃ o, R o ∧ n = ar.dadd o (ar.toD ar.beam)

theorem Next.tighten {ar : Arith F D} {R : D → Prop} {n o : D} (h : Next ar R n) (hR : R o) :
    Next ar R (tighten ar ar.beam n o) := by
  unfold Decoder.tighten
  split
  · exact .inr ⟨o, hR, rfl⟩
  · exact h

theorem bestArcs_next {e : Env F D} {f : List F} {R : D → Prop} {t : Token F}
    (hR : ∀ a ∈ e.g.arcs t.state.1, a.ilabel ≠ 0 → ∀ v, IsScore e f a.ilabel v →
      R (e.ar.toD (e.ar.fadd (e.ar.fadd t.cost a.weight) (e.ar.fneg v)))) {n n' : D} (hn : Next e.ar R n)
    (h : (e.g.arcs t.state.1).foldlM (bestArc e f e.ar.beam t.cost) n = .ok n') : Next e.ar R n' := by
  refine foldlM_inv (P := Next e.ar R) ?_ hn h
  intro b a b' ha hb h
  unfold bestArc at h
  split at h
  · cases h; exact hb
  · rename_i h0
    obtain ⟨o, h1, h⟩ := bind_ok h
    cases h
    obtain ⟨v, hv, rfl⟩ := emitTotal_ok h1
    exact hb.tighten (hR a ha h0 v hv)

theorem emitToks_next {e : Env F D} {f : List F} {wc : F} {R : D → Prop} {l : List (Token F)}
    (hR : ∀ t ∈ l, ∀ a ∈ e.g.arcs t.state.1, a.ilabel ≠ 0 → ∀ v, IsScore e f a.ilabel v →
      R (e.ar.toD (e.ar.fadd (e.ar.fadd t.cost a.weight) (e.ar.fneg v)))) {b b' : D × Dec F} (hn : Next e.ar R b.1)
    (h : l.foldlM (emitTok e f wc e.ar.beam) b = .ok b') : Next e.ar R b'.1 := by
  refine foldlM_inv (P := fun b : D × Dec F => Next e.ar R b.1) ?_ hn h
  intro b t b' ht hb h
  unfold emitTok at h
  split at h
  · cases h; exact hb
  · obtain ⟨⟨n, d⟩, h1, h⟩ := bind_ok h
    cases h
    show Next e.ar R (n, d).1
    refine foldlM_inv (P := fun b : D × Dec F => Next e.ar R b.1) ?_ hb h1
    rintro ⟨n0, d0⟩ a ⟨n1, d1⟩ ha hb h
    rcases emitArc_cases h with ⟨_, rfl, _⟩ | ⟨v, h0, hv, ⟨_, rfl, _⟩ | ⟨_, _, _, _, _, _, _, _, rfl⟩⟩
    · exact hb
    · exact hb
    · exact hb.tighten (hR t ht a ha h0 v hv)

/-- The cutoffs of a frame that was reported as processed, from the tokens before it. -/
theorem process_cutoffs {e : Env F D} (ho : DOrder e.ar) {fn : F → Bool} {dn : D → Bool} (hl : NanLaws e.ar fn dn)
    {f : List F} {fuel : Nat} {d d' : Dec F} {c : Option (Cutoffs F D)} (hn : d.toks.length ≤ 30000) {R : D → Prop}
    (hR : ∀ t ∈ d.toks, ∀ a ∈ e.g.arcs t.state.1, a.ilabel ≠ 0 → ∀ v, IsScore e f a.ilabel v →
      R (e.ar.toD (e.ar.fadd (e.ar.fadd t.cost a.weight) (e.ar.fneg v))))
    (h : process e fuel f d = .ok (true, c, d')) :
    ∃ t ∈ d.toks, ∃ n, c = some ⟨e.ar.toF (e.ar.dadd (e.ar.toD t.cost) (e.ar.toD e.ar.beam)), n⟩ ∧ Next e.ar R n ∧
      n ≠ e.ar.inf := by
  obtain ⟨d1, h1, h2⟩ := process_cases h
  obtain ⟨cut, ab, best, h3, h4⟩ := processEmitting_cases h1
  rcases h2 with ⟨_, h2, _⟩ | ⟨c', rfl, ⟨_, h2, _⟩ | ⟨hf, _⟩⟩
  · cases h2
  · cases h2
  · rcases h4 with ⟨h4, _⟩ | ⟨hfin, n0, n, d2, h5, h6, h7, _⟩
    · cases h4
    · cases h7
      obtain ⟨g1, rfl, rfl⟩ := cutoff_few ho hl hn h3 hfin
      refine ⟨best, g1, n, rfl, emitToks_next hR (bestArcs_next (hR best g1) (.inl rfl) h5) h6, ?_⟩
      intro hni
      simp only at hf
      rw [hni, hl.inf_round] at hf
      cases hf

/-- Each frame of a run, with the run before it. -/
theorem run_at {e : Env F D} {fs : List (List F)} {bs : List Bool} {cs : List (Option (Cutoffs F D))} {d : Dec F}
    (h : Run e fs bs cs d) : ∀ {n : Nat} {f : List F}, fs[n]? = some f → (∀ b ∈ bs, b = true) →
    ∃ bs1 cs1 d1 fuel c d2, Run e (fs.take n) bs1 cs1 d1 ∧ process e fuel f d1 = .ok (true, c, d2) ∧
      cs[n]? = some c := by
  have len : ∀ {fs : List (List F)} {bs : List Bool} {cs : List (Option (Cutoffs F D))} {d : Dec F},
      Run e fs bs cs d → cs.length = fs.length := by
    intro fs bs cs d h
    induction h with
    | init => rfl
    | frame _ _ ih => simp [ih]
  induction h with
  | init => intro n f hf; simp at hf
  | @frame fs bs cs d d' fuel f b c hr hp ih =>
    intro n g hg hb
    by_cases hn : n < fs.length
    · rw [List.getElem?_append_left hn] at hg
      obtain ⟨bs1, cs1, d1, fuel1, c1, d2, h1, h2, h3⟩ := ih hg fun b hb' => hb b (by simp [hb'])
      refine ⟨bs1, cs1, d1, fuel1, c1, d2, ?_, h2, ?_⟩
      · rw [List.take_append_of_le_length (by omega)]; exact h1
      · rw [List.getElem?_append_left (by rw [len hr]; exact hn)]; exact h3
    · have hlt := (List.getElem?_eq_some_iff.1 hg).1
      rw [List.length_append, List.length_singleton] at hlt
      have hn' : n = fs.length := by omega
      subst hn'
      rw [List.getElem?_concat_length] at hg
      cases hg
      have := hb b (by simp)
      subst this
      refine ⟨bs, cs, d, fuel, c, d', ?_, hp, ?_⟩
      · rw [List.take_append_of_le_length (by omega), List.take_length]; exact hr
      · rw [← len hr, List.getElem?_concat_length]

/-! ## The bound of the loop over epsilon arcs does not matter -/

theorem nonemitLoop_more {e : Env F D} {cutoff : D} : ∀ {fuel : Nat} (k : Nat) {d d' : Dec F} {stack : List State},
    nonemitLoop e cutoff fuel d stack = .ok d' → nonemitLoop e cutoff (fuel + k) d stack = .ok d'
  | fuel, k, d, d', [], h => by
    have : d = d' := by cases fuel <;> (cases h; rfl)
    subst this
    cases fuel + k <;> rfl
  | 0, _, _, _, _ :: _, h => by cases h
  | fuel + 1, k, d, d', st :: stack, h => by
    rw [show fuel + 1 + k = (fuel + k) + 1 by omega]
    unfold nonemitLoop at h ⊢
    cases hl : d.idx.lookup st with
    | none => rw [hl] at h; cases h
    | some i =>
      rw [hl] at h
      simp only at h ⊢
      obtain ⟨⟨d1, st1⟩, h1, h2⟩ := bind_ok h
      rw [h1, ok_bind]
      exact nonemitLoop_more k h2

theorem processNonemitting_unique {e : Env F D} {cutoff : D} {f1 f2 : Nat} {d d1 d2 : Dec F}
    (h1 : processNonemitting e cutoff f1 d = .ok d1) (h2 : processNonemitting e cutoff f2 d = .ok d2) : d1 = d2 := by
  obtain ⟨_, _, h1⟩ := bind_ok h1
  obtain ⟨_, _, h2⟩ := bind_ok h2
  have h1 := nonemitLoop_more f2 h1
  have h2 := nonemitLoop_more f1 h2
  rw [Nat.add_comm, h2] at h1
  exact (Except.ok.inj h1).symm

theorem process_unique {e : Env F D} {f1 f2 : Nat} {f : List F} {d : Dec F} {x y : Bool × Option (Cutoffs F D) × Dec F}
    (h1 : process e f1 f d = .ok x) (h2 : process e f2 f d = .ok y) : x = y := by
  unfold process at h1 h2
  obtain ⟨⟨c1, d1⟩, g1, h1⟩ := bind_ok h1
  obtain ⟨⟨c2, d2⟩, g2, h2⟩ := bind_ok h2
  rw [g1] at g2
  cases g2
  cases c1 with
  | none => cases h1; cases h2; rfl
  | some c =>
    simp only at h1 h2
    split at h1
    · rename_i hc; rw [if_pos hc] at h2; cases h1; cases h2; rfl
    · rename_i hc
      rw [if_neg hc] at h2
      obtain ⟨e1, k1, h1⟩ := bind_ok h1
      obtain ⟨e2, k2, h2⟩ := bind_ok h2
      cases processNonemitting_unique k1 k2
      exact Except.ok.inj (h1.symm.trans h2)

/-- Two uses of the decoder with the same frames agree. -/
theorem run_unique {e : Env F D} {fs : List (List F)} {bs1 bs2 : List Bool} {cs1 cs2 : List (Option (Cutoffs F D))}
    {d1 d2 : Dec F} (h1 : Run e fs bs1 cs1 d1) (h2 : Run e fs bs2 cs2 d2) : bs1 = bs2 ∧ cs1 = cs2 ∧ d1 = d2 := by
  induction h1 generalizing bs2 cs2 d2 with
  | @init f1 d h1 =>
    generalize hg : ([] : List (List F)) = gs at h2
    cases h2 with
    | frame => simp at hg
    | @init f2 d' h2 =>
      refine ⟨rfl, rfl, ?_⟩
      unfold initDecoder at h1 h2
      obtain ⟨_, _, h1⟩ := bind_ok h1
      obtain ⟨_, _, h2⟩ := bind_ok h2
      obtain ⟨l, a1, h1⟩ := bind_ok h1
      obtain ⟨l', a2, h2⟩ := bind_ok h2
      rw [a1] at a2
      cases a2
      obtain ⟨x, b1, h1⟩ := bind_ok h1
      obtain ⟨x', b2, h2⟩ := bind_ok h2
      rw [b1] at b2
      cases b2
      exact processNonemitting_unique h1 h2
  | @frame fs bs cs d d' fuel f b c hr hp ih =>
    generalize hg : fs ++ [f] = gs at h2
    cases h2 with
    | init => simp at hg
    | @frame fs' bs' cs' x x' fuel' f' b' c' hr' hp' =>
      obtain ⟨rfl, hf⟩ := List.append_inj' hg rfl
      cases hf
      obtain ⟨rfl, rfl, rfl⟩ := ih hr'
      cases process_unique hp hp'
      exact ⟨rfl, rfl, rfl⟩

/-- A run with all frames reported as processed shows the same of its beginnings. -/
theorem alive_of {e : Env F D} {fs : List (List F)} {bs : List Bool} {cs : List (Option (Cutoffs F D))} {d : Dec F}
    (h : Run e fs bs cs d) (hb : ∀ b ∈ bs, b = true) : Alive e fs := by
  intro gs bs' cs' d' hg h'
  have : bs' <+: bs := by
    clear hb
    induction h generalizing gs bs' cs' d' with
    | init h =>
      cases List.prefix_nil.1 hg
      rw [(run_unique (.init h) h').1]
    | @frame fs bs cs d d2 fuel f b c hr hp ih =>
      rcases List.prefix_concat_iff.1 hg with rfl | hg'
      · rw [(run_unique (.frame hr hp) h').1]
      · exact (ih gs bs' cs' d' hg' h').trans (List.prefix_append _ _)
  exact fun b hb' => hb b (this.subset hb')

theorem PathTo.more {e : Env F D} {s0 : State} {fs gs : List (List F)} {p : List (GArc F)} {s : State} {c : F}
    (h : PathTo e s0 fs p s c) (hp : fs <+: gs) : PathTo e s0 gs p s c := by
  induction h with
  | nil => exact .nil
  | eps _ h2 h3 h4 ih => exact .eps ih h2 h3 h4
  | emit _ h2 h3 h4 h5 h6 ih =>
    refine .emit ih h2 h3 ?_ h5 h6
    obtain ⟨t, rfl⟩ := hp
    rw [List.getElem?_append_left (List.getElem?_eq_some_iff.1 h4).1]
    exact h4

/-- The cutoffs of a frame, told by paths. -/
theorem cutoffs_at {e : Env F D} (ho : DOrder e.ar) {fn : F → Bool} {dn : D → Bool} (hl : NanLaws e.ar fn dn)
    {fs : List (List F)} {bs : List Bool} {cs : List (Option (Cutoffs F D))} {d : Dec F} (h : Run e fs bs cs d)
    (hb : ∀ b ∈ bs, b = true) {s0 : State} (hs : StartState e s0) (hfew : Few e fs) {n : Nat} {f : List F}
    (hf : fs[n]? = some f) :
    ∃ q t c' o, PathTo e s0 fs q t c' ∧ emitted q = n ∧ Reached e s0 fs n o ∧
      cs[n]? = some (some ⟨e.ar.toF (e.ar.dadd (e.ar.toD c') (e.ar.toD e.ar.beam)), e.ar.dadd o (e.ar.toD e.ar.beam)⟩) := by
  obtain ⟨bs1, cs1, d1, fuel, c, d2, h1, h2, h3⟩ := run_at h hf hb
  have hlt := (List.getElem?_eq_some_iff.1 hf).1
  have hpre : fs.take n <+: fs := List.take_prefix _ _
  have hlen : (fs.take n).length = n := by rw [List.length_take]; omega
  have hpath : ∀ t ∈ d1.toks, ∃ p, PathTo e s0 fs p t.state t.cost ∧ emitted p = n := by
    intro t ht
    obtain ⟨p, g1, g2, _⟩ := C18_tokens_are_paths h1 hs ht
    exact ⟨p, PathTo.more g1 hpre, by rw [g2, hlen]⟩
  obtain ⟨t, ht, m, rfl, hm, hmi⟩ := process_cutoffs ho hl (hfew _ _ _ _ hpre h1) (R := Reached e s0 fs n)
    (by
      intro t ht a ha h0 v hv
      obtain ⟨p, g1, g2⟩ := hpath t ht
      exact ⟨p, t.state, t.cost, a, f, v, g1, g2, ha, h0, hf, hv, rfl⟩) h2
  obtain ⟨q, g1, g2⟩ := hpath t ht
  rcases hm with hm | ⟨o, ho, rfl⟩
  · exact absurd hm hmi
  · exact ⟨q, _, _, o, g1, g2, ho, h3⟩

theorem emitted_le {e : Env F D} {s0 : State} {fs : List (List F)} {p : List (GArc F)} {s : State} {c : F}
    (h : PathTo e s0 fs p s c) : emitted p ≤ fs.length := by
  induction h with
  | nil => exact Nat.zero_le _
  | eps _ _ h3 _ ih => simpa [emitted, List.filter_append, h3] using ih
  | emit _ _ h3 h4 _ _ _ =>
    have := (List.getElem?_eq_some_iff.1 h4).1
    simp [emitted, List.filter_append, h3] at this ⊢
    omega

theorem InBeam.path {e : Env F D} {s0 : State} {fs : List (List F)} {p : List (GArc F)} {s : State} {c : F}
    (h : InBeam e s0 fs p s c) : PathTo e s0 fs p s c := by
  induction h with
  | nil => exact .nil
  | eps _ h2 h3 h4 _ ih => exact .eps ih h2 h3 h4
  | emit _ h2 h3 h4 h5 h6 _ _ ih => exact .emit ih h2 h3 h4 h5 h6

/-- A path that never leaves the beam is above no cutoff. -/
theorem InBeam.survives {e : Env F D} (ho : DOrder e.ar) {fn : F → Bool} {dn : D → Bool} (hl : NanLaws e.ar fn dn)
    {fs : List (List F)} {bs : List Bool} {cs : List (Option (Cutoffs F D))} {d : Dec F} (h : Run e fs bs cs d)
    (hb : ∀ b ∈ bs, b = true) {s0 : State} (hs : StartState e s0) (hfew : Few e fs) {p : List (GArc F)} {s : State}
    {c : F} (hp : InBeam e s0 fs p s c) : Survives e s0 fs cs p s c := by
  induction hp with
  | nil => exact .nil
  | @eps p s c a l k hp h2 h3 h4 h5 ih =>
    cases hn : emitted p with
    | zero => exact .eps ih h2 h3 h4 (by rw [hn]; rfl) (ho.inf_max ho.isInf_inf _)
    | succ n =>
      have hlt : n < fs.length := by have := emitted_le hp.path; omega
      obtain ⟨q, t, c', o, _, _, g3, g4⟩ := cutoffs_at ho hl h hb hs hfew (List.getElem?_eq_getElem hlt)
      exact .eps ih h2 h3 h4 (by rw [hn]; simp only [epsCutoff, g4]; rfl) (h5 n o hn g3)
  | emit _ h2 h3 h4 h5 h6 h7 h8 ih =>
    obtain ⟨q, t, c', o, g1, g2, g3, g4⟩ := cutoffs_at ho hl h hb hs hfew h4
    exact .emit ih h2 h3 h4 h5 h6 g4 (h7 q t c' g1 g2) (h8 o g3)

/-- The costs of ending in a state depend on the cost before in a monotone way. -/
theorem endCost_mono {e : Env F D} {fn : F → Bool} {dn : D → Bool} (hm : MonoLaws e.ar fn dn) {eos : Bool}
    {t u : Token F} (hs : t.state = u.state) (hc : e.ar.flt u.cost t.cost = false) {x : D} (hx : EndCost e eos u x) :
    ∃ y, EndCost e eos t y ∧ e.ar.dlt x y = false := by
  rcases hx with ⟨rfl, rfl⟩ | ⟨rfl, h1, rfl⟩ | ⟨rfl, lm, w, h1, h2, rfl⟩
  · exact ⟨_, .inl ⟨rfl, rfl⟩, hm.toD hc⟩
  · exact ⟨_, .inr (.inl ⟨rfl, h1, rfl⟩), by rw [hs]; exact hm.dadd _ (hm.toD hc)⟩
  · exact ⟨_, .inr (.inr ⟨rfl, lm, w, h1, by rw [hs]; exact h2, rfl⟩), by
      rw [hs]; exact hm.dadd _ (hm.dadd _ (hm.toD hc))⟩

end Verif.Decoder.Beam
