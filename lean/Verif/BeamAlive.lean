import Verif.BeamLemmas

/-!
# A path in the beam keeps the beam alive
-/

namespace Verif.Decoder.Beam

open Verif Verif.Fst

variable {F D : Type} {fn : F → Bool} {dn : D → Bool}

theorem Reached.more {e : Env F D} {s0 : State} {fs gs : List (List F)} {n : Nat} {o : D} (h : Reached e s0 gs n o)
    (hp : gs <+: fs) : Reached e s0 fs n o := by
  obtain ⟨p, s, c, a, f, v, h1, h2, h3, h4, h5, h6, h7⟩ := h
  obtain ⟨t, rfl⟩ := id hp
  refine ⟨p, s, c, a, f, v, PathTo.more h1 hp, h2, h3, h4, ?_, h6, h7⟩
  rw [List.getElem?_append_left (List.getElem?_eq_some_iff.1 h5).1]
  exact h5

/-- A path in the beam over some frames is in the beam over the first of them. -/
theorem InBeam.restrict {e : Env F D} {s0 : State} {fs gs : List (List F)} (hg : gs <+: fs) {p : List (GArc F)}
    {s : State} {c : F} (h : InBeam e s0 fs p s c) (hn : emitted p ≤ gs.length) : InBeam e s0 gs p s c := by
  induction h with
  | nil => exact .nil
  | eps _ h2 h3 h4 h5 ih =>
    rw [emitted_eps h3] at hn
    exact .eps (ih hn) h2 h3 h4 fun n o hn ho => h5 n o hn (ho.more hg)
  | emit _ h2 h3 h4 h5 h6 h7 h8 ih =>
    rw [emitted_emit h3] at hn
    obtain ⟨t, rfl⟩ := id hg
    rw [List.getElem?_append_left (by omega)] at h4
    exact .emit (ih (by omega)) h2 h3 h4 h5 h6 (fun q t c' hq hn => h7 q t c' (PathTo.more hq hg) hn)
      fun o ho => h8 o (ho.more hg)

/-- Where a path in the beam consumes the frame number `n`. -/
theorem InBeam.at {e : Env F D} {s0 : State} {fs : List (List F)} {p : List (GArc F)} {s : State} {c : F}
    (h : InBeam e s0 fs p s c) {n : Nat} (hn : n < emitted p) :
    ∃ q t x v a l k f, InBeam e s0 fs q t x ∧ emitted q = n ∧ a ∈ e.g.arcs t.1 ∧ a.ilabel ≠ 0 ∧ fs[n]? = some f ∧
      IsScore e f a.ilabel v ∧ LmMove e t.2 a.olabel l k ∧
      (∀ q' t' c', PathTo e s0 fs q' t' c' → emitted q' = n →
        e.ar.flt (e.ar.toF (e.ar.dadd (e.ar.toD c') (e.ar.toD e.ar.beam))) x = false) ∧
      (∀ o, Reached e s0 fs n o → e.ar.dlt (e.ar.dadd o (e.ar.toD e.ar.beam))
        (e.ar.toD (e.ar.fadd (e.ar.fadd x a.weight) (e.ar.fneg v))) = false) := by
  induction h with
  | nil => simp [emitted] at hn
  | eps _ h2 h3 h4 h5 ih =>
    rw [emitted_eps h3] at hn
    exact ih hn
  | @emit p s c v a l k f h1 h2 h3 h4 h5 h6 h7 h8 ih =>
    rw [emitted_emit h3] at hn
    by_cases hlt : n < emitted p
    · exact ih hlt
    · obtain rfl : n = emitted p := by omega
      exact ⟨p, s, c, v, a, l, k, f, h1, rfl, h2, h3, h4, h5, h6, h7, h8⟩

/-- With at most 30000 tokens, one of them below infinity, there is a cutoff. -/
theorem cutoff_few_finite {ar : Arith F D} (ho : DOrder ar) {l : List (Token F)} (hn : l.length ≤ 30000)
    (hfin : ∀ t ∈ l, ar.finite (ar.toD t.cost) = true ∧
      ar.finite (ar.toD (ar.toF (ar.dadd (ar.toD t.cost) (ar.toD ar.beam)))) = true) {u : Token F} (hu : u ∈ l)
    (hlt : ar.dlt (ar.toD u.cost) ar.inf = true) {cut : D} {ab : F} {t : Token F}
    (h : getCutoff ar l = .ok (cut, ab, t)) : ar.finite (ar.toD (ar.toF cut)) = true := by
  obtain ⟨t0, cs, best, _, h1, h2⟩ := getCutoff_cases h
  obtain ⟨_, h4, h3, _⟩ := cutoffLoop_spec ho h1
  rcases h3 with ⟨rfl, _⟩ | ⟨h3, rfl, _⟩
  · rw [h4 u hu] at hlt; cases hlt
  · rcases h2 with ⟨hf, _⟩ | ⟨hf, m, hm, h2⟩
    · rw [(hfin t h3).1] at hf; cases hf
    · rw [maxActive, if_neg (by omega)] at hm
      cases hm
      cases h2
      exact (hfin t h3).2

/-- As long as nothing was inserted the cutoff for arcs may be infinite; afterwards it is not. -/
def Opened (ar : Arith F D) (b : D × Dec F) : Prop := b.1 ≠ ar.inf ∨ b.2.toks = []

theorem emitToks_opened {e : Env F D} (ho : DOrder e.ar) {f : List F} {wc : F} {l : List (Token F)}
    (hR : ∀ t ∈ l, ∀ a ∈ e.g.arcs t.state.1, a.ilabel ≠ 0 → ∀ v, IsScore e f a.ilabel v →
      e.ar.dlt (e.ar.dadd (e.ar.toD (e.ar.fadd (e.ar.fadd t.cost a.weight) (e.ar.fneg v))) (e.ar.toD e.ar.beam))
        e.ar.inf = true) {b b' : D × Dec F} (hn : Opened e.ar b)
    (h : l.foldlM (emitTok e f wc e.ar.beam) b = .ok b') : Opened e.ar b' := by
  refine foldlM_inv (P := Opened e.ar) ?_ hn h
  intro b t b' ht hb h
  unfold emitTok at h
  split at h
  · cases h; exact hb
  · obtain ⟨⟨n, d⟩, h1, h⟩ := bind_ok h
    cases h
    have : Opened e.ar (n, d) := by
      refine foldlM_inv (P := Opened e.ar) ?_ hb h1
      rintro ⟨n0, d0⟩ a ⟨n1, d1⟩ ha hb h
      rcases emitArc_cases h with ⟨_, rfl, rfl⟩ | ⟨v, h0, hv, ⟨_, rfl, rfl⟩ | ⟨_, _, _, _, _, _, _, _, rfl⟩⟩
      · exact hb
      · exact hb
      · left
        have := hR t ht a ha h0 v hv
        show tighten _ _ _ _ ≠ _
        unfold Decoder.tighten
        split
        · intro hc; rw [hc, ho.irrefl] at this; cases this
        · rename_i hc
          intro hi
          rw [hi] at hc
          exact hc this
    exact this

end Verif.Decoder.Beam
