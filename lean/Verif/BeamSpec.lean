import Verif.DecoderSpec

/-!
# Specification of what the beam keeps

Paths that never leave the beam, told from the graph and the frames alone: no cutoff the decoder computed is mentioned.
-/

namespace Verif.Decoder.Beam

open Verif Verif.Fst

variable {F D : Type}

/-- `o` is the cost, before the language model, of some path over the first `n` frames together with one arc that consumes
the frame number `n` (counted from zero). -/
def Reached (e : Env F D) (s0 : State) (frames : List (List F)) (n : Nat) (o : D) : Prop :=
  ∃ p s c a f v, PathTo e s0 frames p s c ∧ emitted p = n ∧ a ∈ e.g.arcs s.1 ∧ a.ilabel ≠ 0 ∧
    frames[n]? = some f ∧ IsScore e f a.ilabel v ∧
    o = e.ar.toD (e.ar.fadd (e.ar.fadd c a.weight) (e.ar.fneg v))

/-- A path that never leaves the beam: wherever it consumes a frame its cost is at most the beam above the cost of every
other path over the frames before, and so it is, with the arc that consumes the frame, compared with every other path
that consumes the frame; a cost after an arc that consumes nothing is compared (as a `float`) with those of the paths that
consumed the latest frame. -/
inductive InBeam (e : Env F D) (s0 : State) (frames : List (List F)) : List (GArc F) → State → F → Prop where
  | nil : InBeam e s0 frames [] s0 e.ar.zero
  | eps {p : List (GArc F)} {s : State} {c : F} {a : GArc F} {l : Int} {k : D → D} :
      InBeam e s0 frames p s c → a ∈ e.g.arcs s.1 → a.ilabel = 0 → LmMove e s.2 a.olabel l k →
      (∀ n o, emitted p = n + 1 → Reached e s0 frames n o →
        e.ar.dlt (e.ar.toD (e.ar.toF (e.ar.dadd o (e.ar.toD e.ar.beam))))
          (k (e.ar.toD (e.ar.fadd (e.ar.fadd c a.weight) e.ar.zero))) = false) →
      InBeam e s0 frames (p ++ [a]) (a.next, l) (stepCost e c a.weight e.ar.zero k)
  | emit {p : List (GArc F)} {s : State} {c v : F} {a : GArc F} {l : Int} {k : D → D} {f : List F} :
      InBeam e s0 frames p s c → a ∈ e.g.arcs s.1 → a.ilabel ≠ 0 → frames[emitted p]? = some f →
      IsScore e f a.ilabel v → LmMove e s.2 a.olabel l k →
      (∀ q t c', PathTo e s0 frames q t c' → emitted q = emitted p →
        e.ar.flt (e.ar.toF (e.ar.dadd (e.ar.toD c') (e.ar.toD e.ar.beam))) c = false) →
      (∀ o, Reached e s0 frames (emitted p) o →
        e.ar.dlt (e.ar.dadd o (e.ar.toD e.ar.beam))
          (e.ar.toD (e.ar.fadd (e.ar.fadd c a.weight) (e.ar.fneg v))) = false) →
      InBeam e s0 frames (p ++ [a]) (a.next, l) (stepCost e c a.weight (e.ar.fneg v) k)

/-- After no number of frames are there more than 30000 active tokens. -/
def Few (e : Env F D) (frames : List (List F)) : Prop :=
  ∀ gs bs cs d, gs <+: frames → Run e gs bs cs d → d.toks.length ≤ 30000

/-- Every frame is reported as processed. -/
def Alive (e : Env F D) (frames : List (List F)) : Prop :=
  ∀ gs bs cs d, gs <+: frames → Run e gs bs cs d → ∀ b ∈ bs, b = true

/-- No sum of costs is too large for the arithmetic, with the beam added or without. -/
structure Bounded (e : Env F D) (s0 : State) (frames : List (List F)) : Prop where
  path : ∀ p s c, PathTo e s0 frames p s c → e.ar.finite (e.ar.toD c) = true ∧ e.ar.dlt (e.ar.toD c) e.ar.inf = true ∧
    e.ar.finite (e.ar.toD (e.ar.toF (e.ar.dadd (e.ar.toD c) (e.ar.toD e.ar.beam)))) = true
  arc : ∀ n o, Reached e s0 frames n o → e.ar.dlt (e.ar.dadd o (e.ar.toD e.ar.beam)) e.ar.inf = true ∧
    e.ar.finite (e.ar.toD (e.ar.toF (e.ar.dadd o (e.ar.toD e.ar.beam)))) = true

/-- `x` is the cost of a path over all frames; once the stream has ended, with the costs of ending there. -/
def Whole (e : Env F D) (s0 : State) (frames : List (List F)) (eos : Bool) (p : List (GArc F)) (x : D) : Prop :=
  ∃ s c, PathTo e s0 frames p s c ∧ emitted p = frames.length ∧ EndCost e eos ⟨s, c, []⟩ x

/-- A path over all frames that never left the beam, and its cost. -/
def Kept (e : Env F D) (s0 : State) (frames : List (List F)) (eos : Bool) (p : List (GArc F)) (x : D) : Prop :=
  ∃ s c, InBeam e s0 frames p s c ∧ emitted p = frames.length ∧ EndCost e eos ⟨s, c, []⟩ x

/-- A path over all frames that costs less than infinity and no more than any other. -/
def Cheapest (e : Env F D) (s0 : State) (frames : List (List F)) (eos : Bool) (p : List (GArc F)) : Prop :=
  ∃ x, Whole e s0 frames eos p x ∧ e.ar.dlt x e.ar.inf = true ∧
    ∀ q y, Whole e s0 frames eos q y → e.ar.dlt y x = false

/-- No path over all frames has a cost that is not a number. -/
def NoNanEnd (e : Env F D) (dn : D → Bool) (s0 : State) (frames : List (List F)) (eos : Bool) : Prop :=
  ∀ p x, Whole e s0 frames eos p x → dn x = false

/-- What one would like: the answer to a use of the decoder that refused no frame is the words of a cheapest path (the
latest first), if there is one. -/
def Optimal (e : Env F D) : Prop :=
  ∀ s0 fs bs cs d eos ws w, StartState e s0 → Run e fs bs cs d → (∀ b ∈ bs, b = true) →
    bestPath e { d with eos := eos } = .ok (ws, w) → (∃ p, Cheapest e s0 fs eos p) →
    ∃ q, Cheapest e s0 fs eos q ∧ ws.reverse = wordsOf q

end Verif.Decoder.Beam
