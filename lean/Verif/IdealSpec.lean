import Verif.IeeeSpec
import Mathlib.Data.Real.Basic

/-!
# Specification: recognition in real numbers

What a path costs when the log probabilities are real numbers, those of a network that is not rounded, and nothing is rounded after
it either.  No bound is put on any number.
-/

namespace Verif.Ieee.Spec

open Verif Verif.Fst Verif.Decoder

/-- The log probability a frame of real numbers gives to the transition `t`, times the scale. -/
def IdealScore (e : Env F32 F64) (frame : List ℝ) (t : Int) (y : ℝ) : Prop :=
  ∃ (ti pi : Nat) (v : ℝ) (r : Rat), t = ti ∧ e.pdf[ti]? = some (pi : Int) ∧ frame[pi]? = some v ∧ Is e.amScale r ∧ y = r * v

/-- `IdealPath e s0 frames p s x`: the arcs `p` lead from `s0` to `s`, each emitting arc consumes the next of `frames`, and their
costs add up to `x`. -/
inductive IdealPath (e : Env F32 F64) (s0 : State) (frames : List (List ℝ)) : List (GArc F32) → State → ℝ → Prop where
  | nil : IdealPath e s0 frames [] s0 0
  | eps {p : List (GArc F32)} {s : State} {x : ℝ} {w v : Rat} {a : GArc F32} {l : Int} :
      IdealPath e s0 frames p s x → a ∈ e.g.arcs s.1 → a.ilabel = 0 → Is a.weight w → LmCost e s.2 a.olabel l v →
      IdealPath e s0 frames (p ++ [a]) (a.next, l) (x + w + v)
  | emit {p : List (GArc F32)} {s : State} {x y : ℝ} {w v : Rat} {a : GArc F32} {l : Int} {f : List ℝ} :
      IdealPath e s0 frames p s x → a ∈ e.g.arcs s.1 → a.ilabel ≠ 0 → frames[emitted p]? = some f →
      IdealScore e f a.ilabel y → Is a.weight w → LmCost e s.2 a.olabel l v →
      IdealPath e s0 frames (p ++ [a]) (a.next, l) (x + w - y + v)

/-- What a path over all frames costs, with the costs of ending there. -/
def IdealTotal (e : Env F32 F64) (s0 : State) (frames : List (List ℝ)) (p : List (GArc F32)) (x : ℝ) : Prop :=
  ∃ (s : State) (y : ℝ) (w : Rat), IdealPath e s0 frames p s y ∧ emitted p = frames.length ∧ Is (e.g.final s.1) w ∧
    ((e.lm = none ∧ x = y + w) ∨ ∃ lm u v, e.lm = some lm ∧ lm.final s.2 = .ok u ∧ Is u v ∧ x = y + w + v)

/-- `o` is the cost, before the language model, of some path over the first `n` frames together with one arc that consumes the frame
number `n` (counted from zero). -/
def IdealReach (e : Env F32 F64) (s0 : State) (frames : List (List ℝ)) (n : Nat) (o : ℝ) : Prop :=
  ∃ (p : List (GArc F32)) (s : State) (x : ℝ) (a : GArc F32) (f : List ℝ) (w : Rat) (y : ℝ), IdealPath e s0 frames p s x ∧ emitted p = n ∧
    a ∈ e.g.arcs s.1 ∧ a.ilabel ≠ 0 ∧ frames[n]? = some f ∧ IdealScore e f a.ilabel y ∧ Is a.weight w ∧ o = x + w - y

/-- A path that never leaves a beam of the given width. -/
inductive IdealInside (e : Env F32 F64) (s0 : State) (frames : List (List ℝ)) (width : ℝ) : List (GArc F32) → State → ℝ → Prop where
  | nil : IdealInside e s0 frames width [] s0 0
  | eps {p : List (GArc F32)} {s : State} {x : ℝ} {w v : Rat} {a : GArc F32} {l : Int} :
      IdealInside e s0 frames width p s x → a ∈ e.g.arcs s.1 → a.ilabel = 0 → Is a.weight w → LmCost e s.2 a.olabel l v →
      (∀ n o, emitted p = n + 1 → IdealReach e s0 frames n o → x + w + v ≤ o + width) →
      IdealInside e s0 frames width (p ++ [a]) (a.next, l) (x + w + v)
  | emit {p : List (GArc F32)} {s : State} {x y : ℝ} {w v : Rat} {a : GArc F32} {l : Int} {f : List ℝ} :
      IdealInside e s0 frames width p s x → a ∈ e.g.arcs s.1 → a.ilabel ≠ 0 → frames[emitted p]? = some f →
      IdealScore e f a.ilabel y → Is a.weight w → LmCost e s.2 a.olabel l v →
      (∀ q t x', IdealPath e s0 frames q t x' → emitted q = emitted p → x ≤ x' + width) →
      (∀ o, IdealReach e s0 frames (emitted p) o → x + w - y ≤ o + width) →
      IdealInside e s0 frames width (p ++ [a]) (a.next, l) (x + w - y + v)

/-- A path over all frames that never leaves the beam, and what it costs. -/
def IdealStays (e : Env F32 F64) (s0 : State) (frames : List (List ℝ)) (width : ℝ) (p : List (GArc F32)) (x : ℝ) : Prop :=
  IdealTotal e s0 frames p x ∧ ∃ s y, IdealInside e s0 frames width p s y

end Verif.Ieee.Spec
