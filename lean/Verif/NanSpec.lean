import Verif.DecoderSpec

/-!
# Paths all of whose costs are numbers
-/

namespace Verif.Decoder

open Verif Verif.Fst

variable {F D : Type}

/-- The frame gives the transition `t` the scaled score `v`, which comes from a number. -/
def IsNumScore (e : Env F D) (fn : F → Bool) (frame : List F) (t : Int) (v : F) : Prop :=
  ∃ (ti pi : Nat) (lp : F), t = ti ∧ e.pdf[ti]? = some (pi : Int) ∧ frame[pi]? = some lp ∧ fn lp = false ∧
    v = e.ar.fmul e.amScale lp

/-- A path of the graph composed with the language model that uses numbers only: all its weights and all its scores
are numbers, and so is its cost after every arc. -/
inductive NumPath (e : Env F D) (fn : F → Bool) (s0 : State) (frames : List (List F)) :
    List (GArc F) → State → F → Prop where
  | nil : NumPath e fn s0 frames [] s0 e.ar.zero
  | eps {p : List (GArc F)} {s : State} {c : F} {a : GArc F} {l : Int} {k : D → D} :
      NumPath e fn s0 frames p s c → a ∈ e.g.arcs s.1 → a.ilabel = 0 → fn a.weight = false →
      LmMove e s.2 a.olabel l k → fn (stepCost e c a.weight e.ar.zero k) = false →
      NumPath e fn s0 frames (p ++ [a]) (a.next, l) (stepCost e c a.weight e.ar.zero k)
  | emit {p : List (GArc F)} {s : State} {c v : F} {a : GArc F} {l : Int} {k : D → D} {f : List F} :
      NumPath e fn s0 frames p s c → a ∈ e.g.arcs s.1 → a.ilabel ≠ 0 → fn a.weight = false →
      frames[emitted p]? = some f → IsNumScore e fn f a.ilabel v → LmMove e s.2 a.olabel l k →
      fn (stepCost e c a.weight (e.ar.fneg v) k) = false →
      NumPath e fn s0 frames (p ++ [a]) (a.next, l) (stepCost e c a.weight (e.ar.fneg v) k)

/-- What one expects of an answer after the frames: it is what some path of numbers says, and no path of numbers that
stayed below the cutoffs ends cheaper.  (Without a language model of its own.) -/
def BestOfNumbers (e : Env F D) (fn : F → Bool) (frames : List (List F)) (cs : List (Option (Cutoffs F D)))
    (ws : List Int) : Prop :=
  ∀ s0, StartState e s0 → ∃ p s c, NumPath e fn s0 frames p s c ∧ emitted p = frames.length ∧ ws.reverse = wordsOf p ∧
    ∀ p' s' c', NumPath e fn s0 frames p' s' c' → Survives e s0 frames cs p' s' c' → emitted p' = frames.length →
      e.ar.flt (e.ar.fadd c' (e.g.final s'.1)) (e.ar.fadd c (e.g.final s.1)) = false

/-- Scores that leave no hope (`sl`), in IEEE 754 NaN and minus infinity, make costs that leave none (`cl` in `float`, `dl` in
`double`), NaN and plus infinity, and these stay so whatever is added; they are below nothing. -/
structure LostLaws (e : Env F D) (sl cl : F → Bool) (dl : D → Bool) : Prop where
  score : ∀ {x : F}, sl x = true → cl (e.ar.fneg (e.ar.fmul e.amScale x)) = true
  addl : ∀ {a : F} (b : F), cl a = true → cl (e.ar.fadd a b) = true
  addr : ∀ (a : F) {b : F}, cl b = true → cl (e.ar.fadd a b) = true
  toD : ∀ {a : F}, cl a = true → dl (e.ar.toD a) = true
  toF : ∀ {a : D}, dl a = true → cl (e.ar.toF a) = true
  daddl : ∀ {a : D} (b : D), dl a = true → dl (e.ar.dadd a b) = true
  dltl : ∀ {a : D} (b : D), dl a = true → e.ar.dlt a b = false
  inf : e.ar.finite e.ar.inf = false
  inf_round : e.ar.finite (e.ar.toD (e.ar.toF e.ar.inf)) = false

end Verif.Decoder
