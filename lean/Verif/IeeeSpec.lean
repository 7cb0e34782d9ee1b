import Verif.BeamSpec
import Verif.IeeeModel

/-!
# Specification: costs without rounding

What a path costs when nothing is rounded, for a graph, frames and a language model whose weights are those of the machine.
No operation of the machine is mentioned.
-/

namespace Verif.Ieee.Spec

open Verif Verif.Fst Verif.Decoder

/-- The value is the number `q`. -/
def Is {f : Format} (x : Fl f) (q : Rat) : Prop := ∃ h, x = .num q h

/-- One word of the language model: its state after it, and what it costs. -/
inductive LmCost (e : Env F32 F64) : Int → Int → Int → Rat → Prop where
  | off {s l : Int} : e.lm = none → LmCost e s l s 0
  | silent {s : Int} {lm : IFst F32} : e.lm = some lm → LmCost e s 0 s 0
  | word {s l : Int} {lm : IFst F32} {a : Arc F32} {v : Rat} : e.lm = some lm → l ≠ 0 →
      lm.getArc s l = .ok (some a) → Is a.weight v → LmCost e s l a.next v
  | unknown {s l : Int} {lm : IFst F32} : e.lm = some lm → l ≠ 0 → lm.getArc s l = .ok none → LmCost e s l s 0

/-- The log probability the frame gives to the transition `t`, times the scale. -/
def ScoreOf (e : Env F32 F64) (frame : List F32) (t : Int) (y : Rat) : Prop :=
  ∃ (ti pi : Nat) (lp : F32) (q r : Rat), t = ti ∧ e.pdf[ti]? = some (pi : Int) ∧ frame[pi]? = some lp ∧ Is lp q ∧
    Is e.amScale r ∧ y = r * q

/-- `Exact e s0 frames B p s x`: the arcs `p` lead from `s0` to `s`, each emitting arc consumes the next of `frames`, and
their costs add up to `x`.  No cost on the way and no sum is larger than `B`. -/
inductive Exact (e : Env F32 F64) (s0 : State) (frames : List (List F32)) (B : Rat) :
    List (GArc F32) → State → Rat → Prop where
  | nil : Exact e s0 frames B [] s0 0
  | eps {p : List (GArc F32)} {s : State} {x w v : Rat} {a : GArc F32} {l : Int} :
      Exact e s0 frames B p s x → a ∈ e.g.arcs s.1 → a.ilabel = 0 → Is a.weight w → LmCost e s.2 a.olabel l v →
      |w| ≤ B → |v| ≤ B → |x + w + v| ≤ B →
      Exact e s0 frames B (p ++ [a]) (a.next, l) (x + w + v)
  | emit {p : List (GArc F32)} {s : State} {x w y v : Rat} {a : GArc F32} {l : Int} {f : List F32} :
      Exact e s0 frames B p s x → a ∈ e.g.arcs s.1 → a.ilabel ≠ 0 → frames[emitted p]? = some f →
      ScoreOf e f a.ilabel y → Is a.weight w → LmCost e s.2 a.olabel l v →
      |w| ≤ B → |y| ≤ B → |v| ≤ B → |x + w - y + v| ≤ B →
      Exact e s0 frames B (p ++ [a]) (a.next, l) (x + w - y + v)

/-- What a path over all frames costs; once the stream has ended, with the costs of ending there. -/
def Total (e : Env F32 F64) (s0 : State) (frames : List (List F32)) (eos : Bool) (B : Rat) (p : List (GArc F32))
    (x : Rat) : Prop :=
  ∃ s y, Exact e s0 frames B p s y ∧ emitted p = frames.length ∧
    ((eos = false ∧ x = y) ∨
     (eos = true ∧ e.lm = none ∧ ∃ w, Is (e.g.final s.1) w ∧ |w| ≤ B ∧ x = y + w) ∨
     (eos = true ∧ ∃ lm u w v, e.lm = some lm ∧ lm.final s.2 = .ok u ∧ Is (e.g.final s.1) w ∧ Is u v ∧ |w| ≤ B ∧
       |v| ≤ B ∧ x = y + w + v))

/-- `o` is the cost, before the language model, of some path over the first `n` frames together with one arc that consumes
the frame number `n` (counted from zero). -/
def Reaches (e : Env F32 F64) (s0 : State) (frames : List (List F32)) (B : Rat) (n : Nat) (o : Rat) : Prop :=
  ∃ p s x a f w y, Exact e s0 frames B p s x ∧ emitted p = n ∧ a ∈ e.g.arcs s.1 ∧ a.ilabel ≠ 0 ∧
    frames[n]? = some f ∧ ScoreOf e f a.ilabel y ∧ Is a.weight w ∧ o = x + w - y

/-- A path that never leaves a beam of the given width, when nothing is rounded.  No cost on the way and no sum is larger
than `B`. -/
inductive Inside (e : Env F32 F64) (s0 : State) (frames : List (List F32)) (B width : Rat) :
    List (GArc F32) → State → Rat → Prop where
  | nil : Inside e s0 frames B width [] s0 0
  | eps {p : List (GArc F32)} {s : State} {x w v : Rat} {a : GArc F32} {l : Int} :
      Inside e s0 frames B width p s x → a ∈ e.g.arcs s.1 → a.ilabel = 0 → Is a.weight w →
      LmCost e s.2 a.olabel l v → |w| ≤ B → |v| ≤ B → |x + w + v| ≤ B →
      (∀ n o, emitted p = n + 1 → Reaches e s0 frames B n o → x + w + v ≤ o + width) →
      Inside e s0 frames B width (p ++ [a]) (a.next, l) (x + w + v)
  | emit {p : List (GArc F32)} {s : State} {x w y v : Rat} {a : GArc F32} {l : Int} {f : List F32} :
      Inside e s0 frames B width p s x → a ∈ e.g.arcs s.1 → a.ilabel ≠ 0 → frames[emitted p]? = some f →
      ScoreOf e f a.ilabel y → Is a.weight w → LmCost e s.2 a.olabel l v →
      |w| ≤ B → |y| ≤ B → |v| ≤ B → |x + w - y + v| ≤ B →
      (∀ q t x', Exact e s0 frames B q t x' → emitted q = emitted p → x ≤ x' + width) →
      (∀ o, Reaches e s0 frames B (emitted p) o → x + w - y ≤ o + width) →
      Inside e s0 frames B width (p ++ [a]) (a.next, l) (x + w - y + v)

/-- No path over the frames has more than `n` arcs, all costs on all paths are numbers, and none of them and no sum of
costs along a path is larger than `B`.  States are final at a cost no larger than `B`, or not at all. -/
structure Mild (e : Env F32 F64) (s0 : State) (frames : List (List F32)) (eos : Bool) (B : Rat) (n : Nat) : Prop where
  path : ∀ p s c, PathTo e s0 frames p s c → p.length ≤ n ∧ ∃ x, Exact e s0 frames B p s x
  reach : ∀ p s x a f, Exact e s0 frames B p s x → a ∈ e.g.arcs s.1 → a.ilabel ≠ 0 → frames[emitted p]? = some f →
    (∃ v, IsScore e f a.ilabel v) → ∃ w y, ScoreOf e f a.ilabel y ∧ Is a.weight w ∧ |w| ≤ B ∧ |y| ≤ B
  final : ∀ p s c, PathTo e s0 frames p s c →
    e.g.final s.1 = .inf false ∨ ∃ w, Is (e.g.final s.1) w ∧ |w| ≤ B
  lmFinal : ∀ p s c lm u, PathTo e s0 frames p s c → e.lm = some lm → lm.final s.2 = .ok u →
    u = .inf false ∨ ∃ v, Is u v ∧ |v| ≤ B

/-- A path over all frames that never leaves the beam, and what it costs. -/
def Stays (e : Env F32 F64) (s0 : State) (frames : List (List F32)) (eos : Bool) (B width : Rat) (p : List (GArc F32))
    (x : Rat) : Prop :=
  Total e s0 frames eos B p x ∧ ∃ s y, Inside e s0 frames B width p s y

/-- What one would like: the answer to a use of the decoder that refused no frame is what a path says that, without
rounding, costs no more than any other.  `B` is any bound on the costs. -/
def ExactlyBest (e : Env F32 F64) : Prop :=
  ∀ s0 fs bs cs d eos ws w B n, StartState e s0 → Run e fs bs cs d → (∀ b ∈ bs, b = true) → Mild e s0 fs eos B n →
    bestPath e { d with eos := eos } = .ok (ws, w) →
    ∃ q x, Total e s0 fs eos B q x ∧ ws.reverse = wordsOf q ∧ ∀ p y, Total e s0 fs eos B p y → x ≤ y

end Verif.Ieee.Spec
