import Verif.AmConvSpec
import Mathlib.Analysis.SpecialFunctions.Log.Basic
import Mathlib.Analysis.SpecialFunctions.Sqrt

/-!
# What Kaldi's networks compute

Over the real numbers; time has no beginning and no end.
-/

namespace Verif.Tool.Kaldi

/-- What a component makes of a vector. -/
noncomputable def Comp.apply : Comp ℝ → List ℝ → List ℝ
  | .affine W b, x => List.zipWith (· + ·) (W.map fun row => (List.zipWith (· * ·) row x).sum) b
  | .relu, x => x.map fun v => max v 0
  | .batchNorm mean var eps rms, x =>
    List.zipWith (fun v (p : ℝ × ℝ) => (v - p.1) / Real.sqrt (p.2 + eps) * rms) x (List.zip mean var)
  | .logSoftmax, x => x.map fun v => v - Real.log (x.map Real.exp).sum

/-- The value of a part at time `t`, where `v` are the values of the nodes. -/
def Part.value (v : Txt → Int → List ℝ) (t : Int) (p : Part) : List ℝ := v p.name (t + p.shift.getD 0)

/-- The value of an input at time `t`. -/
def Desc.value (v : Txt → Int → List ℝ) (t : Int) : Desc → List ℝ
  | .part p => p.value v t
  | .append ps => ps.flatMap fun p => p.value v t

/-- `v` gives every node the value the network prescribes, where `x` is the input. -/
structure Solves (net : Net ℝ) (x : Int → List ℝ) (v : Txt → Int → List ℝ) : Prop where
  input : v "input".toList = x
  nodes : ∀ n ∈ net.nodes, ∃ c, (n.comp, c) ∈ net.comps ∧ ∀ t, v n.name t = c.apply (n.input.value v t)

/-- The size of an input made of vectors of size `d`. -/
def Desc.width (d : Nat) : Desc → Nat
  | .part _ => d
  | .append ps => ps.length * d

/-- The component takes vectors of size `d` to vectors of size `e`. -/
def Comp.Takes {N : Type} (d e : Nat) : Comp N → Prop
  | .affine W b => W.length = e ∧ b.length = e ∧ ∀ row ∈ W, row.length = d
  | .batchNorm mean var _ _ => mean.length = d ∧ var.length = d ∧ e = d
  | _ => e = d

/-- Sizes fit from node to node, each at least 1. -/
inductive Fit {N : Type} (cs : List (Txt × Comp N)) : Nat → List Node → Nat → Prop
  | nil {d : Nat} : 1 ≤ d → Fit cs d [] d
  | cons {d e f : Nat} {n : Node} {ns : List Node} {c : Comp N} : 1 ≤ d → (n.comp, c) ∈ cs →
      c.Takes (n.input.width d) e → Fit cs e ns f → Fit cs d (n :: ns) f

/-- The variances are positive when `eps` is added. -/
def Comp.Positive : Comp ℝ → Prop
  | .batchNorm _ var eps _ => ∀ s ∈ var, 0 < s + eps
  | _ => True

/-- The name of the last node. -/
def lastName (prev : Txt) (ns : List Node) : Txt := (ns.map Node.name).getLastD prev

end Verif.Tool.Kaldi
