import Verif.FbankMemModel
import Verif.FbankSpec
import Verif.AmMemSpec

/-!
# The feature extraction in memory: what is where
-/

namespace Verif.FbankMem.Spec

open Mat (Heap Addr View peek)
open VecMem (Vec)
open NetMem.Spec (Line VShows)
open Fbank (Ops)

variable {F : Type}

/-- The tables of the feature extraction are in memory. -/
structure Loaded (h : Heap F) (t : TabM) (o : Ops F) : Prop where
  window : VShows h t.window o.window
  bins : List.Forall₂ (fun p q => p.1 = (q.1 : Int) ∧ q.2 ≠ [] ∧ VShows h p.2 q.2) t.bins o.bins

/-- The tables are not in the blocks `X`. -/
structure Clear (t : TabM) (X : Nat → Prop) : Prop where
  window : ∀ a, t.window.data = some a → ¬ X a.block
  bins : ∀ q ∈ t.bins, ∀ a, q.2.data = some a → ¬ X a.block

/-- A `Vector` object with the elements `x` and a block `b` of its own; without elements it has no block. -/
inductive Has (h : Heap F) : Vec → List F → (Nat → Prop) → Prop
  | empty : Has h .empty [] (fun _ => False)
  | full {b : Nat} {x : List F} (hx : x ≠ []) (hl : Line h ⟨b, 0⟩ x) : Has h ⟨some ⟨b, 0⟩, x.length⟩ x (fun c => c = b)

end Verif.FbankMem.Spec
