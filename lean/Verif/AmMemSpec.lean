import Verif.AmMemModel
import Verif.NetMemSpec

/-!
# The acoustic model and its buffer in memory
-/

namespace Verif.AmMem.Spec

open Mat (Heap Addr View peek)
open VecMem (Vec)
open NetMem.Spec (Line Shows VShows Stored Live InOrder block)

variable {F : Type}

/-- The parameters of the model are in memory. -/
structure Loaded (h : Heap F) (M : ModelM) (am : Am.Model F) : Prop where
  layers : List.Forall₂ (Stored h) M.layers am.layers
  prior : VShows h M.logPrior am.logPrior
  left : M.left = am.left
  right : M.right = am.right
  chunk : M.chunk = am.chunk

/-- The vector with the block `p.1` of its own and the elements `p.2`. -/
def vecOf (p : Nat × List F) : Vec := ⟨some ⟨p.1, 0⟩, p.2.length⟩

/-- The vectors of `q` are in memory, in different blocks. -/
structure Held (h : Heap F) (q : List (Nat × List F)) : Prop where
  line : ∀ p ∈ q, Line h ⟨p.1, 0⟩ p.2
  some : ∀ p ∈ q, p.2 ≠ []
  nodup : (q.map Prod.fst).Nodup

/-- The blocks of the vectors of `q`. -/
def Owns (q : List (Nat × List F)) (c : Nat) : Prop := c ∈ q.map Prod.fst

/-- What is in `hp` is in `h`, in blocks that are not among `P`. -/
def Sub (hp h : Heap F) (P : Nat → Prop) : Prop :=
  ∀ a c, peek hp a = some c → peek h a = some c ∧ ¬ P a.block

/-- The owner of the blocks `P` has exchanged them for the blocks `Q`, and nothing else has happened to the memory that
was there. -/
structure Effect (h h' : Heap F) (P Q : Nat → Prop) : Prop where
  kept : ∀ a : Addr, a.block < h.length → ¬ P a.block → peek h' a = peek h a
  live : ∀ c, Live h' c ↔ (Live h c ∧ ¬ P c) ∨ Q c
  fresh : ∀ c, Q c → P c ∨ h.length ≤ c
  length : h.length ≤ h'.length

/-- The matrix has the rows `m`; without rows it has no block. -/
def Rows (h : Heap F) (v : View) (m : List (List F)) : Prop :=
  (m = [] ∧ v = .empty) ∨ ∃ b, Shows h v ⟨b, 0⟩ m

end Verif.AmMem.Spec
