import Verif.NetMemModel
import Verif.NnetSpec
import Verif.MatrixProps

/-!
# What it means that matrices and layers are in memory
-/

namespace Verif.NetMem.Spec

open Mat (Heap Addr View peek)
open VecMem (Vec)
open Nnet (Layer)

variable {F : Type}

/-- From `a` on the memory contains the elements of `x`. -/
def Line (h : Heap F) (a : Addr) (x : List F) : Prop :=
  ∀ (i : Nat) (y : F), x[i]? = some y → peek h ⟨a.block, a.off + i⟩ = some (some y)

/-- The matrix `v`, which starts at `a`, has the rows `m`: at least one row and one column, its rows do not overlap, and
offsets within it fit in an `int`. -/
structure Shows (h : Heap F) (v : View) (a : Addr) (m : List (List F)) : Prop where
  data : v.data = some a
  nonempty : m ≠ []
  rows : v.rows = m.length
  cols : ∀ x ∈ m, (x.length : Int) = v.cols
  wide : 0 < v.cols
  stride : v.cols ≤ v.stride
  size : v.rows * v.stride ≤ 2147483647
  line : ∀ (i : Nat) (x : List F), m[i]? = some x → Line h ⟨a.block, a.off + i * v.stride⟩ x

/-- The vector `v` has the elements `x`. -/
structure VShows (h : Heap F) (v : Vec) (x : List F) : Prop where
  dim : v.dim = x.length
  line : ∃ a, v.data = some a ∧ Line h a x

/-- The layer of the first argument has its parameters in memory, and they are those of the second. -/
inductive Stored (h : Heap F) : LayerM → Layer F → Prop
  | linear {W : View} {b : Vec} {a : Addr} {M : List (List F)} {x : List F} (h1 : Shows h W a M) (h2 : VShows h b x) :
      Stored h (.linear W b) (.linear M x)
  | relu : Stored h .relu .relu
  | normalize : Stored h .normalize .normalize
  | softmax : Stored h .softmax .softmax
  | logSoftmax : Stored h .logSoftmax .logSoftmax
  | splice (idx : List Int) : Stored h (.splice idx) (.splice idx)
  | narrow (l r : Int) : Stored h (.narrow l r) (.narrow l r)
  | batchNorm {s t : Vec} {x y : List F} (h1 : VShows h s x) (h2 : VShows h t y) :
      Stored h (.batchNorm s t) (.batchNorm x y)

/-- The block is allocated and not freed. -/
def Live (h : Heap F) (b : Nat) : Prop := ∃ c, h[b]? = some (some c)

/-- The block a matrix points to. -/
def block (v : View) : Option Nat := v.data.map (·.block)

/-- A `Matrix` object in order: empty, or with a block of its own, of which it may write its elements (which may not have
been written yet). -/
def InOrder (h : Heap F) (v : View) : Prop :=
  v.data = none ∨ ∃ b, v.data = some ⟨b, 0⟩ ∧ Mat.Proper v ⟨b, 0⟩ ∧ Mat.Spec.Writable h v ⟨b, 0⟩

end Verif.NetMem.Spec
