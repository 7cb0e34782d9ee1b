import Verif.VecMemModel

/-!
# What vectors are to those who use them (C79)

Lists: no pointers, no memory.  An element that was not given a value is `none`.
-/

namespace Verif.VecMem.Spec

open Verif.VecMem (Op Mode)

variable {F : Type}

/-- The lists by name; `none` if there is no such object. -/
abbrev Vals (F : Type) := Nat → Option (List (Option F))

def put (s : Vals F) (x : Nat) (l : Option (List (Option F))) : Vals F := fun y => if y = x then l else s y

/-- A list of another length. -/
def resized (zero : F) (l : List (Option F)) (n : Nat) : Mode → List (Option F)
  | .zero => List.replicate n (some zero)
  | .undefined => if l.length = n then l else List.replicate n none
  | .copy => l.take n ++ List.replicate (n - l.length) (some zero)

/-- A step is meant only for objects that are there (or, if it makes one, not there yet), for indices that are not
negative, and for sizes below two gigabytes. -/
def Legal (w : Nat) (s : Vals F) : Op F → Prop
  | .make x n _ => s x = none ∧ n * w ≤ 2147483647
  | .move x y => s x = none ∧ s y ≠ none
  | .assign x y => s x ≠ none ∧ s y ≠ none
  | .swap x y => s x ≠ none ∧ s y ≠ none
  | .resize x n _ => s x ≠ none ∧ n * w ≤ 2147483647
  | .put x i _ => s x ≠ none ∧ 0 ≤ i
  | .fill x _ => s x ≠ none
  | .copy x y => s x ≠ none ∧ s y ≠ none
  | .drop x => s x ≠ none

/-- `s` becomes `s'`. -/
inductive Does (zero : F) (s : Vals F) : Op F → Vals F → Prop
  | make {x : Nat} (n : Nat) {m : Mode} : Does zero s (.make x n m) (put s x (some (resized zero [] n m)))
  | move {x y : Nat} {l : List (Option F)} : s y = some l → Does zero s (.move x y) (put (put s x (some l)) y (some []))
  | assign {x y : Nat} {l : List (Option F)} : s y = some l → Does zero s (.assign x y) (put (put s x (some l)) y (some []))
  | swap {x y : Nat} {l k : List (Option F)} : s x = some l → s y = some k →
    Does zero s (.swap x y) (put (put s x (some k)) y (some l))
  | resize {x : Nat} (n : Nat) {m : Mode} {l : List (Option F)} : s x = some l →
    Does zero s (.resize x n m) (put s x (some (resized zero l n m)))
  | put {x i : Nat} {v : F} {l : List (Option F)} : s x = some l → i < l.length →
    Does zero s (.put x i v) (Spec.put s x (some (l.set i (some v))))
  | fill {x : Nat} {v : F} {l : List (Option F)} : s x = some l →
    Does zero s (.fill x v) (Spec.put s x (some (List.replicate l.length (some v))))
  | copy {x y : Nat} {l k : List (Option F)} : s x = some l → s y = some k → l.length = k.length →
    Does zero s (.copy x y) (Spec.put s x (some k))
  | drop {x : Nat} : Does zero s (.drop x) (Spec.put s x none)

/-- The step has no meaning: a negative size, an index that is too large, lists of different lengths. -/
inductive Refused (s : Vals F) : Op F → Prop
  | make {x : Nat} {n : Int} {m : Mode} : n < 0 → Refused s (.make x n m)
  | resize {x : Nat} {n : Int} {m : Mode} : n < 0 → Refused s (.resize x n m)
  | put {x i : Nat} {v : F} {l : List (Option F)} : s x = some l → l.length ≤ i → Refused s (.put x i v)
  | copy {x y : Nat} {l k : List (Option F)} : s x = some l → s y = some k → l.length ≠ k.length → Refused s (.copy x y)

/-- Something is assigned to a list that is not empty. -/
def Overwrites (s : Vals F) : Op F → Prop
  | .assign x _ => ∃ l, s x = some l ∧ l ≠ []
  | _ => False

/-- A program from the lists `s`: it ends with the lists `s'` and has assigned to `n` lists that were not empty, or it
is refused after some steps (`none`). -/
inductive Runs (zero : F) (w : Nat) : Vals F → List (Op F) → Option (Vals F × Nat) → Prop
  | nil (s) : Runs zero w s [] (some (s, 0))
  | step {s s' t : Vals F} {op ops n} : Legal w s op → Does zero s op s' → ¬ Overwrites s op →
    Runs zero w s' ops (some (t, n)) → Runs zero w s (op :: ops) (some (t, n))
  | over {s s' t : Vals F} {op ops n} : Legal w s op → Does zero s op s' → Overwrites s op →
    Runs zero w s' ops (some (t, n)) → Runs zero w s (op :: ops) (some (t, n + 1))
  | refused {s : Vals F} {op ops} : Legal w s op → Refused s op → Runs zero w s (op :: ops) none
  | later {s s' : Vals F} {op ops} : Legal w s op → Does zero s op s' → Runs zero w s' ops none →
    Runs zero w s (op :: ops) none

end Verif.VecMem.Spec

namespace Verif.VecMem

variable {F : Type}

/-- The vector `v` holds the list `l` in memory `h`: nothing for the empty list, else a whole block. -/
def Own (h : Mat.Heap F) (v : Vec) (l : List (Option F)) : Prop :=
  (l = [] ∧ v = ⟨none, 0⟩) ∨ ∃ b, v.data = some ⟨b, 0⟩ ∧ v.dim = l.length ∧ l ≠ [] ∧ h[b]? = some (some l)

/-- `x` points to block `b`. -/
def Owner (s : St F) (x b : Nat) : Prop := ∃ v a, s.objs x = some v ∧ v.data = some a ∧ a.block = b

/-- The memory of a program holds the lists `vals`, no block belongs to two vectors, and the blocks that are allocated
are those of the vectors and those of `lost`, to which nothing points. -/
structure Represents (s : St F) (vals : Spec.Vals F) (lost : List Nat) : Prop where
  values : ∀ x, (vals x = none ∧ s.objs x = none) ∨ ∃ l v, vals x = some l ∧ s.objs x = some v ∧ Own s.heap v l
  once : ∀ x y b, Owner s x b → Owner s y b → x = y
  blocks : ∀ b c, s.heap[b]? = some (some c) → (∃ x, Owner s x b) ∨ b ∈ lost
  unowned : ∀ b ∈ lost, (∃ c, s.heap[b]? = some (some c)) ∧ ∀ x, ¬ Owner s x b
  nodup : lost.Nodup

end Verif.VecMem
