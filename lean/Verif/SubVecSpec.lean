import Verif.VecMemSpec
import Verif.SubVecModel

/-!
# What views are to those who use them (C87)

A view is a part of a list: the name of the list, where the part begins and how long it is.  No pointers, no memory.
-/

namespace Verif.VecMem.Spec

open Verif.VecMem (Op Mode VOp Ref)

variable {F : Type}

/-- A part of a list. -/
structure Part where
  owner : Nat
  origin : Nat
  length : Nat
deriving DecidableEq

/-- The views that may be used, by name. -/
abbrev Views := Nat → Option Part

/-- The elements of a part. -/
def slice (l : List (Option F)) (p : Part) : List (Option F) := (l.drop p.origin).take p.length

/-- A part of a list is replaced by elements as many. -/
def paste (l : List (Option F)) (p : Part) (c : List (Option F)) : List (Option F) :=
  l.take p.origin ++ c ++ l.drop (p.origin + p.length)

/-- What a name stands for: a whole list, or the part that is viewed. -/
inductive Names (s : Vals F) (vs : Views) : Ref → Part → List (Option F) → Prop
  | vec {x : Nat} {l : List (Option F)} : s x = some l → Names s vs (.vec x) ⟨x, 0, l.length⟩ l
  | view {v : Nat} {p : Part} {l : List (Option F)} : vs v = some p → s p.owner = some l → Names s vs (.view v) p l

/-- What becomes of views when vectors are handled.  A view is a view of the elements, wherever they go: it follows them
when they are moved, swapped or assigned to another name.  It is lost with them: when the vector ends, when something is
assigned to it, when its length changes. -/
def follow (s : Vals F) (op : Op F) (vs : Views) : Views := fun v =>
  match vs v with
  | none => none
  | some p =>
    match op with
    | .move x y => if p.owner = y then some ⟨x, p.origin, p.length⟩ else some p
    | .assign x y =>
      if p.owner = x then none else if p.owner = y then some ⟨x, p.origin, p.length⟩ else some p
    | .swap x y =>
      if p.owner = y then some ⟨x, p.origin, p.length⟩
      else if p.owner = x then some ⟨y, p.origin, p.length⟩ else some p
    | .resize x n _ => if p.owner = x ∧ ¬ ((s x).map fun l => (l.length : Int)) = some n then none else some p
    | .drop x => if p.owner = x then none else some p
    | _ => some p

/-- No element of one part is an element of the other. -/
def Apart (p q : Part) : Prop := p.owner ≠ q.owner ∨ p.origin + p.length ≤ q.origin ∨ q.origin + q.length ≤ p.origin

/-- Multiplying `p` by `q` element by element has the meaning it should have: `p` does not begin inside `q`. -/
def NotInto (p q : Part) : Prop := p.owner ≠ q.owner ∨ p.origin ≤ q.origin ∨ q.origin + q.length ≤ p.origin

/-- One step. -/
inductive VDoes (zero : F) (w : Nat) (s : Vals F) (vs : Views) : VOp F → Vals F → Views → Prop
  | own {op : Op F} {s' : Vals F} : Legal w s op → Does zero s op s' → VDoes zero w s vs (.own op) s' (follow s op vs)
  | sub {v : Nat} {t : Ref} {p : Part} {l : List (Option F)} (o n : Nat) : Names s vs t p l → o + n ≤ p.length →
    VDoes zero w s vs (.sub v t o n) s (fun y => if y = v then some ⟨p.owner, p.origin + o, n⟩ else vs y)
  | put {t : Ref} {p : Part} {l : List (Option F)} {i : Nat} {c : F} : Names s vs t p l → i < p.length →
    VDoes zero w s vs (.put t i c) (Spec.put s p.owner (some (l.set (p.origin + i) (some c)))) vs
  | fill {t : Ref} {p : Part} {l : List (Option F)} {c : F} : Names s vs t p l →
    VDoes zero w s vs (.fill t c) (Spec.put s p.owner (some (paste l p (List.replicate p.length (some c))))) vs
  | clear {t : Ref} {p : Part} {l : List (Option F)} : Names s vs t p l →
    VDoes zero w s vs (.clear t) (Spec.put s p.owner (some (paste l p (List.replicate p.length (some zero))))) vs
  | map {t : Ref} {p : Part} {l : List (Option F)} {f : F → F} {c : List F} : Names s vs t p l → slice l p = c.map some →
    VDoes zero w s vs (.map t f) (Spec.put s p.owner (some (paste l p ((c.map f).map some)))) vs
  | copy {d t : Ref} {p q : Part} {l k : List (Option F)} : Names s vs d p l → Names s vs t q k → p.length = q.length →
    p = q ∨ Apart p q →
    VDoes zero w s vs (.copy d t) (Spec.put s p.owner (some (paste l p (slice k q)))) vs
  | mul {d t : Ref} {p q : Part} {l k : List (Option F)} {g : F → F → F} {a b : List F} : Names s vs d p l →
    Names s vs t q k → p.length = q.length → NotInto p q → slice l p = a.map some → slice k q = b.map some →
    VDoes zero w s vs (.mul d t g) (Spec.put s p.owner (some (paste l p ((a.zipWith g b).map some)))) vs
  | add {d t : Ref} {p q : Part} {l k : List (Option F)} {g : F → F → F} {a b : List F} : Names s vs d p l →
    Names s vs t q k → p.length = q.length → Apart p q → slice l p = a.map some → slice k q = b.map some →
    VDoes zero w s vs (.add d t g) (Spec.put s p.owner (some (paste l p ((a.zipWith g b).map some)))) vs

/-- A step that has no meaning: a part that ends after the end, an index that is too large, different lengths. -/
inductive VRefused (w : Nat) (s : Vals F) (vs : Views) : VOp F → Prop
  | own {op : Op F} : Legal w s op → Refused s op → VRefused w s vs (.own op)
  | sub {v : Nat} {t : Ref} {p : Part} {l : List (Option F)} (o n : Nat) : Names s vs t p l → p.length < o + n →
    o + n ≤ 2147483647 → VRefused w s vs (.sub v t o n)
  | put {t : Ref} {p : Part} {l : List (Option F)} {i : Nat} {c : F} : Names s vs t p l → p.length ≤ i →
    VRefused w s vs (.put t i c)
  | copy {d t : Ref} {p q : Part} {l k : List (Option F)} : Names s vs d p l → Names s vs t q k → p.length ≠ q.length →
    VRefused w s vs (.copy d t)
  | mul {d t : Ref} {p q : Part} {l k : List (Option F)} {g : F → F → F} : Names s vs d p l → Names s vs t q k →
    p.length ≠ q.length → VRefused w s vs (.mul d t g)
  | add {d t : Ref} {p q : Part} {l k : List (Option F)} {g : F → F → F} : Names s vs d p l → Names s vs t q k →
    p.length ≠ q.length → VRefused w s vs (.add d t g)

/-- A program: it ends with lists and views, or it is refused after some steps (`none`). -/
inductive VRuns (zero : F) (w : Nat) : Vals F → Views → List (VOp F) → Option (Vals F × Views) → Prop
  | nil (s vs) : VRuns zero w s vs [] (some (s, vs))
  | step {s s' : Vals F} {vs vs' : Views} {op ops r} : VDoes zero w s vs op s' vs' → VRuns zero w s' vs' ops r →
    VRuns zero w s vs (op :: ops) r
  | refused {s : Vals F} {vs : Views} {op ops} : VRefused w s vs op → VRuns zero w s vs (op :: ops) none

end Verif.VecMem.Spec
