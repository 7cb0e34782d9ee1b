import Verif.FstModel

/-!
# What the FST file, the arc lookup and the language model lookup are for

Stated on the transducer (`Transducer`: per state a final weight and its arcs in file order), without
reference to the arrays, the index or the search.
-/

namespace Verif.Fst

variable {W : Type}

/-- `out` lists exactly the arcs `as`, ordered by input label, ties in their original order. -/
structure ByLabel (as out : List (Arc W)) : Prop where
  perm : out.Perm as
  sorted : out.Pairwise (fun a b => a.ilabel ≤ b.ilabel)
  stable : ∀ l : Int, out.filter (fun a => decide (a.ilabel = l)) = as.filter (fun a => decide (a.ilabel = l))

/-- Number of arcs. -/
def arcCount (t : Transducer W) : Nat := (t.states.map (fun x => x.2.length)).sum

/-- The numbers of a transducer fit the 32-bit fields of the file. -/
structure FitsFields (t : Transducer W) : Prop where
  start : InI32 t.start
  arcs : ∀ x ∈ t.states, ∀ a ∈ x.2, InI32 a.next ∧ InI32 a.ilabel ∧ InI32 a.olabel
  size : 12 + 8 * t.states.length + 16 * arcCount t ≤ 2147483647

/-- The first arc of state `s` with input label `l`, in file order. -/
def firstArc (t : Transducer W) (s : Nat) (l : Int) : Option (Arc W) :=
  match t.states[s]? with
  | some (_, as) => as.find? (fun a => decide (a.ilabel = l))
  | none => none

/-- `"pk::fst_0"`, with which a file begins. -/
def mark : List UInt8 := [112, 107, 58, 58, 102, 115, 116, 95, 48]

/-- Final weight of a state. -/
def finalOf (t : Transducer W) (s : Nat) : Option W := (t.states[s]?).map (·.1)

/-- Backoff chain for word `w`: from state `s` follow backoff arcs (label 0) `bs` to state `e`, where no
state before `e` has an arc for `w`. -/
inductive Chain (t : Transducer W) (w : Int) : Nat → List (Arc W) → Nat → Prop
  | here (s : Nat) : Chain t w s [] s
  | step {s s' e : Nat} {b : Arc W} {bs : List (Arc W)} :
      firstArc t s w = none → firstArc t s 0 = some b → b.next = (s' : Int) → Chain t w s' bs e →
      Chain t w s (b :: bs) e

/-- The weight of an arc found at the end of a backoff chain: backoff weights are added from the
innermost (last) one outwards. -/
def backedWeight (o : FloatOps W) (bs : List (Arc W)) (w : W) : W :=
  bs.foldr (fun b acc => o.add acc b.weight) w

/-- Backoff chain for the final weight: no state before `e` has a finite final weight. -/
inductive FChain (o : FloatOps W) (t : Transducer W) : Nat → List (Arc W) → Nat → Prop
  | here (s : Nat) : FChain o t s [] s
  | step {s s' e : Nat} {w : W} {b : Arc W} {bs : List (Arc W)} :
      finalOf t s = some w → o.finite w = false → firstArc t s 0 = some b → b.next = (s' : Int) →
      FChain o t s' bs e → FChain o t s (b :: bs) e

/-- The backed-off final weight; a sum that is not finite is reported as infinity when it is backed off
further. -/
def backedFinal (o : FloatOps W) (bs : List (Arc W)) (w : W) : W :=
  bs.foldr (fun b acc => if o.finite acc then o.add acc b.weight else o.inf) w

/-- A language model: labels are not negative, and the arc array is indexable with `int`. -/
structure IsLm (t : Transducer W) : Prop where
  labels : ∀ x ∈ t.states, ∀ a ∈ x.2, 0 ≤ a.ilabel
  size : arcCount t ≤ 2147483647

/-- The arcs of state 0 have pairwise distinct labels below `INT_MAX` (as the arcs of a unigram state
do). -/
structure UnigramState (t : Transducer W) : Prop where
  exists0 : t.states ≠ []
  distinct : ∀ x as, t.states[0]? = some (x, as) → as.Pairwise (fun a b => a.ilabel ≠ b.ilabel)
  small : ∀ x as, t.states[0]? = some (x, as) → ∀ a ∈ as, a.ilabel < 2147483647

end Verif.Fst
