import Verif.HclgModel

/-!
# Which graphs fit into a file, and which can be walked
-/

namespace Verif.Hclg.Spec

open Verif Verif.Hclg

/-- A value of the type `int`. -/
def IsInt (x : Int) : Prop := -2147483648 ≤ x ∧ x < 2147483648

/-- A value of the type `int64`. -/
def IsInt64 (x : Int) : Prop := -9223372036854775808 ≤ x ∧ x < 9223372036854775808

/-- The members of a header have values of their types. -/
structure HeaderFits (h : Header) : Prop where
  fstType : h.fstType.length < 2147483648
  arcType : h.arcType.length < 2147483648
  version : IsInt h.version
  flags : h.flags < 4294967296
  properties : h.properties < 18446744073709551616
  start : IsInt64 h.start
  numStates : IsInt64 h.numStates
  numArcs : IsInt64 h.numArcs

/-- A table that can be read back: strings and numbers fit, and no key is the largest one. -/
structure TableFits (t : Table) : Prop where
  name : t.name.length < 2147483648
  size : t.symbols.length < 9223372036854775808
  symbols : ∀ q ∈ t.symbols, q.1.length < 2147483648 ∧ IsInt64 q.2 ∧ q.2 ≠ 9223372036854775807

/-- An arc with values of the types of OpenFst. -/
structure ArcFits (a : Arc) : Prop where
  ilabel : IsInt a.ilabel
  olabel : IsInt a.olabel
  weight : a.weight < 4294967296
  next : IsInt a.next

/-- A graph that fits: fewer than 2^31 states and 2^32 arcs. -/
structure Fits (g : Source) : Prop where
  start : IsInt g.start
  states : g.states.length < 2147483648
  arcs : (g.states.map (·.2)).flatten.length < 4294967296
  final : ∀ st ∈ g.states, st.1 < 4294967296
  arc : ∀ st ∈ g.states, ∀ a ∈ st.2, ArcFits a

/-- `s` is a state of a graph with `n` states. -/
def IsState (n : Nat) (s : Int) : Prop := 0 ≤ s ∧ s < n

/-- The start state is a state, and all arcs lead to states. -/
structure Closed (g : Source) : Prop where
  start : IsState g.states.length g.start
  next : ∀ st ∈ g.states, ∀ a ∈ st.2, IsState g.states.length a.next

end Verif.Hclg.Spec
