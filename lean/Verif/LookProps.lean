import Verif.LookLemmas
import Verif.HclgProps
import Verif.DecoderExamples

/-!
# C93: decoding with a graph file is decoding with the graph that was written
-/

namespace Verif.Look

open Verif Verif.Decoder Verif.Look.Spec
open Verif.Hclg (Source ConstFst read write finalAt arcsAt Table)
open Verif.Hclg.Spec (Fits TableFits Closed IsState)

variable {F D : Type}

/-- C93, the search.  If there is a set of states that contains the start state and that no arc leaves, and if looking up these
states gives what the graph has, then every sequence of calls on a new decoder gives the answers, or the fault, that it gives on
the graph.  So lookups of other states, which may be undefined, never happen. -/
theorem C93_same {P : Int → Prop} {l : LGraph F} {e : Env F D} (h : Covers P l e.g) (fuel : Nat) (calls : List (Call F)) :
    run e l fuel fresh calls = Spec.run e fuel fresh calls :=
  run_same h fuel calls fresh (fun _ ht => by cases ht) (fun _ ht => by cases ht)

theorem covers_image (ofBits : Nat → F) {g : Source} (hg : Fits g) (hc : Closed g) :
    Covers (IsState g.states.length) (fileGraph ofBits g.image) (graph ofBits g) where
  start := rfl
  start_in := hc.start
  next s hs a ha := by
    unfold graph at ha
    dsimp only at ha
    rw [if_pos hs.1] at ha
    obtain ⟨b, hb, rfl⟩ := List.mem_map.1 ha
    have hlt : s.toNat < g.states.length := by have := hs.2; have := hs.1; omega
    rw [List.getElem?_eq_getElem hlt] at hb
    exact hc.next _ (List.getElem_mem hlt) b hb
  arcs s hs := by
    have hlt : s.toNat < g.states.length := by have := hs.2; have := hs.1; omega
    have h1 := Hclg.arcsAt_image hg (List.getElem?_eq_getElem hlt)
    rw [Int.toNat_of_nonneg hs.1] at h1
    unfold fileGraph graph
    dsimp only
    rw [h1, if_pos hs.1, List.getElem?_eq_getElem hlt]
    rfl
  final s hs := by
    have hlt : s.toNat < g.states.length := by have := hs.2; have := hs.1; omega
    have h1 := Hclg.finalAt_image hg (List.getElem?_eq_getElem hlt)
    rw [Int.toNat_of_nonneg hs.1] at h1
    unfold fileGraph graph
    dsimp only
    rw [h1, List.getElem?_eq_getElem hlt]
    rfl

/-- C93, the file.  A graph whose start state exists and whose arcs lead to states of it is written to a file, aligned or not, with
or without symbols, anything behind it: the file is read, and every sequence of calls on a new decoder with what was read gives
the answers, or the fault, that it gives on the graph that was written.  This for every arithmetic, every way to read the bits of
a weight, every language model, every table of transitions. -/
theorem C93_file {g : Source} (hg : Fits g) (hc : Closed g) (align : Bool) {properties : Nat}
    (hp : properties < 18446744073709551616) {i o : Option Table} (hi : ∀ t ∈ i, TableFits t) (ho : ∀ t ∈ o, TableFits t)
    (rest : List UInt8) :
    ∃ f, read (write align properties i o g ++ rest) = .ok (some f) ∧
      ∀ {F D : Type} (ofBits : Nat → F) (e : Env F D), e.g = graph ofBits g → ∀ (fuel : Nat) (calls : List (Call F)),
        run e (fileGraph ofBits f) fuel fresh calls = Spec.run e fuel fresh calls :=
  ⟨g.image, Hclg.read_of_impl (Hclg.impl_write hg align hp hi ho rest), fun ofBits e he fuel calls =>
    C93_same (he ▸ covers_image ofBits hg hc) fuel calls⟩

/-- What a language model gives as the start state, if it gives one. -/
theorem lmStart_ok {e : Env F D} (h : ∀ lm ∈ e.lm, ∃ s, lm.start = .ok s) : ∃ s, lmStart e = .ok s := by
  unfold lmStart
  cases hl : e.lm with
  | none => exact ⟨_, rfl⟩
  | some lm => exact h lm hl

theorem init_run {e : Env F D} {l : LGraph F} {ls : Int} (hl : lmStart e = .ok ls) (h : 0 ≤ l.start) {fuel : Nat} {x : Fault}
    (ha : l.arcs l.start = .error x) (calls : List (Call F)) : run e l (fuel + 1) fresh (.init :: calls) = .error x := by
  rw [run]
  unfold step initDecoder processNonemitting
  rw [decide_eq_true h]
  simp only [cassert, if_true, ok_bind, hl, insertTok, fresh, List.lookup_nil, List.nil_append, List.all_cons, List.all_nil,
    Bool.and_true, List.map_cons, List.map_nil, List.reverse_cons, List.reverse_nil, nonemitLoop]
  rw [decide_eq_true h]
  simp [ha, error_bind]

/-- C93, what a file is not checked for: the start state.  A graph file whose start state is not a state of it is read without an
error, and the first thing the decoder does with it is undefined behaviour. -/
theorem C93_start_outside {g : Source} (hg : Fits g) (hs : 0 ≤ g.start) (hn : ¬ IsState g.states.length g.start) (align : Bool)
    {properties : Nat} (hp : properties < 18446744073709551616) :
    ∃ f, read (write align properties none none g) = .ok (some f) ∧
      ∀ {F D : Type} (ofBits : Nat → F) (e : Env F D), (∀ lm ∈ e.lm, ∃ s, lm.start = .ok s) → ∀ (fuel : Nat) (calls : List (Call F)),
        run e (fileGraph ofBits f) (fuel + 1) fresh (.init :: calls) = .error .ub := by
  obtain ⟨f, h1, h2, h3⟩ := Hclg.C92_outside_ub (align := align) hg hp hn
  have hf : f.start = g.start := by
    have h4 := Hclg.read_of_impl (Hclg.impl_write hg align hp (i := none) (o := none) (fun _ h => by cases h) (fun _ h => by cases h) [])
    rw [List.append_nil, h1] at h4
    injection h4 with h4
    injection h4 with h4
    rw [h4]
    rfl
  refine ⟨f, h1, fun ofBits e he fuel calls => ?_⟩
  obtain ⟨ls, hl⟩ := lmStart_ok he
  refine init_run hl (show 0 ≤ f.start from hf ▸ hs) ?_ calls
  show (do let as ← arcsAt f f.start; _) = _
  rw [hf, h3]
  rfl

/-- C93, the graph with no start state (such as the empty graph, start -1): it is read without an error, and the decoder dies by
an assertion when it is initialised. -/
theorem C93_no_start {g : Source} (hg : Fits g) (hs : g.start < 0) (align : Bool)
    {properties : Nat} (hp : properties < 18446744073709551616) :
    ∃ f, read (write align properties none none g) = .ok (some f) ∧
      ∀ {F D : Type} (ofBits : Nat → F) (e : Env F D) (fuel : Nat) (d : Dec F) (calls : List (Call F)),
        run e (fileGraph ofBits f) fuel d (.init :: calls) = .error .assert := by
  have h4 := Hclg.read_of_impl (Hclg.impl_write hg align hp (i := none) (o := none) (fun _ h => by cases h) (fun _ h => by cases h) [])
  rw [List.append_nil] at h4
  refine ⟨g.image, h4, fun ofBits e fuel d calls => ?_⟩
  rw [run]
  unfold step initDecoder
  rw [decide_eq_false (show ¬ 0 ≤ (fileGraph ofBits g.image).start from Int.not_le.2 hs)]
  rfl

/-- A state with one arc without a label, that leads to the state `next`. -/
def oneArc (next : Int) : Source := ⟨0, [(0, [⟨0, 0, 0, next⟩])]⟩

theorem oneArc_fits {next : Int} (h : Hclg.Spec.IsInt next) : Fits (oneArc next) where
  start := show -2147483648 ≤ (0 : Int) ∧ (0 : Int) < 2147483648 by decide
  states := show 1 < 2147483648 by decide
  arcs := show 1 < 4294967296 by decide
  final st hst := by
    simp only [oneArc, List.mem_singleton] at hst
    subst hst
    exact show 0 < 4294967296 by decide
  arc st hst a ha := by
    simp only [oneArc, List.mem_singleton] at hst
    subst hst
    simp only [List.mem_singleton] at ha
    subst ha
    exact ⟨show -2147483648 ≤ (0 : Int) ∧ (0 : Int) < 2147483648 by decide,
      show -2147483648 ≤ (0 : Int) ∧ (0 : Int) < 2147483648 by decide, show 0 < 4294967296 by decide, h⟩

/-- C93, what a file is not checked for: the states that arcs lead to.  A graph file with an arc to a state that it does not have
is read without an error, and using it is undefined behaviour.  The hypothesis on the arithmetic says that a weight of 0 is not
above infinity. -/
theorem C93_arc_outside {next : Int} (h1 : 1 ≤ next) (h2 : Hclg.Spec.IsInt next) (align : Bool)
    {properties : Nat} (hp : properties < 18446744073709551616) :
    ∃ f, read (write align properties none none (oneArc next)) = .ok (some f) ∧
      ∀ {F D : Type} (ofBits : Nat → F) (e : Env F D), e.lm = none →
        e.ar.dlt e.ar.inf (e.ar.toD (e.ar.fadd (e.ar.fadd e.ar.zero (ofBits 0)) e.ar.zero)) = false → ∀ (fuel : Nat) (calls : List (Call F)),
        run e (fileGraph ofBits f) (fuel + 2) fresh (.init :: calls) = .error .ub := by
  have h4 := Hclg.read_of_impl (Hclg.impl_write (oneArc_fits h2) align hp (i := none) (o := none) (fun _ h => by cases h)
    (fun _ h => by cases h) [])
  rw [List.append_nil] at h4
  refine ⟨_, h4, fun ofBits e hl hd fuel calls => ?_⟩
  have a1 : (fileGraph ofBits (oneArc next).image).arcs 0 = .ok [⟨0, 0, ofBits 0, next⟩] := by
    show (do let as ← arcsAt (oneArc next).image ((0 : Nat) : Int); _) = _
    rw [Hclg.arcsAt_image (oneArc_fits h2) (i := 0) rfl]
    rfl
  have a2 : (fileGraph ofBits (oneArc next).image).arcs next = .error .ub := by
    show (do let as ← arcsAt (oneArc next).image next; _) = _
    unfold arcsAt
    rw [Hclg.stateAt_outside (oneArc next) (fun h => by have := h.2; change next < 1 at this; omega)]
    rfl
  generalize hg : fileGraph ofBits (oneArc next).image = l at a1 a2
  have a3 : l.start = 0 := by rw [← hg]; rfl
  rw [run]
  unfold step initDecoder processNonemitting
  rw [a3]
  have hne : ((next, (0 : Int)) == (0, 0)) = false := by
    rw [beq_eq_false_iff_ne]
    intro h
    injection h with h _
    omega
  simp [cassert, hl, insertTok, fresh, nonemitLoop, a1, a2, nonemitArc, lmStart, addLm, ok_bind, error_bind, hd, hne, List.lookup]

/-! ## Examples -/

open Verif.Hclg (twoStates twoStates_fits)

/-- The bits as a number: enough for examples. -/
def bits (n : Nat) : Q := some n

/-- A decoder for the graph with two states. -/
def twoEnv : Env Q Q := ⟨qar, graph bits twoStates, none, [0, 0], some 1⟩

theorem twoStates_closed : Closed twoStates :=
  ⟨by unfold IsState; decide, fun st hst a ha => by
    simp only [twoStates, List.mem_cons, List.not_mem_nil, or_false] at hst
    rcases hst with rfl | rfl
    · simp only [List.mem_cons, List.not_mem_nil, or_false] at ha
      rcases ha with rfl | rfl <;> exact ⟨by decide, by decide⟩
    · cases ha⟩

/-- One frame through the file: the word 2 of the arc, and the weights of the arc and of the final state. -/
example : ∃ f, read (write true 0 none none twoStates) = .ok (some f) ∧
    run twoEnv (fileGraph bits f) 9 fresh [.init, .frame [some 5], .eos, .best] =
      Spec.run twoEnv 9 fresh [.init, .frame [some 5], .eos, .best] := by
  obtain ⟨f, h1, h2⟩ := C93_file twoStates_fits twoStates_closed true (properties := 0) (by decide) (i := none) (o := none)
    (fun _ h => by cases h) (fun _ h => by cases h) []
  rw [List.append_nil] at h1
  exact ⟨f, h1, h2 bits twoEnv rfl 9 _⟩

/-- Both sides by running the models. -/
example : Spec.run twoEnv 9 fresh [.init, .frame [some 5], .eos, .best] =
      .ok [.unit, .bool true, .unit, .path [2] (some 3196059643)] ∧
    run twoEnv (fileGraph bits twoStates.image) 9 fresh [.init, .frame [some 5], .eos, .best] =
      .ok [.unit, .bool true, .unit, .path [2] (some 3196059643)] := by decide +kernel

/-- The set of all states serves for a graph that is defined everywhere. -/
example (calls : List (Call Q)) :
    run demo ⟨0, fun s => .ok (demo.g.arcs s), fun s => .ok (demo.g.final s)⟩ 50 fresh calls = Spec.run demo 50 fresh calls :=
  C93_same (P := fun _ => True) ⟨rfl, trivial, fun _ _ _ _ => trivial, fun _ _ => rfl, fun _ _ => rfl⟩ 50 calls

/-- A graph without states that starts at state 3. -/
example : ∃ f, read (write false 0 none none ⟨3, []⟩) = .ok (some f) ∧
    run twoEnv (fileGraph bits f) 9 fresh [.init] = .error .ub := by
  obtain ⟨f, h1, h2⟩ := C93_start_outside (g := ⟨3, []⟩)
    ⟨by unfold Hclg.Spec.IsInt; decide, by decide, by decide, by decide, fun _ h => by cases h⟩ (by decide)
    (by unfold IsState; decide) false (properties := 0) (by decide)
  exact ⟨f, h1, h2 bits twoEnv (fun _ h => by cases h) 8 []⟩

/-- The empty graph. -/
example : ∃ f, read (write false 0 none none ⟨-1, []⟩) = .ok (some f) ∧
    run twoEnv (fileGraph bits f) 9 fresh [.init, .best] = .error .assert := by
  obtain ⟨f, h1, h2⟩ := C93_no_start (g := ⟨-1, []⟩)
    ⟨by unfold Hclg.Spec.IsInt; decide, by decide, by decide, by decide, fun _ h => by cases h⟩ (by decide) false
    (properties := 0) (by decide)
  exact ⟨f, h1, h2 bits twoEnv 9 fresh [.best]⟩

/-- An arc from the state 0 to a state 1 that is not there. -/
example : ∃ f, read (write false 0 none none (oneArc 1)) = .ok (some f) ∧
    run twoEnv (fileGraph bits f) 9 fresh [.init] = .error .ub := by
  obtain ⟨f, h1, h2⟩ := C93_arc_outside (next := 1) (by decide) (by unfold Hclg.Spec.IsInt; decide) false
    (properties := 0) (by decide)
  exact ⟨f, h1, h2 bits twoEnv rfl (by decide +kernel) 7 []⟩

end Verif.Look
