import Verif.InitParts

/-!
# A small model directory

Used in the examples beside the theorems: a configuration `d/c` with all keys, the files it names, and the model
in them.
-/

namespace Verif.App.Ex

open Verif Verif.Text Verif.App.Spec

instance decCaseEq (a b : UInt8) : Decidable (CaseEq a b) := by unfold CaseEq; infer_instance

instance decSameKey : ∀ s t : Str, Decidable (SameKey s t)
  | [], [] => isTrue trivial
  | a :: s, b :: t => by
    have := decSameKey s t
    unfold SameKey
    infer_instance
  | [], _ :: _ => isFalse (by unfold SameKey; exact fun h => h)
  | _ :: _, [] => isFalse (by unfold SameKey; exact fun h => h)

instance decWhite (c : UInt8) : Decidable (White c) := by unfold White; infer_instance

/-- No white space at all. -/
def Solid (s : Str) : Prop := ∀ c ∈ s, ¬ White c

instance (s : Str) : Decidable (Solid s) := by unfold Solid; infer_instance

theorem tight_of_solid {s : Str} (h : Solid s) : Tight s :=
  ⟨fun c hc => h c (List.mem_of_mem_head? hc), fun c hc => h c (List.mem_of_getLast? hc)⟩

/-- A line `key=value`. -/
def entry (p : Str × Str) : ConfEntry := ⟨p.1 ++ [61] ++ p.2, [10], some p⟩

/-- What makes such a line good. -/
def GoodPair (p : Str × Str) : Prop :=
  p.1 ≠ [] ∧ p.2 ≠ [] ∧ Solid p.1 ∧ Solid p.2 ∧ 61 ∉ p.1 ∧ 61 ∉ p.2 ∧ p.1.head? ≠ some 35 ∧
    0 ∉ p.1 ++ [61] ++ p.2 ∧ (p.1 ++ [61] ++ p.2).length ≤ 4000

instance (p : Str × Str) : Decidable (GoodPair p) := by unfold GoodPair; infer_instance

theorem entry_good {p : Str × Str} (h : GoodPair p) : (entry p).Good := by
  obtain ⟨h1, h2, h3, h4, h5, h6, h7, h8, h9⟩ := h
  have hsol : ∀ c ∈ p.1 ++ [61] ++ p.2, ¬ White c := by
    intro c hc
    simp only [List.mem_append, List.mem_singleton] at hc
    rcases hc with (hc | rfl) | hc
    · exact h3 c hc
    · decide
    · exact h4 c hc
  refine ⟨⟨h8, fun hc => hsol _ hc (by decide), fun hc => ?_, .inl rfl, ?_⟩, ?_⟩
  · have := List.mem_of_getLast? hc
    exact hsol _ this (by decide)
  · show (p.1 ++ [61] ++ p.2).length + 1 ≤ 4095
    omega
  · have := ConfLine.define [] p.1 [] [] p.2 [] (by simp) (by simp) (by simp) (by simp) h1 h2 (tight_of_solid h3)
      (tight_of_solid h4) h5 h6 h7
    simpa [entry] using this

/-- The text of a configuration. -/
def confOf (defs : List (Str × Str)) : Str := ((defs.map entry).map (fun e => e.line ++ e.eol)).flatten ++ []

theorem isConf {defs : List (Str × Str)} (h : ∀ p ∈ defs, GoodPair p) : IsConf (confOf defs) defs := by
  refine ⟨defs.map entry, [], none, rfl, ?_, ⟨by simp, by simp, by simp, by simp⟩, .blank _ (by simp), ?_⟩
  · intro e he
    obtain ⟨p, hp, rfl⟩ := List.mem_map.1 he
    exact entry_good (h p hp)
  · rw [List.filterMap_map]
    have : (ConfEntry.mean ∘ entry) = some := rfl
    rw [this, List.filterMap_some]
    simp

theorem defines_at {defs : List (Str × Str)} {key k v : Str} (i : Nat) (h : defs[i]? = some (k, v)) (hk : SameKey k key)
    (hp : ∀ p ∈ defs.drop (i + 1), ¬ SameKey p.1 key) : Defines defs key v := by
  refine ⟨defs.take i, k, defs.drop (i + 1), ?_, hk, hp⟩
  obtain ⟨hi, he⟩ := List.getElem?_eq_some_iff.1 h
  rw [← he, List.getElem_cons_drop, List.take_append_drop]

theorem names_at {defs : List (Str × Str)} {key k v : Str} (i : Nat) (h : defs[i]? = some (k, v)) (hk : SameKey k key)
    (hp : ∀ p ∈ defs.drop (i + 1), ¬ SameKey p.1 key) (hv : v ≠ reserved ∧ v.head? ≠ some 47) :
    Names [100, 47, 99] defs key ([100, 47] ++ v) :=
  ⟨v, defines_at i h hk hp, hv.1, .beside (dir := [100]) (base := [99]) hv.2 rfl (by decide)⟩

theorem sets_at {defs : List (Str × Str)} {key k v : Str} (i : Nat) (n : Nat) (h : defs[i]? = some (k, v))
    (hk : SameKey k key) (hp : ∀ p ∈ defs.drop (i + 1), ¬ SameKey p.1 key)
    (hv : v ≠ [] ∧ (∀ c ∈ v, 48 ≤ c ∧ c ≤ 57) ∧ (v = [48] ∨ v.head? ≠ some 48) ∧ decVal v = n) (hn : n < 2147483648) :
    Sets defs key n := ⟨v, defines_at i h hk hp, hv, hn⟩

/-- The definitions; the key of the graph is written in capitals, and a first definition of `nnet` is superseded. -/
def defs : List (Str × Str) :=
  [([70, 83, 84], [103]), (kNnet, [48]), (kNnet, [110]), (kPrior, [112]), (kLeft, [49, 50]), (kRight, [51]), (kChunk, [52, 48]),
    (kNumPdfs, [53]), (kTid2pdf, [116]), (kSymbols, [115]), (kLarge, [108]), (kOriginal, [111])]

/-- The large language model. -/
def lm : Fst.Transducer UInt32 :=
  ⟨1, [(7, [⟨1, 5, 5, 20⟩, ⟨0, 3, 3, 30⟩]), (8, [⟨0, 0, 0, 4⟩])]⟩

/-- Two words and the sentence symbols. -/
def syms : List SymEntry :=
  [⟨[60, 115, 62], [49], 1, [10]⟩, ⟨[60, 47, 115, 62], [50], 2, [10]⟩, ⟨[97], [51], 3, [10]⟩, ⟨[98], [53], 5, [13, 10]⟩]

/-- The model. -/
def model : Spec.Model Nat :=
  ⟨99, 1, 1, Ser.toyNet, [5, 6], 12, 3, 40, 5, [-1, 0, 4], syms, some ([1, 2, 3], lm)⟩

/-- The bytes of the large language model. -/
def lmBytes : List UInt8 := match Fst.converterOutput lm with
  | .ok b => b
  | .error _ => []

/-- The files by name; the directory is `d`. -/
def files : List (Str × List UInt8) :=
  [([100, 47, 99], confOf defs), ([100, 47, 110], Ser.writeNnet 1 1 Ser.toyNet),
    ([100, 47, 112], Ser.writeVec [5, 6]), ([100, 47, 116], Ser.writeVec (intWords [-1, 0, 4]) ++ [77]),
    ([100, 47, 115], (syms.map (fun e => e.line ++ e.eol)).flatten), ([100, 47, 108], lmBytes),
    ([100, 47, 111], Ser.writeVec [1, 2, 3])]

/-- The world: `9` stands for a negative number, the logarithm of `x` is `x + 100`. -/
def world : World Nat :=
  ⟨fun n => (files.find? fun p => p.1 == n).map Prod.snd, fun n => if n = [100, 47, 103] then some 99 else none,
    fun x => x != 9, fun x => x + 100⟩

theorem conf_ok : IsConf (confOf defs) defs := isConf (by decide +kernel)

theorem conf_file : world.file [100, 47, 99] = some (confOf defs) := rfl

theorem lm_ok : Fst.FitsFields lm ∧ lm.states ≠ [] ∧ Fst.arcCount lm ≠ 0 ∧ Fst.IsLm lm ∧ Fst.UnigramState lm ∧
    Fst.converterOutput lm = .ok lmBytes := by
  refine ⟨⟨by decide, ?_, by decide⟩, by decide, by decide, ⟨by decide, by decide⟩, ⟨by decide, ?_, ?_⟩, ?_⟩
  · simp only [lm]
    decide
  · intro x as h
    simp only [lm, List.getElem?_cons_zero, Option.some.injEq, Prod.mk.injEq] at h
    rw [← h.2]; decide
  · intro x as h
    simp only [lm, List.getElem?_cons_zero, Option.some.injEq, Prod.mk.injEq] at h
    rw [← h.2]; decide
  · decide +kernel

theorem syms_ok : ∀ e ∈ syms, e.Ok ∧ GoodLine e.line e.eol := by
  intro e he
  simp only [syms, List.mem_cons, List.not_mem_nil, or_false] at he
  rcases he with rfl | rfl | rfl | rfl <;>
    exact ⟨⟨by decide, ⟨by decide, by decide, .inr (by decide), by decide⟩, by decide⟩, by decide, by decide, by decide,
      by first | exact .inl rfl | exact .inr rfl, by decide⟩

theorem installed : Installed world [100, 47, 99] defs model := by
  refine ⟨⟨_, names_at 0 rfl (by decide) (by decide) (by decide), rfl⟩,
    ⟨_, [], names_at 2 rfl (by decide) (by decide) (by decide), by decide +kernel⟩,
    ⟨_, [], names_at 3 rfl (by decide) (by decide) (by decide), by decide +kernel⟩,
    sets_at 4 12 rfl (by decide) (by decide) (by decide) (by decide),
    sets_at 5 3 rfl (by decide) (by decide) (by decide) (by decide),
    sets_at 6 40 rfl (by decide) (by decide) (by decide) (by decide),
    sets_at 7 5 rfl (by decide) (by decide) (by decide) (by decide),
    ⟨_, [77], names_at 8 rfl (by decide) (by decide) (by decide), by decide +kernel⟩,
    ⟨_, names_at 9 rfl (by decide) (by decide) (by decide), by decide +kernel⟩,
    ⟨_, [], lmBytes, names_at 10 rfl (by decide) (by decide) (by decide), lm_ok.2.2.2.2.2, by decide +kernel⟩,
    ⟨_, [], names_at 11 rfl (by decide) (by decide) (by decide), by decide +kernel⟩⟩

theorem model_ok : model.Ok world := by
  refine ⟨⟨by decide, by decide⟩, ⟨by decide, by decide⟩, by decide, Ser.toyNet_ok, ⟨by decide, by decide, by decide⟩,
    by decide, ⟨by decide, by decide, by decide⟩, syms_ok, by decide, ?_⟩
  intro u t h
  cases h
  obtain ⟨h1, h2, h3, h4, h5, _⟩ := lm_ok
  exact ⟨⟨by decide, by decide, by decide⟩, h1, h2, h3, h4, h5⟩

end Verif.App.Ex
