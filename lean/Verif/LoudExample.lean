import Verif.LoudSpec
import Verif.MainExample

/-!
# Small model directories with a language model, for the examples about warnings
-/

namespace Verif.Loud.Ex

open Verif Verif.Text Verif.App.Spec Verif.App.Ex Verif.Main.Spec

/-- The configuration: that of `Main.Ex`, and the language models. -/
def defs : List (Str × Str) := Main.Ex.defs ++ [(App.kLarge, [108]), (App.kOriginal, [111])]

/-- A language model with the word `hi`, but without `<s>`. -/
def lmDumb : Fst.Transducer UInt32 := ⟨0, [(7, [⟨0, 1, 1, 20⟩])]⟩

/-- A language model with `<s>` and, behind a backoff arc, `hi`. -/
def lmGood : Fst.Transducer UInt32 := ⟨0, [(7, [⟨1, 2, 2, 5⟩, ⟨0, 1, 1, 20⟩, ⟨0, 3, 3, 6⟩]), (8, [⟨0, 0, 0, 4⟩])]⟩

/-- A language model with `<s>`, but without `hi`. -/
def lmNarrow : Fst.Transducer UInt32 := ⟨0, [(7, [⟨0, 2, 2, 5⟩, ⟨0, 3, 3, 6⟩])]⟩

/-- The scores of the small language model. -/
def small : List Nat := [1, 2, 3, 4]

/-- The bytes of a language model. -/
def lmBytes (t : Fst.Transducer UInt32) : List UInt8 := match Fst.converterOutput t with
  | .ok b => b
  | .error _ => []

/-- The model. -/
def model (t : Fst.Transducer UInt32) : App.Spec.Model Unit := { Main.Ex.model with lm := some (small, t) }

/-- The files. -/
def files (t : Fst.Transducer UInt32) : List (Str × List UInt8) :=
  ([100, 47, 99], confOf defs) :: ([100, 47, 108], lmBytes t) :: ([100, 47, 111], Ser.writeVec small) :: Main.Ex.files

/-- The world. -/
def world (t : Fst.Transducer UInt32) : App.World Unit :=
  { Main.Ex.world with file := fun n => ((files t).find? fun p => p.1 == n).map Prod.snd }

/-- Another decoding graph: it begins with the word `hi`, which takes no time. -/
def eager : Main.Machine Unit Int Int :=
  { Main.Ex.mach with graph := fun _ => { Stt.toyGraph with arcs := fun s =>
      if s = 0 then [⟨1, 1, 3, 1⟩, ⟨0, 1, 0, 1⟩] else Stt.toyGraph.arcs s } }

/-- No integer is not a number. -/
def never (_ : Int) : Bool := false

theorem conf_ok : IsConf (confOf defs) defs := isConf (by decide +kernel)

theorem conf_file (t : Fst.Transducer UInt32) : (world t).file [100, 47, 99] = some (confOf defs) := rfl

theorem installed {t : Fst.Transducer UInt32} (ht : Fst.converterOutput t = .ok (lmBytes t)) :
    Installed (world t) [100, 47, 99] defs (model t) := by
  refine ⟨⟨_, names_at 0 rfl (by decide) (by decide) (by decide), rfl⟩,
    ⟨_, [], names_at 1 rfl (by decide) (by decide) (by decide), ?_⟩,
    ⟨_, [], names_at 2 rfl (by decide) (by decide) (by decide), ?_⟩,
    sets_at 3 1 rfl (by decide) (by decide) (by decide) (by decide),
    sets_at 4 0 rfl (by decide) (by decide) (by decide) (by decide),
    sets_at 5 2 rfl (by decide) (by decide) (by decide) (by decide),
    sets_at 6 1 rfl (by decide) (by decide) (by decide) (by decide),
    ⟨_, [], names_at 7 rfl (by decide) (by decide) (by decide), ?_⟩,
    ⟨_, names_at 8 rfl (by decide) (by decide) (by decide), ?_⟩,
    ⟨_, [], lmBytes t, names_at 9 rfl (by decide) (by decide) (by decide), ht, ?_⟩,
    ⟨_, [], names_at 10 rfl (by decide) (by decide) (by decide), ?_⟩⟩
  · show Main.Ex.world.file [100, 47, 110] =
      some (Ser.writeNnet Main.Ex.model.netLeft Main.Ex.model.netRight Main.Ex.model.layers ++ [])
    decide +kernel
  · show Main.Ex.world.file [100, 47, 112] =
      some (Ser.writeVec Main.Ex.model.prior ++ [])
    decide +kernel
  · show Main.Ex.world.file [100, 47, 116] =
      some (Ser.writeVec (intWords Main.Ex.model.map) ++ [])
    decide +kernel
  · show Main.Ex.world.file [100, 47, 115] =
      some ((Main.Ex.model.symbols.map (fun e => e.line ++ e.eol)).flatten)
    decide +kernel
  · rw [List.append_nil]; rfl
  · rw [List.append_nil]; rfl

theorem model_ok {t : Fst.Transducer UInt32} (h : Fst.FitsFields t ∧ t.states ≠ [] ∧ Fst.arcCount t ≠ 0 ∧
    Fst.IsLm t ∧ Fst.UnigramState t) : (model t).Ok (world t) :=
  { Main.Ex.model_ok with
    lm := fun u t' h' => by
      cases h'
      exact ⟨⟨by decide, by decide, by decide⟩, h⟩ }

theorem unigram {t : Fst.Transducer UInt32} {x : UInt32} {as : List (Fst.Arc UInt32)} (h : t.states[0]? = some (x, as))
    (h1 : as.Pairwise (fun a b => a.ilabel ≠ b.ilabel)) (h2 : ∀ a ∈ as, a.ilabel < 2147483647) : Fst.UnigramState t where
  exists0 := by intro hc; rw [hc] at h; cases h
  distinct y bs hy := by rw [h] at hy; cases hy; exact h1
  small y bs hy := by rw [h] at hy; cases hy; exact h2

theorem lmDumb_ok : Fst.FitsFields lmDumb ∧ lmDumb.states ≠ [] ∧ Fst.arcCount lmDumb ≠ 0 ∧ Fst.IsLm lmDumb ∧
    Fst.UnigramState lmDumb :=
  ⟨⟨by decide, by unfold lmDumb; decide, by decide⟩, by decide, by decide, ⟨by decide, by decide⟩,
    unigram rfl (by decide) (by decide)⟩

theorem lmGood_ok : Fst.FitsFields lmGood ∧ lmGood.states ≠ [] ∧ Fst.arcCount lmGood ≠ 0 ∧ Fst.IsLm lmGood ∧
    Fst.UnigramState lmGood :=
  ⟨⟨by decide, by unfold lmGood; decide, by decide⟩, by decide, by decide, ⟨by decide, by decide⟩,
    unigram rfl (by decide) (by decide)⟩

theorem lmNarrow_ok : Fst.FitsFields lmNarrow ∧ lmNarrow.states ≠ [] ∧ Fst.arcCount lmNarrow ≠ 0 ∧ Fst.IsLm lmNarrow ∧
    Fst.UnigramState lmNarrow :=
  ⟨⟨by decide, by unfold lmNarrow; decide, by decide⟩, by decide, by decide, ⟨by decide, by decide⟩,
    unigram rfl (by decide) (by decide)⟩

theorem lmDumb_bytes : Fst.converterOutput lmDumb = .ok (lmBytes lmDumb) := by decide +kernel
theorem lmGood_bytes : Fst.converterOutput lmGood = .ok (lmBytes lmGood) := by decide +kernel
theorem lmNarrow_bytes : Fst.converterOutput lmNarrow = .ok (lmBytes lmNarrow) := by decide +kernel

theorem fits (t : Fst.Transducer UInt32) : Fits Main.Ex.mach (model t) Nnet.toyVecMat 80 80 := { Main.Ex.fits with }

/-- An empty recording on the directory whose language model lacks `<s>`: a warning stands before the (empty) line. -/
theorem run_dumb : main Main.Ex.mach never (world lmDumb) Main.Ex.junk [[100, 47, 99], [101, 46, 119, 97, 118]] =
    ⟨[.warning .noBos, .result (.line [])], .ok ()⟩ := by decide +kernel

/-- With the one that has `<s>`, there is none. -/
theorem run_good : main Main.Ex.mach never (world lmGood) Main.Ex.junk [[100, 47, 99], [101, 46, 119, 97, 118]] =
    ⟨[.result (.line [])], .ok ()⟩ := by decide +kernel

/-- With a graph that begins with a word the language model lacks. -/
theorem run_narrow : main eager never (world lmNarrow) Main.Ex.junk [[100, 47, 99], [101, 46, 119, 97, 118]] =
    ⟨[.warning .mismatch, .result (.line [])], .ok ()⟩ := by decide +kernel

end Verif.Loud.Ex
