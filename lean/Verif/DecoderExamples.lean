import Verif.DecoderSpec
import Mathlib.Algebra.Order.Ring.Rat
import Mathlib.Tactic.Linarith
import Mathlib.Tactic.Positivity
import Mathlib.Tactic.FieldSimp

/-!
# A concrete arithmetic and small graphs for the examples

Rationals with infinity (`none`), for which all the laws hold at once.
-/

namespace Verif.Decoder

open Verif Verif.Fst

/-- Rationals with infinity. -/
abbrev Q := Option Rat

/-- Addition on `Q`. -/
def qadd : Q → Q → Q
  | some a, some b => some (a + b)
  | _, _ => none

/-- Subtraction on `Q`. -/
def qsub : Q → Q → Q
  | some a, some b => some (a - b)
  | _, _ => none

/-- Multiplication on `Q`. -/
def qmul : Q → Q → Q
  | some a, some b => some (a * b)
  | _, _ => none

/-- Comparison on `Q`. -/
def qlt : Q → Q → Bool
  | some a, some b => decide (a < b)
  | some _, none => true
  | none, _ => false

/-- Exact arithmetic with infinity. -/
def qar : Arith Q Q where
  fadd := qadd
  fmul := qmul
  fneg := Option.map (fun x => -x)
  zero := some 0
  flt := qlt
  fdiv a b := some ((a : Rat) / b)
  toD := id
  toF := id
  dadd := qadd
  dsub := qsub
  dlt := qlt
  finite x := x.isSome
  inf := none
  isInf x := x.isNone
  beam := some 16
  beamDelta := some (1 / 2)

theorem qle_iff {a b : Q} : qlt b a = false ↔ b = none ∨ ∃ x y, a = some x ∧ b = some y ∧ x ≤ y := by
  cases a <;> cases b <;> simp [qlt]

theorem qar_dorder : DOrder qar where
  trans {a b c} := by
    cases a <;> cases b <;> cases c <;> simp [qar, qlt]
    intro h1 h2; linarith
  irrefl a := by cases a <;> simp [qar, qlt]
  inf_max {a} h b := by cases a <;> cases b <;> simp_all [qar, qlt]
  isInf_inf := rfl

theorem qar_round : RoundLaws qar where
  toF_ge h := h
  beam_pos d := by cases d <;> simp [qar, qlt, qadd]

theorem qar_frac : FracLaw qar := by
  intro a b c d _ hb _ _ hd _ h
  simp only [qar, qlt, decide_eq_true_eq]
  have hb' : (0 : Rat) < b := by exact_mod_cast hb
  have hd' : (0 : Rat) < d := by exact_mod_cast hd
  rw [div_lt_div_iff₀ hb' hd']
  have h1 : (2 : Rat) * (a * d) < c * b := by exact_mod_cast h
  have h2 : (0 : Rat) ≤ a * d := by positivity
  linarith

/-- There is nothing else but numbers. -/
abbrev qn : Q → Bool := fun _ => false

theorem qar_nan : NanLaws qar qn qn :=
  ⟨nofun, nofun, nofun, nofun, nofun, nofun, nofun, nofun, nofun, nofun, nofun, nofun, rfl, rfl⟩

theorem qar_mono : MonoLaws qar qn qn where
  fasymm {a b} := by cases a <;> cases b <;> simp [qar, qlt]; intro h; linarith
  ftrans {a b c} := by cases a <;> cases b <;> cases c <;> simp [qar, qlt]; intro h g; linarith
  fle {a b c} _ := by cases a <;> cases b <;> cases c <;> simp [qar, qlt]; intro h g; linarith
  dasymm {a b} := by cases a <;> cases b <;> simp [qar, qlt]; intro h; linarith
  dtrans {a b c} := by cases a <;> cases b <;> cases c <;> simp [qar, qlt]; intro h g; linarith
  dle {a b c} _ := by cases a <;> cases b <;> cases c <;> simp [qar, qlt]; intro h g; linarith
  fadd {a b} c := by cases a <;> cases b <;> cases c <;> simp [qar, qlt, qadd]
  dadd {a b} c := by cases a <;> cases b <;> cases c <;> simp [qar, qlt, qadd]
  toD h := h
  toF h := h

/-- A graph with an epsilon arc, a word, two ways to state 2, and a final weight of 3. -/
def demoGraph : Graph Q where
  start := 0
  arcs s :=
    if s = 0 then [⟨0, 0, some 1, 1⟩, ⟨1, 7, some 2, 2⟩]
    else if s = 1 then [⟨1, 8, some (-1), 2⟩, ⟨2, 0, some 5, 1⟩]
    else if s = 2 then [⟨2, 0, some 0, 2⟩, ⟨0, 9, some 1, 3⟩] else []
  final s := if s = 3 then some 3 else if s = 2 then some 10 else none

/-- The demo graph with no language model. -/
def demo : Env Q Q := ⟨qar, demoGraph, none, [0, 0, 1], some 1⟩

/-- A language model with one word. -/
def demoLm : IFst Q where
  start := .ok 4
  getArc s l := if s = 4 ∧ l = 8 then .ok (some { next := 5, ilabel := 8, olabel := 8, weight := some 2 }) else .ok none
  final s := .ok (some s)

/-- The demo graph composed with a language model. -/
def demoWithLm : Env Q Q := ⟨qar, demoGraph, some demoLm, [0, 0, 1], some 1⟩

/-- Frames for the demo graph. -/
def demoFrames : List (List Q) := [[some (-1), some (-2)], [some 0, some (-3)]]

/-- Feed frames to a decoder, collecting what `Process` returned. -/
def feed {F D : Type} (e : Env F D) (fuel : Nat) : List (List F) → Dec F → Exec (List Bool × List (Option (Cutoffs F D)) × Dec F)
  | [], d => .ok ([], [], d)
  | f :: fs, d => do
    let (b, c, d) ← process e fuel f d
    let (bs, cs, d) ← feed e fuel fs d
    .ok (b :: bs, c :: cs, d)

theorem feed_run {F D : Type} {e : Env F D} {fuel : Nat} : ∀ {fs fs0 : List (List F)} {bs bs0 : List Bool}
    {cs cs0 : List (Option (Cutoffs F D))} {d d' : Dec F}, Run e fs0 bs0 cs0 d →
    feed e fuel fs d = .ok (bs, cs, d') → Run e (fs0 ++ fs) (bs0 ++ bs) (cs0 ++ cs) d'
  | [], _, _, _, _, _, _, _, hr, h => by cases h; simpa using hr
  | f :: fs, fs0, bs, bs0, cs, cs0, d, d', hr, h => by
    obtain ⟨⟨b, c, d1⟩, h1, h⟩ := bind_ok h
    obtain ⟨⟨bs1, cs1, d2⟩, h2, h⟩ := bind_ok h
    cases h
    have := feed_run (.frame hr h1) h2
    simpa using this

deriving instance DecidableEq for Cutoffs

instance : DecidableEq (Dec Q) := inferInstance

instance : DecidableEq (List (Option (Cutoffs Q Q))) := inferInstance

end Verif.Decoder
