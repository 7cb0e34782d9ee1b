import Verif.NanLemmas
import Verif.DecoderExamples

/-!
# An arithmetic with NaN, and graphs for the examples

Rationals with infinity and NaN (`none`), compared and added as IEEE 754 does.
-/

namespace Verif.Decoder

open Verif Verif.Fst

/-- Rationals with infinity and NaN. -/
abbrev N := Option Q

/-- A rational number. -/
abbrev num (r : Rat) : N := some (some r)

/-- Not a number. -/
abbrev nan : N := none

/-- An operation on two numbers. -/
def nop (f : Q → Q → Q) : N → N → N
  | some a, some b => some (f a b)
  | _, _ => none

/-- Comparison: NaN is neither smaller nor larger than anything. -/
def nlt : N → N → Bool
  | some a, some b => qlt a b
  | _, _ => false

/-- Exact arithmetic with infinity and NaN. -/
def nar : Arith N N where
  fadd := nop qadd
  fmul := nop qmul
  fneg := Option.map (Option.map (fun x => -x))
  zero := num 0
  flt := nlt
  fdiv a b := num ((a : Rat) / b)
  toD := id
  toF := id
  dadd := nop qadd
  dsub := nop qsub
  dlt := nlt
  finite x := (x.bind id).isSome
  inf := some none
  isInf x := x == some none
  beam := num 16
  beamDelta := num (1 / 2)

/-- What is not a number. -/
abbrev isNan : N → Bool := Option.isNone

theorem nar_nan : NanLaws nar isNan isNan where
  addl {a} b h := by cases a <;> simp_all [nar, nop, isNan]
  addr a {b} h := by cases a <;> cases b <;> simp_all [nar, nop, isNan]
  mul a {b} h := by cases a <;> cases b <;> simp_all [nar, nop, isNan]
  neg {a} h := by cases a <;> simp_all [nar, isNan]
  toD h := h
  toF h := h
  daddl {a} b h := by cases a <;> simp_all [nar, nop, isNan]
  daddr a {b} h := by cases a <;> cases b <;> simp_all [nar, nop, isNan]
  fltl {a} b h := by cases a <;> simp_all [nar, nlt, isNan]
  fltr a {b} h := by cases a <;> cases b <;> simp_all [nar, nlt, isNan]
  dltl {a} b h := by cases a <;> simp_all [nar, nlt, isNan]
  dltr a {b} h := by cases a <;> cases b <;> simp_all [nar, nlt, isNan]
  inf := rfl
  inf_round := rfl

theorem nlt_asymm {a b : N} (h : nlt a b = true) : nlt b a = false := by
  cases a <;> cases b <;> simp_all [nlt]
  exact qar_mono.fasymm h

theorem nlt_trans {a b c : N} (h : nlt a b = true) (g : nlt b c = true) : nlt a c = true := by
  cases a <;> cases b <;> cases c <;> simp_all [nlt]
  exact qar_mono.ftrans h g

theorem nlt_le {a b c : N} (hb : isNan b = false) (h : nlt b a = false) (g : nlt c b = false) : nlt c a = false := by
  cases a <;> cases b <;> cases c <;> simp_all [nlt, isNan]
  exact qar_mono.fle rfl h g

theorem nlt_add {a b : N} (c : N) (h : nlt b a = false) : nlt (nop qadd b c) (nop qadd a c) = false := by
  cases a <;> cases b <;> cases c <;> simp_all [nlt, nop]
  exact qar_mono.fadd _ h

theorem nar_mono : MonoLaws nar isNan isNan where
  fasymm := nlt_asymm
  ftrans := nlt_trans
  fle := nlt_le
  dasymm := nlt_asymm
  dtrans := nlt_trans
  dle := nlt_le
  fadd := nlt_add
  dadd := nlt_add
  toD h := h
  toF h := h

theorem nar_frac : FracLaw nar := qar_frac

/-- A graph with three words: 7 and 8 lead to the same state, 9 to another. -/
def threeWords : Graph N where
  start := 0
  arcs s := if s = 0 then [⟨1, 7, num 0, 1⟩, ⟨2, 8, num 0, 1⟩, ⟨3, 9, num 0, 2⟩] else
    if s = 1 then [⟨2, 0, num 0, 1⟩] else if s = 2 then [⟨3, 0, num 0, 2⟩] else []
  final s := if s = 1 ∨ s = 2 then num 0 else some none

/-- The graph alone, with one score per word. -/
def three : Env N N := ⟨nar, threeWords, none, [0, 0, 1, 2], num 1⟩

theorem three_start : StartState three (0, 0) := ⟨rfl, .inl ⟨rfl, rfl⟩⟩

/-- The decoder after the first frame, for some costs of the first two words. -/
def threeEnd (h : Int) (c : N) (n : Int) : Dec N :=
  ⟨[⟨(1, 0), c, [h]⟩, ⟨(2, 0), num 5, [9]⟩], [], [((2, 0), 1), ((1, 0), 0)], 1, false, n⟩

instance : DecidableEq (Dec N) := inferInstance

instance : DecidableEq (Option (Cutoffs N N)) := inferInstance

/-- The cutoffs of the first frame. -/
def threeCuts : List (Option (Cutoffs N N)) := [some ⟨num 16, num 16⟩]

theorem three_frame {f : List N} {c : Option (Cutoffs N N)} {d : Dec N}
    (h : process three 50 f ⟨[⟨(0, 0), num 0, []⟩], [], [((0, 0), 0)], 0, false, 1⟩ = .ok (true, c, d)) :
    Run three [f] [true] [c] d := by
  have h0 : initDecoder three 50 fresh = .ok ⟨[⟨(0, 0), num 0, []⟩], [], [((0, 0), 0)], 0, false, 1⟩ := by
    decide +kernel
  exact .frame (.init h0) h

/-- One frame whose score for the first word is not a number. -/
abbrev threeNan : List N := [nan, num 0, num (-5)]

theorem three_run : Run three [threeNan] [true] threeCuts (threeEnd 7 nan 2) := three_frame (by decide +kernel)

theorem three_answer : bestPath three { threeEnd 7 nan 2 with eos := true } = .ok ([9], num 5) := by decide +kernel

theorem three_low_run : Run three [[num (-1000), num 0, num (-5)]] [true] threeCuts (threeEnd 8 (num 0) 2) :=
  three_frame (by decide +kernel)

theorem three_low_answer : bestPath three { threeEnd 8 (num 0) 2 with eos := true } = .ok ([8], num 0) := by
  decide +kernel

theorem three_good_run : Run three [[num (-5), num 0, num (-5)]] [true] threeCuts (threeEnd 8 (num 0) 3) :=
  three_frame (by decide +kernel)

/-- The decoder after a frame without numbers. -/
def threeLost : Dec N :=
  ⟨[⟨(1, 0), nan, [8]⟩, ⟨(2, 0), nan, [9]⟩], [], [((2, 0), 1), ((1, 0), 0)], 1, false, 3⟩

theorem three_nan_frame : process three 50 [nan, nan, nan] (threeEnd 8 (num 0) 3) =
    .ok (false, some ⟨num 16, some none⟩, threeLost) := by decide +kernel

/-- The second word costs nothing. -/
theorem three_second : NumPath three isNan (0, 0) [threeNan] [⟨2, 8, num 0, 1⟩] (1, 0) (num 0) ∧
    Survives three (0, 0) [threeNan] threeCuts [⟨2, 8, num 0, 1⟩] (1, 0) (num 0) := by
  have hc : stepCost three (num 0) (num 0) (nar.fneg (num 0)) id = num 0 := by decide +kernel
  refine ⟨?_, ?_⟩
  · have := NumPath.emit (fn := isNan) (frames := [threeNan]) (a := ⟨2, 8, num 0, 1⟩) (v := num 0) (l := 0) (k := id)
      (NumPath.nil (e := three) (s0 := (0, 0))) (by decide) (by decide) rfl rfl
      ⟨2, 1, num 0, rfl, rfl, rfl, rfl, by decide +kernel⟩ (.off rfl) (by decide +kernel)
    rwa [show stepCost three three.ar.zero (num 0) (three.ar.fneg (num 0)) id = num 0 from hc] at this
  · have := Survives.emit (frames := [threeNan]) (cs := threeCuts) (a := ⟨2, 8, num 0, 1⟩) (v := num 0) (l := 0) (k := id)
      (cut := ⟨num 16, num 16⟩) (Survives.nil (e := three) (s0 := (0, 0))) (by decide) (by decide) rfl
      ⟨2, 1, num 0, rfl, rfl, rfl, by decide +kernel⟩ (.off rfl) rfl (by decide +kernel) (by decide +kernel)
    rwa [show stepCost three three.ar.zero (num 0) (three.ar.fneg (num 0)) id = num 0 from hc] at this

/-- What a path over the frame says and costs. -/
theorem three_paths {p : List (GArc N)} {s : State} {c : N} (h : NumPath three isNan (0, 0) [threeNan] p s c) :
    (p = [] ∧ s = (0, 0) ∧ c = num 0) ∨ (wordsOf p = [8] ∧ emitted p = 1) ∨
      (wordsOf p = [9] ∧ emitted p = 1 ∧ s = (2, 0) ∧ c = num 5) := by
  have arcs : ∀ (s : Int) (a : GArc N), a ∈ three.g.arcs s → a.ilabel ≠ 0 := by
    intro s a ha
    change a ∈ threeWords.arcs s at ha
    unfold threeWords at ha
    simp only at ha
    split at ha
    · revert ha a; decide
    · split at ha
      · revert ha a; decide
      · split at ha
        · revert ha a; decide
        · cases ha
  have moves : ∀ {s w l : Int} {k : N → N}, LmMove three s w l k → l = s ∧ k = id := by
    intro s w l k h
    cases h with
    | off _ => exact ⟨rfl, rfl⟩
    | silent h => cases h
    | word h => cases h
    | unknown h => cases h
  induction h with
  | nil => exact .inl ⟨rfl, rfl, rfl⟩
  | eps _ ha h0 => exact absurd h0 (arcs _ _ ha)
  | @emit p s c v a l k f _ ha h0 _ hf hv hk hn ih =>
    have hk' : l = s.2 ∧ k = id := moves hk
    rcases ih with ⟨rfl, rfl, rfl⟩ | ⟨_, h1⟩ | ⟨_, h1, _⟩
    · obtain ⟨rfl, rfl⟩ := hk'
      have hf : f = threeNan := by
        have hf : some threeNan = some f := hf
        cases hf; rfl
      subst hf
      obtain ⟨ti, pi, lp, h1, h2, h3, h4, rfl⟩ := hv
      have ha : a = ⟨1, 7, num 0, 1⟩ ∨ a = ⟨2, 8, num 0, 1⟩ ∨ a = ⟨3, 9, num 0, 2⟩ := by
        have : a ∈ ([⟨1, 7, num 0, 1⟩, ⟨2, 8, num 0, 1⟩, ⟨3, 9, num 0, 2⟩] : List (GArc N)) := ha
        simpa using this
      rcases ha with rfl | rfl | rfl
      · have h1 : ti = 1 := by simp only at h1; omega
        subst h1
        have h2 : pi = 0 := by
          have h2 : (some 0 : Option Int) = some (pi : Int) := h2
          simp only [Option.some.injEq] at h2; omega
        subst h2
        cases h3
        cases h4
      · exact .inr (.inl ⟨rfl, rfl⟩)
      · have h1 : ti = 3 := by simp only at h1; omega
        subst h1
        have h2 : pi = 2 := by
          have h2 : (some 2 : Option Int) = some (pi : Int) := h2
          simp only [Option.some.injEq] at h2; omega
        subst h2
        cases h3
        exact .inr (.inr ⟨rfl, rfl, rfl, by decide +kernel⟩)
    · rw [h1] at hf; cases hf
    · rw [h1] at hf; cases hf

theorem three_not_best : ¬ BestOfNumbers three isNan [threeNan] threeCuts [9] := by
  intro h
  obtain ⟨p, s, c, h1, h2, h3, h4⟩ := h (0, 0) three_start
  have h5 := h4 _ _ _ three_second.1 three_second.2 rfl
  rcases three_paths h1 with ⟨rfl, _, _⟩ | ⟨h6, _⟩ | ⟨_, _, rfl, rfl⟩
  · cases h2
  · rw [h6] at h3; exact absurd h3 (by decide)
  · exact absurd h5 (by decide +kernel)

end Verif.Decoder
