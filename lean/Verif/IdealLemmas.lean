import Verif.IdealSpec
import Verif.IeeeScoreSpec
import Verif.IeeeEndLemmas
import Verif.IeeeFbankLemmas

/-!
# The costs of paths under scores that are nearly the same
-/

namespace Verif.Ieee

open Verif Verif.Fst Verif.Decoder Verif.Decoder.Beam Verif.Ieee.Spec

variable {e : Env F32 F64} {s0 : State} {rows : List (List F32)} {Y : List (List ℝ)} {B q : Rat} {d : ℝ} {n : Nat}

theorem lmCost_unique {s l s' s'' : Int} {v v' : Rat} (h : LmCost e s l s' v) (h' : LmCost e s l s'' v') : s' = s'' ∧ v = v' := by
  cases h with
  | off h1 => cases h' with
    | off _ => exact ⟨rfl, rfl⟩
    | silent g1 => rw [h1] at g1; cases g1
    | word g1 => rw [h1] at g1; cases g1
    | unknown g1 => rw [h1] at g1; cases g1
  | silent h1 => cases h' with
    | off g1 => rw [h1] at g1; cases g1
    | silent _ => exact ⟨rfl, rfl⟩
    | word _ g2 => exact absurd rfl g2
    | unknown _ g2 => exact absurd rfl g2
  | word h1 h2 h3 h4 => cases h' with
    | off g1 => rw [h1] at g1; cases g1
    | silent g1 => exact absurd rfl h2
    | word g1 g2 g3 g4 =>
      rw [h1] at g1
      cases g1
      rw [h3] at g3
      cases g3
      exact ⟨rfl, Is.unique h4 g4⟩
    | unknown g1 g2 g3 =>
      rw [h1] at g1
      cases g1
      rw [h3] at g3
      cases g3
  | unknown h1 h2 h3 => cases h' with
    | off g1 => rw [h1] at g1; cases g1
    | silent g1 => exact absurd rfl h2
    | word g1 g2 g3 g4 =>
      rw [h1] at g1
      cases g1
      rw [h3] at g3
      cases g3
    | unknown g1 g2 g3 => exact ⟨rfl, rfl⟩

theorem lmCost_move {s l s' : Int} {v : Rat} (h : LmCost e s l s' v) : ∃ k, LmMove e s l s' k := by
  cases h with
  | off h1 => exact ⟨_, .off h1⟩
  | silent h1 => exact ⟨_, .silent h1⟩
  | word h1 h2 h3 h4 => exact ⟨_, .word h1 h2 h3⟩
  | unknown h1 h2 h3 => exact ⟨_, .unknown h1 h2 h3⟩

/-- The last arc of a path. -/
theorem exact_last {P : List (GArc F32)} {s' : State} {z : Rat} (h : Exact e s0 rows B P s' z) : ∀ {p : List (GArc F32)} {a : GArc F32},
    P = p ++ [a] → ∃ s x w v l, Exact e s0 rows B p s x ∧ a ∈ e.g.arcs s.1 ∧ s' = (a.next, l) ∧ Is a.weight w ∧
      LmCost e s.2 a.olabel l v ∧ |w| ≤ B ∧ |v| ≤ B ∧ |z| ≤ B ∧ ((a.ilabel = 0 ∧ z = x + w + v) ∨
      (a.ilabel ≠ 0 ∧ ∃ f y, rows[emitted p]? = some f ∧ ScoreOf e f a.ilabel y ∧ |y| ≤ B ∧ z = x + w - y + v)) := by
  cases h with
  | nil => intro p a h; exact absurd (congrArg List.length h) (by simp)
  | eps h1 h2 h3 h4 h5 h6 h7 h8 =>
    intro p a h
    obtain ⟨rfl, g⟩ := List.append_inj' h rfl
    cases g
    exact ⟨_, _, _, _, _, h1, h2, rfl, h4, h5, h6, h7, h8, .inl ⟨h3, rfl⟩⟩
  | emit h1 h2 h3 h4 h5 h6 h7 h8 h9 h10 h11 =>
    intro p a h
    obtain ⟨rfl, g⟩ := List.append_inj' h rfl
    cases g
    exact ⟨_, _, _, _, _, h1, h2, rfl, h6, h7, h8, h10, h11, .inr ⟨h3, _, _, h4, h5, h9, rfl⟩⟩

theorem exact_first {P : List (GArc F32)} {s' : State} {z : Rat} (h : Exact e s0 rows B P s' z) : P = [] → s' = s0 ∧ z = 0 := by
  cases h with
  | nil => exact fun _ => ⟨rfl, rfl⟩
  | eps => exact fun h => absurd (congrArg List.length h) (by simp)
  | emit => exact fun h => absurd (congrArg List.length h) (by simp)

theorem beside_get {α β : Type} {R : α → β → Prop} {x : List α} {X : List β} (h : List.Forall₂ R x X) {i : ℕ} {v : α}
    (hi : x[i]? = some v) : ∃ V, X[i]? = some V ∧ R v V := by
  induction h generalizing i with
  | nil => cases hi
  | cons h _ ih =>
    cases i with
    | zero => cases hi; exact ⟨_, rfl, h⟩
    | succ i => exact ih hi

theorem beside_get' {α β : Type} {R : α → β → Prop} {x : List α} {X : List β} (h : List.Forall₂ R x X) {i : ℕ} {V : β}
    (hi : X[i]? = some V) : ∃ v, x[i]? = some v ∧ R v V := by
  induction h generalizing i with
  | nil => cases hi
  | cons h _ ih =>
    cases i with
    | zero => cases hi; exact ⟨_, rfl, h⟩
    | succ i => exact ih hi

/-- A score of the machine is a number, and that of the specification is not far from it. -/
theorem score_ideal {f : List F32} {F : List ℝ} (hf : CloseTo d f F) (hq : Is e.amScale q) {t : Int} {y : Rat}
    (h : ScoreOf e f t y) : ∃ z, IdealScore e F t z ∧ |(y : ℝ) - z| ≤ |(q : ℝ)| * d := by
  obtain ⟨ti, pi, lp, l, r, h1, h2, h3, h4, h5, rfl⟩ := h
  obtain ⟨V, g1, r', ⟨l', g2, rfl⟩, g3⟩ := beside_get hf h3
  obtain rfl := Is.unique h4 g2
  obtain rfl := Is.unique h5 hq
  refine ⟨r * V, ⟨ti, pi, V, r, h1, h2, g1, h5, rfl⟩, ?_⟩
  rw [Rat.cast_mul, ← mul_sub, abs_mul]
  exact mul_le_mul_of_nonneg_left g3 (abs_nonneg _)

theorem ideal_score {f : List F32} {F : List ℝ} (hf : CloseTo d f F) {t : Int} {z : ℝ} (h : IdealScore e F t z) :
    ∃ v, IsScore e f t v := by
  obtain ⟨ti, pi, v, r, h1, h2, h3, h4, h5⟩ := h
  obtain ⟨lp, g1, -⟩ := beside_get' hf h3
  exact ⟨_, ti, pi, lp, h1, h2, g1, rfl⟩

theorem idealScore_unique {F : List ℝ} {t : Int} {y z : ℝ} (h : IdealScore e F t y) (h' : IdealScore e F t z) : y = z := by
  obtain ⟨ti, pi, v, r, h1, h2, h3, h4, rfl⟩ := h
  obtain ⟨ti', pi', v', r', g1, g2, g3, g4, rfl⟩ := h'
  obtain rfl : ti = ti' := by omega
  rw [h2] at g2
  obtain rfl : pi = pi' := by
    have := Option.some.inj g2
    omega
  rw [h3] at g3
  cases g3
  rw [Is.unique h4 g4]

/-- A path of the specification is one of the machine. -/
theorem ideal_machine (hY : List.Forall₂ (CloseTo d) rows Y) {p : List (GArc F32)} {s : State} {x : ℝ} (h : IdealPath e s0 Y p s x) :
    ∃ c, PathTo e s0 rows p s c := by
  induction h with
  | nil => exact ⟨_, .nil⟩
  | eps _ h2 h3 _ h5 ih =>
    obtain ⟨c, hc⟩ := ih
    obtain ⟨k, hk⟩ := lmCost_move h5
    exact ⟨_, .eps hc h2 h3 hk⟩
  | emit _ h2 h3 h4 h5 _ h7 ih =>
    obtain ⟨c, hc⟩ := ih
    obtain ⟨k, hk⟩ := lmCost_move h7
    obtain ⟨f, f1, f2⟩ := beside_get' hY h4
    obtain ⟨v, hv⟩ := ideal_score f2 h5
    exact ⟨_, .emit hc h2 h3 f1 hv hk⟩

/-- What a path costs by the scores of the machine without further rounding, and by those of the specification. -/
theorem exact_ideal (hY : List.Forall₂ (CloseTo d) rows Y) (hq : Is e.amScale q) {p : List (GArc F32)} {s : State} {x : Rat}
    (h : Exact e s0 rows B p s x) : ∃ X, IdealPath e s0 Y p s X ∧ |(x : ℝ) - X| ≤ emitted p * (|(q : ℝ)| * d) := by
  induction h with
  | nil => exact ⟨0, .nil, by simp [emitted]⟩
  | @eps p s x w v a l h1 h2 h3 h4 h5 _ _ _ ih =>
    obtain ⟨X, i1, i2⟩ := ih
    refine ⟨_, .eps i1 h2 h3 h4 h5, ?_⟩
    rw [emitted_eps h3]
    push_cast
    rwa [show (x : ℝ) + w + v - (X + w + v) = x - X by ring]
  | @emit p s x w y v a l f h1 h2 h3 h4 h5 h6 h7 _ _ _ _ ih =>
    obtain ⟨X, i1, i2⟩ := ih
    obtain ⟨F, f1, f2⟩ := beside_get hY h4
    obtain ⟨z, z1, z2⟩ := score_ideal f2 hq h5
    refine ⟨_, .emit i1 h2 h3 f1 z1 h6 h7, ?_⟩
    rw [emitted_emit h3]
    push_cast
    have a1 := abs_le.mp i2
    have a2 := abs_le.mp z2
    exact abs_le.mpr ⟨by linarith [a1.1, a2.2], by linarith [a1.2, a2.1]⟩

theorem ideal_last {P : List (GArc F32)} {s' : State} {z : ℝ} (h : IdealPath e s0 Y P s' z) : ∀ {p : List (GArc F32)} {a : GArc F32},
    P = p ++ [a] → ∃ s x, ∃ w v : Rat, ∃ l, IdealPath e s0 Y p s x ∧ a ∈ e.g.arcs s.1 ∧ s' = (a.next, l) ∧ Is a.weight w ∧
      LmCost e s.2 a.olabel l v ∧ ((a.ilabel = 0 ∧ z = x + w + v) ∨
      (a.ilabel ≠ 0 ∧ ∃ f y, Y[emitted p]? = some f ∧ IdealScore e f a.ilabel y ∧ z = x + w - y + v)) := by
  cases h with
  | nil => intro p a h; exact absurd (congrArg List.length h) (by simp)
  | eps h1 h2 h3 h4 h5 =>
    intro p a h
    obtain ⟨rfl, g⟩ := List.append_inj' h rfl
    cases g
    exact ⟨_, _, _, _, _, h1, h2, rfl, h4, h5, .inl ⟨h3, rfl⟩⟩
  | emit h1 h2 h3 h4 h5 h6 h7 =>
    intro p a h
    obtain ⟨rfl, g⟩ := List.append_inj' h rfl
    cases g
    exact ⟨_, _, _, _, _, h1, h2, rfl, h6, h7, .inr ⟨h3, _, _, h4, h5, rfl⟩⟩

theorem ideal_first {P : List (GArc F32)} {s' : State} {z : ℝ} (h : IdealPath e s0 Y P s' z) : P = [] → s' = s0 ∧ z = 0 := by
  cases h with
  | nil => exact fun _ => ⟨rfl, rfl⟩
  | eps => exact fun h => absurd (congrArg List.length h) (by simp)
  | emit => exact fun h => absurd (congrArg List.length h) (by simp)

/-- The arcs determine the end of a path and its cost. -/
theorem ideal_unique {p : List (GArc F32)} {s s' : State} {x x' : ℝ} (h : IdealPath e s0 Y p s x) (h' : IdealPath e s0 Y p s' x') :
    s = s' ∧ x = x' := by
  induction h generalizing s' x' with
  | nil =>
    obtain ⟨h1, h2⟩ := ideal_first h' rfl
    exact ⟨h1.symm, h2.symm⟩
  | eps h1 h2 h3 h4 h5 ih =>
    obtain ⟨t, y, w, v, l, g1, g2, g3, g4, g5, g6⟩ := ideal_last h' rfl
    obtain ⟨rfl, rfl⟩ := ih g1
    obtain ⟨rfl, rfl⟩ := lmCost_unique h5 g5
    obtain rfl := Is.unique h4 g4
    rcases g6 with ⟨-, g6⟩ | ⟨g6, -⟩
    · exact ⟨g3.symm, g6.symm⟩
    · exact absurd h3 g6
  | emit h1 h2 h3 h4 h5 h6 h7 ih =>
    obtain ⟨t, y, w, v, l, g1, g2, g3, g4, g5, g6⟩ := ideal_last h' rfl
    obtain ⟨rfl, rfl⟩ := ih g1
    obtain ⟨rfl, rfl⟩ := lmCost_unique h7 g5
    obtain rfl := Is.unique h6 g4
    rcases g6 with ⟨g6, -⟩ | ⟨-, f, z, g7, g8, g9⟩
    · exact absurd g6 h3
    · rw [h4] at g7
      cases g7
      rw [idealScore_unique h5 g8]
      exact ⟨g3.symm, g9.symm⟩

/-- Where all costs are bounded, a path of the specification has a cost by the scores of the machine. -/
theorem ideal_exact {eos : Bool} (hY : List.Forall₂ (CloseTo d) rows Y) (hq : Is e.amScale q) (hm : Mild e s0 rows eos B n)
    {p : List (GArc F32)} {s : State} {X : ℝ} (h : IdealPath e s0 Y p s X) :
    ∃ x, Exact e s0 rows B p s x ∧ |(x : ℝ) - X| ≤ emitted p * (|(q : ℝ)| * d) := by
  obtain ⟨c, hc⟩ := ideal_machine hY h
  obtain ⟨-, x, hx⟩ := hm.path _ _ _ hc
  obtain ⟨X', h1, h2⟩ := exact_ideal hY hq hx
  obtain ⟨-, rfl⟩ := ideal_unique h h1
  exact ⟨x, hx, h2⟩

theorem reach_ideal (hY : List.Forall₂ (CloseTo d) rows Y) (hq : Is e.amScale q) {i : Nat} {o : Rat} (h : Reaches e s0 rows B i o) :
    ∃ O, IdealReach e s0 Y i O ∧ |(o : ℝ) - O| ≤ (i + 1) * (|(q : ℝ)| * d) := by
  obtain ⟨p, s, x, a, f, w, y, h1, rfl, h3, h4, h5, h6, h7, rfl⟩ := h
  obtain ⟨X, i1, i2⟩ := exact_ideal hY hq h1
  obtain ⟨F, f1, f2⟩ := beside_get hY h5
  obtain ⟨z, z1, z2⟩ := score_ideal f2 hq h6
  refine ⟨_, ⟨p, s, X, a, F, w, z, i1, rfl, h3, h4, f1, z1, h7, rfl⟩, ?_⟩
  push_cast
  have a1 := abs_le.mp i2
  have a2 := abs_le.mp z2
  exact abs_le.mpr ⟨by linarith [a1.1, a2.2], by linarith [a1.2, a2.1]⟩

theorem idealInside_path {width : ℝ} {p : List (GArc F32)} {s : State} {x : ℝ} (h : IdealInside e s0 Y width p s x) : IdealPath e s0 Y p s x := by
  induction h with
  | nil => exact .nil
  | eps _ h2 h3 h4 h5 _ ih => exact .eps ih h2 h3 h4 h5
  | emit _ h2 h3 h4 h5 h6 h7 _ _ ih => exact .emit ih h2 h3 h4 h5 h6 h7

theorem scoreOf_unique {f : List F32} {t : Int} {y z : Rat} (h : ScoreOf e f t y) (h' : ScoreOf e f t z) : y = z := by
  obtain ⟨ti, pi, lp, l, r, h1, h2, h3, h4, h5, rfl⟩ := h
  obtain ⟨ti', pi', lp', l', r', g1, g2, g3, g4, g5, rfl⟩ := h'
  obtain rfl : ti = ti' := by omega
  rw [h2] at g2
  obtain rfl : pi = pi' := by
    have := Option.some.inj g2
    omega
  rw [h3] at g3
  cases g3
  rw [Is.unique h4 g4, Is.unique h5 g5]

/-- The arcs determine the cost by the scores of the machine. -/
theorem exact_unique {p : List (GArc F32)} {s s' : State} {x x' : Rat} (h : Exact e s0 rows B p s x) (h' : Exact e s0 rows B p s' x') :
    s = s' ∧ x = x' := by
  induction h generalizing s' x' with
  | nil =>
    obtain ⟨h1, h2⟩ := exact_first h' rfl
    exact ⟨h1.symm, h2.symm⟩
  | eps h1 h2 h3 h4 h5 _ _ _ ih =>
    obtain ⟨t, y, w, v, l, g1, g2, g3, g4, g5, -, -, -, g6⟩ := exact_last h' rfl
    obtain ⟨rfl, rfl⟩ := ih g1
    obtain ⟨rfl, rfl⟩ := lmCost_unique h5 g5
    obtain rfl := Is.unique h4 g4
    rcases g6 with ⟨-, g6⟩ | ⟨g6, -⟩
    · exact ⟨g3.symm, g6.symm⟩
    · exact absurd h3 g6
  | emit h1 h2 h3 h4 h5 h6 h7 _ _ _ _ ih =>
    obtain ⟨t, y, w, v, l, g1, g2, g3, g4, g5, -, -, -, g6⟩ := exact_last h' rfl
    obtain ⟨rfl, rfl⟩ := ih g1
    obtain ⟨rfl, rfl⟩ := lmCost_unique h7 g5
    obtain rfl := Is.unique h6 g4
    rcases g6 with ⟨g6, -⟩ | ⟨-, f, z, g7, g8, -, g9⟩
    · exact absurd g6 h3
    · rw [h4] at g7
      cases g7
      rw [scoreOf_unique h5 g8]
      exact ⟨g3.symm, g9.symm⟩

/-- A path that stays in a beam by the scores of the specification stays in one a little wider by those of the machine. -/
theorem inside_ideal {eos : Bool} (hY : List.Forall₂ (CloseTo d) rows Y) (hq : Is e.amScale q) (hd : 0 ≤ d) (hm : Mild e s0 rows eos B n)
    {width : ℝ} {wide : Rat} (hw : width + 2 * (rows.length * (|(q : ℝ)| * d)) ≤ wide) {p : List (GArc F32)} {s : State} {X : ℝ}
    (h : IdealInside e s0 Y width p s X) : ∃ x, Inside e s0 rows B wide p s x := by
  have hc : 0 ≤ |(q : ℝ)| * d := mul_nonneg (abs_nonneg _) hd
  have few : ∀ {p s X}, IdealPath e s0 Y p s X → (emitted p : ℝ) * (|(q : ℝ)| * d) ≤ rows.length * (|(q : ℝ)| * d) := by
    intro p s X hp
    obtain ⟨c, hc'⟩ := ideal_machine hY hp
    exact mul_le_mul_of_nonneg_right (by exact_mod_cast emitted_le hc') hc
  have fewr : ∀ {i O}, IdealReach e s0 Y i O → ((i : ℝ) + 1) * (|(q : ℝ)| * d) ≤ rows.length * (|(q : ℝ)| * d) := by
    rintro i O ⟨-, -, -, -, f, -, -, -, -, -, -, h, -⟩
    obtain ⟨f', g, -⟩ := beside_get' hY h
    have := (List.getElem?_eq_some_iff.mp g).1
    exact mul_le_mul_of_nonneg_right (by exact_mod_cast this) hc
  induction h with
  | nil => exact ⟨0, .nil⟩
  | @eps p s X w v a l h1 h2 h3 h4 h5 h6 ih =>
    obtain ⟨x, hx⟩ := ih
    have hp : IdealPath e s0 Y (p ++ [a]) (a.next, l) (X + w + v) := .eps (idealInside_path h1) h2 h3 h4 h5
    obtain ⟨z, z1, z2⟩ := ideal_exact hY hq hm hp
    obtain ⟨s', x', w', v', l', g1, g2, g3, g4, g5, g6, g7, g8, g9⟩ := exact_last z1 rfl
    obtain ⟨rfl, rfl⟩ := exact_unique (inside_exact hx) g1
    obtain ⟨rfl, rfl⟩ := lmCost_unique h5 g5
    obtain rfl := Is.unique h4 g4
    obtain ⟨-, rfl⟩ := g9.resolve_right fun h => h.1 h3
    refine ⟨_, .eps hx h2 h3 h4 h5 g6 g7 g8 fun i o hi ho => ?_⟩
    obtain ⟨O, o1, o2⟩ := reach_ideal hY hq ho
    have b1 := h6 i O hi o1
    have b2 := few hp
    have b3 := fewr o1
    have b4 := (abs_le.mp z2).2
    have b5 := (abs_le.mp o2).1
    have : ((x + w + v : Rat) : ℝ) ≤ ((o + wide : Rat) : ℝ) := by
      rw [Rat.cast_add o]
      linarith
    exact_mod_cast this
  | @emit p s X y w v a l F h1 h2 h3 h4 h5 h6 h7 h8 h9 ih =>
    obtain ⟨x, hx⟩ := ih
    have hi := idealInside_path h1
    have hp : IdealPath e s0 Y (p ++ [a]) (a.next, l) (X + w - y + v) := .emit hi h2 h3 h4 h5 h6 h7
    obtain ⟨z, z1, z2⟩ := ideal_exact hY hq hm hp
    obtain ⟨s', x', w', v', l', g1, g2, g3, g4, g5, g6, g7, g8, g9⟩ := exact_last z1 rfl
    obtain ⟨rfl, rfl⟩ := exact_unique (inside_exact hx) g1
    obtain ⟨rfl, rfl⟩ := lmCost_unique h7 g5
    obtain rfl := Is.unique h6 g4
    obtain ⟨-, f, y', f1, f2, f3, rfl⟩ := g9.resolve_left fun h => h3 h.1
    have b2 := few hi
    obtain ⟨x', e1, e2⟩ := ideal_exact hY hq hm hi
    obtain ⟨-, rfl⟩ := exact_unique (inside_exact hx) e1
    have b4 := (abs_le.mp e2).2
    refine ⟨_, .emit hx h2 h3 f1 f2 h6 h7 g6 f3 g7 g8 (fun r t c hr hrp => ?_) fun o ho => ?_⟩
    · obtain ⟨C, c1, c2⟩ := exact_ideal hY hq hr
      have b1 := h8 r t C c1 hrp
      have b3 := few c1
      have b5 := (abs_le.mp c2).1
      have : (x : ℝ) ≤ ((c + wide : Rat) : ℝ) := by
        rw [Rat.cast_add]
        linarith
      exact_mod_cast this
    · obtain ⟨O, o1, o2⟩ := reach_ideal hY hq ho
      have b1 := h9 O o1
      have b2 := few hp
      have b3 := fewr o1
      have b5 := (abs_le.mp o2).1
      have b6 := (abs_le.mp z2).2
      have : ((x + w - y' : Rat) : ℝ) ≤ ((o + wide : Rat) : ℝ) := by
        rw [Rat.cast_add o]
        push_cast at b6 ⊢
        linarith
      exact_mod_cast this

/-- The same with the cost of ending there. -/
theorem total_ideal (hY : List.Forall₂ (CloseTo d) rows Y) (hq : Is e.amScale q) {p : List (GArc F32)} {x : Rat}
    (h : Total e s0 rows true B p x) : ∃ X, IdealTotal e s0 Y p X ∧ |(x : ℝ) - X| ≤ rows.length * (|(q : ℝ)| * d) := by
  obtain ⟨s, y, h1, h2, h3⟩ := h
  obtain ⟨Z, z1, z2⟩ := exact_ideal hY hq h1
  rw [h2] at z2
  rw [hY.length_eq] at h2
  rcases h3 with ⟨h3, -⟩ | ⟨-, h3, w, h4, -, rfl⟩ | ⟨-, lm, u, w, v, h3, h4, h5, h6, -, -, rfl⟩
  · cases h3
  · refine ⟨_, ⟨s, Z, w, z1, h2, h4, .inl ⟨h3, rfl⟩⟩, ?_⟩
    push_cast
    rwa [show (y : ℝ) + w - (Z + w) = y - Z by ring]
  · refine ⟨_, ⟨s, Z, w, z1, h2, h5, .inr ⟨lm, u, v, h3, h4, h6, rfl⟩⟩, ?_⟩
    push_cast
    rwa [show (y : ℝ) + w + v - (Z + w + v) = y - Z by ring]

theorem ideal_total (hY : List.Forall₂ (CloseTo d) rows Y) (hq : Is e.amScale q) (hm : Mild e s0 rows true B n) {p : List (GArc F32)}
    {X : ℝ} (h : IdealTotal e s0 Y p X) : ∃ x, Total e s0 rows true B p x ∧ |(x : ℝ) - X| ≤ rows.length * (|(q : ℝ)| * d) := by
  obtain ⟨s, Z, w, h1, h2, h3, h4⟩ := h
  obtain ⟨y, y1, y2⟩ := ideal_exact hY hq hm h1
  obtain ⟨c, hc⟩ := ideal_machine hY h1
  rw [← hY.length_eq] at h2
  rw [h2] at y2
  have hw : |w| ≤ B := by
    rcases hm.final _ _ _ hc with g | ⟨w', g1, g2⟩
    · obtain ⟨_, g'⟩ := h3
      rw [g] at g'
      cases g'
    · rwa [Is.unique h3 g1]
  rcases h4 with ⟨h4, rfl⟩ | ⟨lm, u, v, h4, h5, h6, rfl⟩
  · refine ⟨_, ⟨s, y, y1, h2, .inr (.inl ⟨rfl, h4, w, h3, hw, rfl⟩)⟩, ?_⟩
    push_cast
    rwa [show (y : ℝ) + w - (Z + w) = y - Z by ring]
  · have hv : |v| ≤ B := by
      rcases hm.lmFinal _ _ _ lm u hc h4 h5 with g | ⟨w', g1, g2⟩
      · obtain ⟨_, g'⟩ := h6
        rw [g] at g'
        cases g'
      · rwa [Is.unique h6 g1]
    refine ⟨_, ⟨s, y, y1, h2, .inr (.inr ⟨rfl, lm, u, w, v, h4, h5, h3, h6, hw, hv, rfl⟩)⟩, ?_⟩
    push_cast
    rwa [show (y : ℝ) + w + v - (Z + w + v) = y - Z by ring]

theorem ideal_stays (hY : List.Forall₂ (CloseTo d) rows Y) (hq : Is e.amScale q) (hd : 0 ≤ d) (hm : Mild e s0 rows true B n)
    {width : ℝ} {wide : Rat} (hw : width + 2 * (rows.length * (|(q : ℝ)| * d)) ≤ wide) {p : List (GArc F32)} {X : ℝ}
    (h : IdealStays e s0 Y width p X) : ∃ x, Stays e s0 rows true B wide p x ∧ |(x : ℝ) - X| ≤ rows.length * (|(q : ℝ)| * d) := by
  obtain ⟨h1, s, y, h2⟩ := h
  obtain ⟨x, x1, x2⟩ := ideal_total hY hq hm h1
  obtain ⟨y', y1⟩ := inside_ideal hY hq hd hm hw h2
  exact ⟨x, ⟨x1, s, y', y1⟩, x2⟩

end Verif.Ieee
