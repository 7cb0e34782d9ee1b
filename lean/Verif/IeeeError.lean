import Verif.IeeeLemmas
import Verif.IeeeSpec
import Verif.BeamLemmas

/-!
# How far the machine is from exact costs: lemmas
-/

namespace Verif.Ieee

open Verif Verif.Fst Verif.Decoder Verif.Decoder.Beam Verif.Ieee.Spec

theorem round32 {q M : Rat} (hM : 1 ≤ M) (h : |q| ≤ M) : |round binary32 q - q| ≤ M / 2 ^ 24 := by
  refine (round_err binary32 q).trans (max_le ?_ ?_)
  · rw [show pow2 (-(binary32.prec : Int)) = 1 / 2 ^ 24 by rw [pow2_eq]; norm_num [binary32]]
    rw [mul_one_div]; gcongr
  · rw [show pow2 (binary32.low - 1) = 1 / 2 ^ 150 by rw [pow2_eq]; norm_num [binary32]]
    calc (1 : Rat) / 2 ^ 150 ≤ 1 / 2 ^ 24 := by norm_num
      _ ≤ M / 2 ^ 24 := by gcongr

theorem round64 {q M : Rat} (hM : 1 ≤ M) (h : |q| ≤ M) : |round binary64 q - q| ≤ M / 2 ^ 53 := by
  refine (round_err binary64 q).trans (max_le ?_ ?_)
  · rw [show pow2 (-(binary64.prec : Int)) = 1 / 2 ^ 53 by rw [pow2_eq]; norm_num [binary64]]
    rw [mul_one_div]; gcongr
  · rw [show pow2 (binary64.low - 1) = pow2 (-1022 + -53) by rfl, pow2_add,
      show pow2 (-53) = 1 / 2 ^ 53 by rw [pow2_eq]; norm_num, mul_one_div]
    have : pow2 (-1022) ≤ pow2 0 := pow2_le (by decide)
    rw [pow2_zero] at this
    gcongr
    linarith

theorem fit32 {q M : Rat} (hM : 1 ≤ M) (hT : M ≤ 2 ^ 120) (h : |q| ≤ M) :
    ∃ v, Is (fit binary32 q) v ∧ |v - q| ≤ M / 2 ^ 24 := by
  have h1 := round32 hM h
  have h2 : |round binary32 q| < pow2 binary32.top := by
    rw [show pow2 binary32.top = 2 ^ 128 by rw [pow2_eq]; norm_num [binary32]]
    calc |round binary32 q| = |(round binary32 q - q) + q| := by ring_nf
      _ ≤ |round binary32 q - q| + |q| := abs_add_le _ _
      _ ≤ M / 2 ^ 24 + M := by linarith
      _ < 2 ^ 128 := by linarith
  refine ⟨round binary32 q, ⟨⟨round_grid _ (by decide) _, h2⟩, ?_⟩, h1⟩
  unfold fit
  rw [dif_pos h2]

theorem fit64 {q M : Rat} (hM : 1 ≤ M) (hT : M ≤ 2 ^ 120) (h : |q| ≤ M) :
    ∃ v, Is (fit binary64 q) v ∧ |v - q| ≤ M / 2 ^ 53 := by
  have h1 := round64 hM h
  have h2 : |round binary64 q| < pow2 binary64.top := by
    have : pow2 128 ≤ pow2 binary64.top := pow2_le (by decide)
    rw [show pow2 128 = 2 ^ 128 by rw [pow2_eq]; norm_num] at this
    calc |round binary64 q| = |(round binary64 q - q) + q| := by ring_nf
      _ ≤ |round binary64 q - q| + |q| := abs_add_le _ _
      _ ≤ M / 2 ^ 53 + M := by linarith
      _ < 2 ^ 128 := by linarith
      _ ≤ _ := this
  refine ⟨round binary64 q, ⟨⟨round_grid _ (by decide) _, h2⟩, ?_⟩, h1⟩
  unfold fit
  rw [dif_pos h2]

theorem round_nat_pos {n : Nat} (h : 0 < n) : (n : Rat) * (1 - 1 / 2 ^ 24) ≤ round binary32 n ∧
    round binary32 n ≤ (n : Rat) * (1 + 1 / 2 ^ 24) := by
  have h1 : (1 : Rat) ≤ n := by exact_mod_cast h
  have := abs_le.1 (round32 h1 (le_of_eq (abs_of_pos (by linarith))))
  constructor <;> linarith [this.1, this.2]

theorem ofNat_num {n : Nat} (h : n < 2 ^ 64) : ∃ hr, (ofNat n : F32) = .num (round binary32 n) hr := by
  have h2 : |round binary32 n| < pow2 binary32.top := by
    rw [show pow2 binary32.top = 2 ^ 128 by rw [pow2_eq]; norm_num [binary32]]
    rcases Nat.eq_zero_or_pos n with rfl | hp
    · norm_num [round_zero]
    · have := round_nat_pos hp
      have h3 : (n : Rat) < 2 ^ 64 := by exact_mod_cast h
      have h4 : (0 : Rat) ≤ n := by positivity
      rw [abs_lt]; constructor <;> linarith
  exact ⟨⟨round_grid _ (by decide) _, h2⟩, by unfold ofNat fit; rw [dif_pos h2]⟩

theorem machine_frac : FracLaw machine := by
  intro a b c d ha hb0 hb hc hd0 hd h
  obtain ⟨ra, ea⟩ := ofNat_num ha
  obtain ⟨rb, eb⟩ := ofNat_num hb
  obtain ⟨rc, ec⟩ := ofNat_num hc
  obtain ⟨rd, ed⟩ := ofNat_num hd
  have hc0 : 0 < c := by
    rcases Nat.eq_zero_or_pos c with rfl | h0
    · omega
    · exact h0
  obtain ⟨b1, b2⟩ := round_nat_pos hb0
  obtain ⟨c1, c2⟩ := round_nat_pos hc0
  obtain ⟨d1, d2⟩ := round_nat_pos hd0
  have a2 : round binary32 a ≤ (a : Rat) * (1 + 1 / 2 ^ 24) := by
    rcases Nat.eq_zero_or_pos a with rfl | h0
    · norm_num [round_zero]
    · exact (round_nat_pos h0).2
  have a1 : 0 ≤ round binary32 a := by
    have := round_mono binary32 (by decide) (show (0 : Rat) ≤ a by positivity)
    rwa [round_zero] at this
  have qb : (1 : Rat) ≤ b := by exact_mod_cast hb0
  have qc : (1 : Rat) ≤ c := by exact_mod_cast hc0
  have qd : (1 : Rat) ≤ d := by exact_mod_cast hd0
  have qa : (0 : Rat) ≤ a := by positivity
  have qd' : (d : Rat) < 2 ^ 64 := by exact_mod_cast hd
  have qc' : (c : Rat) < 2 ^ 64 := by exact_mod_cast hc
  have hq : (2 : Rat) * (a * d) < c * b := by exact_mod_cast h
  show lt (div (ofNat a) (ofNat b)) (div (ofNat c) (ofNat d)) = true
  rw [ea, eb, ec, ed]
  generalize round binary32 a = A at *
  generalize round binary32 b = B at *
  generalize round binary32 c = C at *
  generalize round binary32 d = D at *
  have hB : 0 < B := by linarith
  have hD : 0 < D := by linarith
  have hC : 0 < C := by linarith
  -- the quotients before rounding
  have k1 : A * D ≤ (a * d) * (1 + 1 / 2 ^ 24) ^ 2 := by
    calc A * D ≤ (a * (1 + 1 / 2 ^ 24)) * (d * (1 + 1 / 2 ^ 24)) := by gcongr
      _ = _ := by ring
  have k2 : (c * b) * (1 - 1 / 2 ^ 24) ^ 2 ≤ C * B := by
    calc ((c : Rat) * b) * (1 - 1 / 2 ^ 24) ^ 2 = (c * (1 - 1 / 2 ^ 24)) * (b * (1 - 1 / 2 ^ 24)) := by ring
      _ ≤ C * B := by gcongr
  have k3 : 3 / 2 * (A * D) ≤ C * B := by
    have h0 : (0 : Rat) ≤ a * d := by positivity
    have h1 : (1 + 1 / 2 ^ 24 : Rat) ^ 2 ≤ 1 + 1 / 2 ^ 22 := by norm_num
    have h2 : (1 - 1 / 2 ^ 22 : Rat) ≤ (1 - 1 / 2 ^ 24) ^ 2 := by norm_num
    have h3 : (a * d : Rat) * (1 + 1 / 2 ^ 24) ^ 2 ≤ (a * d) * (1 + 1 / 2 ^ 22) := by gcongr
    have h4 : (c * b : Rat) * (1 - 1 / 2 ^ 22) ≤ (c * b) * (1 - 1 / 2 ^ 24) ^ 2 := by gcongr
    linarith
  have k4 : 3 / 2 * (A / B) ≤ C / D := by
    rw [le_div_iff₀ hD]
    calc 3 / 2 * (A / B) * D = 3 / 2 * (A * D) / B := by ring
      _ ≤ C * B / B := by gcongr
      _ = C := by field_simp
  have k5 : (1 : Rat) / 2 ^ 66 ≤ C / D := by
    rw [div_le_div_iff₀ (by positivity) hD]
    linarith
  have k6 : C / D ≤ 2 ^ 66 := by
    rw [div_le_iff₀ hD]
    linarith
  have k7 : 0 ≤ A / B := by positivity
  simp only [div, if_neg hB.ne', if_neg hD.ne']
  generalize A / B = P at *
  generalize C / D = Q at *
  have e1 := abs_le.1 (round_err binary32 P)
  have e2 := abs_le.1 (round_err binary32 Q)
  rw [show pow2 (-(binary32.prec : Int)) = 1 / 2 ^ 24 by rw [pow2_eq]; norm_num [binary32],
    show pow2 (binary32.low - 1) = 1 / 2 ^ 150 by rw [pow2_eq]; norm_num [binary32]] at e1 e2
  rw [abs_of_nonneg k7] at e1
  rw [abs_of_nonneg (by linarith : (0 : Rat) ≤ Q)] at e2
  have m1 : max (P * (1 / 2 ^ 24)) (1 / 2 ^ 150) ≤ P * (1 / 2 ^ 24) + 1 / 2 ^ 150 :=
    max_le (by linarith [show (0 : Rat) ≤ 1 / 2 ^ 150 by norm_num])
      (by linarith [show (0 : Rat) ≤ P * (1 / 2 ^ 24) by positivity])
  have m2 : max (Q * (1 / 2 ^ 24)) (1 / 2 ^ 150) ≤ Q * (1 / 2 ^ 24) + 1 / 2 ^ 150 :=
    max_le (by linarith [show (0 : Rat) ≤ 1 / 2 ^ 150 by norm_num])
      (by linarith [show (0 : Rat) ≤ Q * (1 / 2 ^ 24) by linarith])
  have key : ∀ X : Rat, |round binary32 X| < 2 ^ 128 → ∃ hr, fit binary32 X = .num (round binary32 X) hr := by
    intro X hX
    have h2 : |round binary32 X| < pow2 binary32.top := by
      rw [show pow2 binary32.top = 2 ^ 128 by rw [pow2_eq]; norm_num [binary32]]; exact hX
    exact ⟨⟨round_grid _ (by decide) _, h2⟩, by unfold fit; rw [dif_pos h2]⟩
  obtain ⟨_, f1⟩ := key P (by rw [abs_lt]; constructor <;> linarith [e1.1, e1.2])
  obtain ⟨_, f2⟩ := key Q (by rw [abs_lt]; constructor <;> linarith [e2.1, e2.2])
  rw [f1, f2]
  exact decide_eq_true (by linarith [e1.2, e2.1])

/-! ## One operation -/

theorem is_fadd {a b : F32} {x y M : Rat} (ha : Is a x) (hb : Is b y) (hM : 1 ≤ M) (hT : M ≤ 2 ^ 120)
    (h : |x + y| ≤ M) : ∃ v, Is (machine.fadd a b) v ∧ |v - (x + y)| ≤ M / 2 ^ 24 := by
  obtain ⟨h1, rfl⟩ := ha
  obtain ⟨h2, rfl⟩ := hb
  exact fit32 hM hT h

theorem is_fmul {a b : F32} {x y M : Rat} (ha : Is a x) (hb : Is b y) (hM : 1 ≤ M) (hT : M ≤ 2 ^ 120)
    (h : |x * y| ≤ M) : ∃ v, Is (machine.fmul a b) v ∧ |v - (x * y)| ≤ M / 2 ^ 24 := by
  obtain ⟨h1, rfl⟩ := ha
  obtain ⟨h2, rfl⟩ := hb
  exact fit32 hM hT h

theorem rep_neg {f : Format} {q : Rat} (h : Rep f q) : Rep f (-q) := by
  obtain ⟨⟨m, k, h1, h2, h3⟩, h4⟩ := h
  exact ⟨⟨-m, k, by rwa [abs_neg], h2, by rw [h3]; push_cast; ring⟩, by rwa [abs_neg]⟩

theorem is_fneg {a : F32} {x : Rat} (ha : Is a x) : Is (machine.fneg a) (-x) := by
  obtain ⟨h1, rfl⟩ := ha
  exact ⟨rep_neg h1, fit_rep (rep_neg h1)⟩

theorem is_toD {a : F32} {x : Rat} (ha : Is a x) : Is (machine.toD a) x := by
  obtain ⟨h1, rfl⟩ := ha
  exact ⟨rep_widen h1, widen_num h1⟩

theorem is_toF {a : F64} {x M : Rat} (ha : Is a x) (hM : 1 ≤ M) (hT : M ≤ 2 ^ 120) (h : |x| ≤ M) :
    ∃ v, Is (machine.toF a) v ∧ |v - x| ≤ M / 2 ^ 24 := by
  obtain ⟨h1, rfl⟩ := ha
  exact fit32 hM hT h

theorem is_dadd {a b : F64} {x y M : Rat} (ha : Is a x) (hb : Is b y) (hM : 1 ≤ M) (hT : M ≤ 2 ^ 120)
    (h : |x + y| ≤ M) : ∃ v, Is (machine.dadd a b) v ∧ |v - (x + y)| ≤ M / 2 ^ 53 := by
  obtain ⟨h1, rfl⟩ := ha
  obtain ⟨h2, rfl⟩ := hb
  exact fit64 hM hT h

theorem is_zero : Is machine.zero 0 := ⟨rep_zero, zero_eq⟩

theorem is_inj {f : Format} {a : Fl f} {x y : Rat} (h : Is a x) (h' : Is a y) : x = y := by
  obtain ⟨_, rfl⟩ := h
  obtain ⟨_, h'⟩ := h'
  cases h'
  rfl

theorem dlt_is {a b : F64} {x y : Rat} (ha : Is a x) (hb : Is b y) : machine.dlt a b = decide (x < y) := by
  obtain ⟨_, rfl⟩ := ha
  obtain ⟨_, rfl⟩ := hb
  rfl

theorem flt_is {a b : F32} {x y : Rat} (ha : Is a x) (hb : Is b y) : machine.flt a b = decide (x < y) := by
  obtain ⟨_, rfl⟩ := ha
  obtain ⟨_, rfl⟩ := hb
  rfl

theorem is_nan {f : Format} {a : Fl f} {x : Rat} (ha : Is a x) : isNan a = false := by
  obtain ⟨_, rfl⟩ := ha
  rfl

/-! ## One arc -/

variable {e : Env F32 F64}

/-- The language model, with the cost it adds and how far the machine is off. -/
theorem lm_move (he : e.ar = machine) {s l s' : Int} {v B : Rat} (h : LmCost e s l s' v) (hB : 1 ≤ B) (hT : B ≤ 2 ^ 100)
    (hv : |v| ≤ B) : ∃ k, LmMove e s l s' k ∧ ∀ d x, Is d x → |x| ≤ 5 * B →
      ∃ z, Is (k d) z ∧ |z - (x + v)| ≤ 6 * B / 2 ^ 53 := by
  have zero : ∀ d x, Is d x → |x| ≤ 5 * B → ∃ z, Is (e.ar.dadd d (e.ar.toD e.ar.zero)) z ∧
      |z - (x + 0)| ≤ 6 * B / 2 ^ 53 := by
    intro d x hd hx
    rw [he]
    exact is_dadd hd (is_toD is_zero) (by linarith) (by linarith) (by rw [add_zero]; linarith)
  cases h with
  | off h => exact ⟨id, .off h, fun d x hd _ => ⟨x, hd, by simp; linarith⟩⟩
  | silent h => exact ⟨_, .silent h, zero⟩
  | word h h1 h2 h3 =>
    refine ⟨_, .word h h1 h2, fun d x hd hx => ?_⟩
    rw [he]
    refine is_dadd hd (is_toD h3) (by linarith) (by linarith) ?_
    exact (abs_add_le _ _).trans (by linarith)
  | unknown h h1 h2 => exact ⟨_, .unknown h h1 h2, zero⟩

/-- The cost of a path with one more arc, before the language model. -/
theorem arc_err (he : e.ar = machine) {B r : Rat} (hB : 1 ≤ B) (hT : B ≤ 2 ^ 100) (hr : r ≤ B) {c w a : F32}
    {x v W A A0 : Rat} (hc : Is c v) (hx : |x| ≤ B) (hv : |v - x| ≤ r) (hw : Is w W) (hW : |W| ≤ B) (ha : Is a A)
    (hA : |A - A0| ≤ B / 2 ^ 24) (hA0 : |A0| ≤ B) :
    ∃ u, Is (e.ar.toD (e.ar.fadd (e.ar.fadd c w) a)) u ∧ |u - (x + W + A0)| ≤ r + 9 * B / 2 ^ 24 := by
  rw [he]
  simp only [abs_le] at *
  obtain ⟨u1, h1, g1⟩ := is_fadd hc hw (M := 3 * B) (by linarith) (by linarith)
    (abs_le.2 ⟨by linarith [hx.1, hv.1, hW.1], by linarith [hx.2, hv.2, hW.2]⟩)
  rw [abs_le] at g1
  obtain ⟨u2, h2, g2⟩ := is_fadd h1 ha (M := 5 * B) (by linarith) (by linarith)
    (abs_le.2 ⟨by linarith [hx.1, hv.1, hW.1, g1.1, hA.1, hA0.1], by linarith [hx.2, hv.2, hW.2, g1.2, hA.2, hA0.2]⟩)
  rw [abs_le] at g2
  exact ⟨u2, is_toD h2, by linarith [hv.1, g1.1, g2.1, hA.1], by linarith [hv.2, g1.2, g2.2, hA.2]⟩

/-- The cost of a path with one more arc. -/
theorem step_err (he : e.ar = machine) {B r : Rat} (hB : 1 ≤ B) (hT : B ≤ 2 ^ 100) (hr : r ≤ B) {c w a : F32}
    {x v W A A0 V : Rat} (hc : Is c v) (hx : |x| ≤ B) (hv : |v - x| ≤ r) (hw : Is w W) (hW : |W| ≤ B) (ha : Is a A)
    (hA : |A - A0| ≤ B / 2 ^ 24) (hA0 : |A0| ≤ B) {k : F64 → F64}
    (hk : ∀ d x, Is d x → |x| ≤ 5 * B → ∃ z, Is (k d) z ∧ |z - (x + V)| ≤ 6 * B / 2 ^ 53)
    (ht : |x + W + A0 + V| ≤ B) :
    (∃ z, Is (k (e.ar.toD (e.ar.fadd (e.ar.fadd c w) a))) z ∧ |z - (x + W + A0 + V)| ≤ r + 10 * B / 2 ^ 24) ∧
    ∃ z, Is (stepCost e c w a k) z ∧ |z - (x + W + A0 + V)| ≤ r + B / 2 ^ 20 := by
  obtain ⟨u, h1, g1⟩ := arc_err he hB hT hr hc hx hv hw hW ha hA hA0
  have g1' := abs_le.1 g1
  have hx' := abs_le.1 hx
  have hW' := abs_le.1 hW
  have hA0' := abs_le.1 hA0
  have ht' := abs_le.1 ht
  obtain ⟨z, h2, g2⟩ := hk _ u h1 (abs_le.2 ⟨by linarith [g1'.1], by linarith [g1'.2]⟩)
  have g2' := abs_le.1 g2
  refine ⟨⟨z, h2, abs_le.2 ⟨by linarith [g1'.1, g2'.1], by linarith [g1'.2, g2'.2]⟩⟩, ?_⟩
  unfold stepCost
  rw [he] at h2 ⊢
  obtain ⟨y, h3, g3⟩ := is_toF h2 (M := 3 * B) (by linarith) (by linarith)
    (abs_le.2 ⟨by linarith [g1'.1, g2'.1], by linarith [g1'.2, g2'.2]⟩)
  have g3' := abs_le.1 g3
  exact ⟨y, h3, abs_le.2 ⟨by linarith [g1'.1, g2'.1, g3'.1], by linarith [g1'.2, g2'.2, g3'.2]⟩⟩

/-- What the machine makes of a score. -/
theorem score_err (he : e.ar = machine) {B : Rat} (hB : 1 ≤ B) (hT : B ≤ 2 ^ 100) {f : List F32} {t : Int} {y : Rat}
    (h : ScoreOf e f t y) (hy : |y| ≤ B) :
    ∃ v A, IsScore e f t v ∧ Is (e.ar.fneg v) A ∧ |A - -y| ≤ B / 2 ^ 24 ∧ ∀ v', IsScore e f t v' → v' = v := by
  obtain ⟨ti, pi, lp, q, r, h1, h2, h3, h4, h5, rfl⟩ := h
  obtain ⟨z, hz, g⟩ := is_fmul h5 h4 (M := B) hB (by linarith) hy
  refine ⟨_, -z, ⟨ti, pi, lp, h1, h2, h3, rfl⟩, ?_, ?_, ?_⟩
  · rw [he]; exact is_fneg hz
  · rw [show -z - -(r * q) = -(z - r * q) by ring, abs_neg]; exact g
  · rintro v' ⟨ti', pi', lp', g1, g2, g3, rfl⟩
    obtain rfl : ti' = ti := by omega
    rw [h2] at g2
    obtain rfl : pi' = pi := by injection g2 with g2; omega
    rw [h3] at g3
    injection g3 with g3
    rw [g3]

theorem Exact.le {s0 : State} {fs : List (List F32)} {B : Rat} (hB : 1 ≤ B) {p : List (GArc F32)} {s : State} {x : Rat}
    (h : Exact e s0 fs B p s x) : |x| ≤ B := by
  cases h with
  | nil => simp; linarith
  | eps _ _ _ _ _ _ _ h => exact h
  | emit _ _ _ _ _ _ _ _ _ _ h => exact h

/-- The cost the machine gives to a path is off by at most `B / 2 ^ 20` for each arc. -/
theorem path_err (he : e.ar = machine) {s0 : State} {fs : List (List F32)} {B : Rat} (hB : 1 ≤ B) (hT : B ≤ 2 ^ 100)
    {p : List (GArc F32)} {s : State} {x : Rat} (h : Exact e s0 fs B p s x) (hn : p.length ≤ 2 ^ 20) :
    ∃ c v, PathTo e s0 fs p s c ∧ Is c v ∧ |v - x| ≤ p.length * (B / 2 ^ 20) := by
  induction h with
  | nil => exact ⟨_, 0, .nil, by rw [he]; exact is_zero, by simp⟩
  | @eps p s x w v a l h1 h2 h3 h4 h5 h6 h7 h8 ih =>
    rw [List.length_append] at hn
    simp only [List.length_cons, List.length_nil] at hn
    obtain ⟨c, u, g1, g2, g3⟩ := ih (by omega)
    obtain ⟨k, m1, m2⟩ := lm_move he h5 hB hT h7
    have hl : ((p.length : Nat) : Rat) ≤ 2 ^ 20 := by exact_mod_cast (by omega : p.length ≤ 2 ^ 20)
    obtain ⟨_, z, z1, z2⟩ := step_err he hB hT (r := p.length * (B / 2 ^ 20))
      (by calc (p.length : Rat) * (B / 2 ^ 20) ≤ 2 ^ 20 * (B / 2 ^ 20) := by gcongr
            _ = B := by ring) g2 (Exact.le hB h1) g3 h4 h6 (a := e.ar.zero) (A := 0) (A0 := 0) (by rw [he]; exact is_zero)
      (by simp; linarith) (by simp; linarith) m2 (by rwa [add_zero])
    refine ⟨_, z, .eps g1 h2 h3 m1, z1, ?_⟩
    rw [add_zero] at z2
    simp only [List.length_append, List.length_cons, List.length_nil]
    push_cast
    linarith
  | @emit p s x w y v a l f h1 h2 h3 h4 h5 h6 h7 h8 h9 h10 h11 ih =>
    rw [List.length_append] at hn
    simp only [List.length_cons, List.length_nil] at hn
    obtain ⟨c, u, g1, g2, g3⟩ := ih (by omega)
    obtain ⟨k, m1, m2⟩ := lm_move he h7 hB hT h10
    obtain ⟨sc, A, q1, q2, q3, _⟩ := score_err he hB hT h5 h9
    have hl : ((p.length : Nat) : Rat) ≤ 2 ^ 20 := by exact_mod_cast (by omega : p.length ≤ 2 ^ 20)
    obtain ⟨_, z, z1, z2⟩ := step_err he hB hT (r := p.length * (B / 2 ^ 20))
      (by calc (p.length : Rat) * (B / 2 ^ 20) ≤ 2 ^ 20 * (B / 2 ^ 20) := by gcongr
            _ = B := by ring) g2 (Exact.le hB h1) g3 h6 h8 q2 q3 (by rwa [abs_neg]) m2
      (by rwa [← sub_eq_add_neg])
    refine ⟨_, z, .emit g1 h2 h3 h4 q1 m1, z1, ?_⟩
    rw [← sub_eq_add_neg] at z2
    simp only [List.length_append, List.length_cons, List.length_nil]
    push_cast
    linarith

/-! ## The costs of a path are determined by its arcs -/

theorem path_unique {F D : Type} {e : Env F D} {s0 : State} {fs : List (List F)} {p : List (GArc F)} {s s' : State}
    {c c' : F} (h : PathTo e s0 fs p s c) (h' : PathTo e s0 fs p s' c') : s' = s ∧ c' = c := by
  induction h generalizing s' c' with
  | nil =>
    generalize hp : ([] : List (GArc F)) = q at h'
    cases h' with
    | nil => exact ⟨rfl, rfl⟩
    | eps => simp at hp
    | emit => simp at hp
  | @eps p s c a l k h1 h2 h3 h4 ih =>
    generalize hp : p ++ [a] = q at h'
    cases h' with
    | nil => simp at hp
    | eps g1 g2 g3 g4 =>
      obtain ⟨rfl, hq⟩ := List.append_inj' hp rfl
      cases hq
      obtain ⟨rfl, rfl⟩ := ih g1
      obtain ⟨rfl, rfl⟩ := h4.unique g4
      exact ⟨rfl, rfl⟩
    | emit g1 g2 g3 =>
      obtain ⟨rfl, hq⟩ := List.append_inj' hp rfl
      cases hq
      exact absurd h3 g3
  | @emit p s c v a l k f h1 h2 h3 h4 h5 h6 ih =>
    generalize hp : p ++ [a] = q at h'
    cases h' with
    | nil => simp at hp
    | eps g1 g2 g3 =>
      obtain ⟨rfl, hq⟩ := List.append_inj' hp rfl
      cases hq
      exact absurd g3 h3
    | emit g1 g2 g3 g4 g5 g6 =>
      obtain ⟨rfl, hq⟩ := List.append_inj' hp rfl
      cases hq
      obtain ⟨rfl, rfl⟩ := ih g1
      obtain ⟨rfl, rfl⟩ := h6.unique g6
      rw [h4] at g4
      cases g4
      cases h5.unique g5
      exact ⟨rfl, rfl⟩

theorem end_unique {F D : Type} {e : Env F D} {eos : Bool} {t : Token F} {x y : D} (h : EndCost e eos t x)
    (h' : EndCost e eos t y) : y = x := by
  rcases h with ⟨h1, rfl⟩ | ⟨h1, h2, rfl⟩ | ⟨h1, lm, w, h2, h3, rfl⟩ <;>
    rcases h' with ⟨g1, rfl⟩ | ⟨g1, g2, rfl⟩ | ⟨g1, lm', w', g2, g3, rfl⟩ <;> first | rfl | simp_all

/-! ## Whole paths -/

variable {s0 : State} {fs : List (List F32)} {B : Rat}

theorem total_err (he : e.ar = machine) (hB : 1 ≤ B) (hT : B ≤ 2 ^ 100) {eos : Bool} {p : List (GArc F32)} {x : Rat}
    (h : Total e s0 fs eos B p x) (hn : p.length ≤ 2 ^ 20) :
    ∃ y z, Whole e s0 fs eos p y ∧ Is y z ∧ |z - x| ≤ (p.length + 1) * (B / 2 ^ 20) := by
  obtain ⟨s, u, h1, h2, h3⟩ := h
  obtain ⟨c, v, g1, g2, g3⟩ := path_err he hB hT h1 hn
  have hu := abs_le.1 (Exact.le hB h1)
  have hl : (p.length : Rat) * (B / 2 ^ 20) ≤ B := by
    have : ((p.length : Nat) : Rat) ≤ 2 ^ 20 := by exact_mod_cast hn
    calc (p.length : Rat) * (B / 2 ^ 20) ≤ 2 ^ 20 * (B / 2 ^ 20) := by gcongr
      _ = B := by ring
  have g3' := abs_le.1 g3
  rcases h3 with ⟨h3, rfl⟩ | ⟨h3, h4, w, h5, h6, rfl⟩ | ⟨h3, lm, a, w, b, h4, h5, h6, h7, h8, h9, rfl⟩
  · refine ⟨_, v, ⟨s, c, g1, h2, .inl ⟨h3, rfl⟩⟩, by rw [he]; exact is_toD g2, ?_⟩
    exact g3.trans (by linarith)
  · have h6' := abs_le.1 h6
    obtain ⟨z, z1, z2⟩ := is_dadd (is_toD g2) (is_toD h5) (M := 3 * B) (by linarith) (by linarith)
      (abs_le.2 ⟨by linarith [g3'.1], by linarith [g3'.2]⟩)
    have z2' := abs_le.1 z2
    refine ⟨_, z, ⟨s, c, g1, h2, .inr (.inl ⟨h3, h4, rfl⟩)⟩, by rw [he]; exact z1, ?_⟩
    exact abs_le.2 ⟨by linarith [g3'.1], by linarith [g3'.2]⟩
  · have h8' := abs_le.1 h8
    have h9' := abs_le.1 h9
    obtain ⟨z, z1, z2⟩ := is_dadd (is_toD g2) (is_toD h6) (M := 3 * B) (by linarith) (by linarith)
      (abs_le.2 ⟨by linarith [g3'.1], by linarith [g3'.2]⟩)
    have z2' := abs_le.1 z2
    obtain ⟨z', z3, z4⟩ := is_dadd z1 (is_toD h7) (M := 5 * B) (by linarith) (by linarith)
      (abs_le.2 ⟨by linarith [g3'.1], by linarith [g3'.2]⟩)
    have z4' := abs_le.1 z4
    refine ⟨_, z', ⟨s, c, g1, h2, .inr (.inr ⟨h3, lm, a, h4, h5, rfl⟩)⟩, by rw [he]; exact z3, ?_⟩
    exact abs_le.2 ⟨by linarith [g3'.1], by linarith [g3'.2]⟩

theorem whole_unique {eos : Bool} {p : List (GArc F32)} {x y : F64} (h : Whole e s0 fs eos p x)
    (h' : Whole e s0 fs eos p y) : y = x := by
  obtain ⟨s, c, h1, _, h3⟩ := h
  obtain ⟨s', c', g1, _, g3⟩ := h'
  obtain ⟨rfl, rfl⟩ := path_unique h1 g1
  exact end_unique h3 g3

/-! ## The beam -/

theorem inside_exact {width : Rat} {p : List (GArc F32)} {s : State} {x : Rat} (h : Inside e s0 fs B width p s x) :
    Exact e s0 fs B p s x := by
  induction h with
  | nil => exact .nil
  | eps _ h2 h3 h4 h5 h6 h7 h8 _ ih => exact .eps ih h2 h3 h4 h5 h6 h7 h8
  | emit _ h2 h3 h4 h5 h6 h7 h8 h9 h10 h11 _ _ ih => exact .emit ih h2 h3 h4 h5 h6 h7 h8 h9 h10 h11

/-- The machine's cost of any path, where all paths are mild. -/
theorem mild_cost (he : e.ar = machine) (hB : 1 ≤ B) (hT : B ≤ 2 ^ 100) {eos : Bool} {n : Nat} (hn : n ≤ 2 ^ 20)
    (hm : Mild e s0 fs eos B n) {p : List (GArc F32)} {s : State} {c : F32} (h : PathTo e s0 fs p s c) :
    ∃ x v, Exact e s0 fs B p s x ∧ Is c v ∧ |v - x| ≤ n * (B / 2 ^ 20) := by
  obtain ⟨h1, x, h2⟩ := hm.path p s c h
  obtain ⟨c', v, h3, h4, h5⟩ := path_err he hB hT h2 (by omega)
  obtain ⟨_, rfl⟩ := path_unique h h3
  refine ⟨x, v, h2, h4, h5.trans ?_⟩
  have : ((p.length : Nat) : Rat) ≤ n := by exact_mod_cast h1
  gcongr

theorem slack_le {n : Nat} (hB : 1 ≤ B) (hn : n ≤ 2 ^ 20) : (n : Rat) * (B / 2 ^ 20) ≤ B := by
  have : (n : Rat) ≤ 2 ^ 20 := by exact_mod_cast hn
  calc (n : Rat) * (B / 2 ^ 20) ≤ 2 ^ 20 * (B / 2 ^ 20) := by gcongr
    _ = B := by ring

/-- What the machine takes for the cost of a path that consumed a frame. -/
theorem reached_err (he : e.ar = machine) (hB : 1 ≤ B) (hT : B ≤ 2 ^ 100) {eos : Bool} {n : Nat} (hn : n ≤ 2 ^ 20)
    (hm : Mild e s0 fs eos B n) {m : Nat} {o : F64} (h : Reached e s0 fs m o) :
    ∃ u z, Is o u ∧ Reaches e s0 fs B m z ∧ |u - z| ≤ n * (B / 2 ^ 20) + 9 * B / 2 ^ 24 ∧ |z| ≤ 3 * B := by
  obtain ⟨p, s, c, a, f, v, h1, rfl, h3, h4, h5, h6, rfl⟩ := h
  obtain ⟨x, u, g1, g2, g3⟩ := mild_cost he hB hT hn hm h1
  obtain ⟨w, y, k1, k2, k3, k4⟩ := hm.reach p s x a f g1 h3 h4 h5 ⟨v, h6⟩
  obtain ⟨v', A, q1, q2, q3, q4⟩ := score_err he hB hT k1 k4
  obtain rfl := q4 v h6
  obtain ⟨z, z1, z2⟩ := arc_err he hB hT (slack_le hB hn) g2 (Exact.le hB g1) g3 k2 k3 q2 q3 (by rwa [abs_neg])
  refine ⟨z, x + w - y, z1, ⟨p, s, x, a, f, w, y, g1, rfl, h3, h4, h5, k1, k2, rfl⟩, ?_, ?_⟩
  · rwa [← sub_eq_add_neg] at z2
  · have := abs_le.1 (Exact.le hB g1)
    have := abs_le.1 k3
    have := abs_le.1 k4
    exact abs_le.2 ⟨by linarith, by linarith⟩

theorem is_beam : Is (machine.toD machine.beam) 16 := ⟨_, beam_eq⟩

/-- A path that stays inside a slightly narrower beam without rounding stays inside the beam of the machine. -/
theorem inside_inBeam (he : e.ar = machine) (hB : 16 ≤ B) (hT : B ≤ 2 ^ 100) {eos : Bool} {n : Nat} (hn : n ≤ 2 ^ 20)
    (hm : Mild e s0 fs eos B n) {width : Rat} (hw : width + (2 * n + 4) * (B / 2 ^ 20) ≤ 16) {p : List (GArc F32)}
    {s : State} {x : Rat} (h : Inside e s0 fs B width p s x) : ∃ c, InBeam e s0 fs p s c := by
  have hB1 : 1 ≤ B := by linarith
  have hs := slack_le hB1 hn
  induction h with
  | nil => exact ⟨_, .nil⟩
  | @eps p s x w v a l h1 h2 h3 h4 h5 h6 h7 h8 h9 ih =>
    obtain ⟨c, hc⟩ := ih
    obtain ⟨x', u, g1, g2, g3⟩ := mild_cost he hB1 hT hn hm hc.path
    obtain ⟨c2, u2, e1, e2, e3⟩ := path_err he hB1 hT (inside_exact h1) ((hm.path _ _ _ hc.path).1.trans hn)
    obtain ⟨_, rfl⟩ := path_unique hc.path e1
    obtain ⟨k, m1, m2⟩ := lm_move he h5 hB1 hT h7
    have e3 : |u2 - x| ≤ n * (B / 2 ^ 20) := e3.trans (by
      have : ((p.length : Nat) : Rat) ≤ n := by exact_mod_cast (hm.path _ _ _ hc.path).1
      gcongr)
    obtain ⟨⟨z, z1, z2⟩, _⟩ := step_err he hB1 hT hs e2 (Exact.le hB1 (inside_exact h1)) e3 h4 h6 (a := e.ar.zero) (A := 0)
      (A0 := 0) (by rw [he]; exact is_zero) (by simp; linarith) (by simp; linarith) m2 (by rwa [add_zero])
    rw [add_zero] at z2
    have z2' := abs_le.1 z2
    refine ⟨_, .eps hc h2 h3 m1 fun m o hm' ho => ?_⟩
    obtain ⟨r, t, r1, r2, r3, r4⟩ := reached_err he hB1 hT hn hm ho
    have r3' := abs_le.1 r3
    have r4' := abs_le.1 r4
    have key := h9 m t hm' r2
    obtain ⟨b, b1, b2⟩ := is_dadd r1 is_beam (M := 7 * B) (by linarith) (by linarith)
      (abs_le.2 ⟨by linarith [r3'.1], by linarith [r3'.2]⟩)
    have b2' := abs_le.1 b2
    obtain ⟨b', b3, b4⟩ := is_toF b1 (M := 8 * B) (by linarith) (by linarith)
      (abs_le.2 ⟨by linarith [r3'.1], by linarith [r3'.2]⟩)
    have b4' := abs_le.1 b4
    rw [he] at z1 ⊢
    rw [dlt_is (is_toD b3) z1, decide_eq_false_iff_not, not_lt]
    linarith [z2'.2, r3'.1, b2'.1, b4'.1]
  | @emit p s x w y v a l f h1 h2 h3 h4 h5 h6 h7 h8 h9 h10 h11 h12 h13 ih =>
    obtain ⟨c, hc⟩ := ih
    obtain ⟨c2, u2, e1, e2, e3⟩ := path_err he hB1 hT (inside_exact h1) ((hm.path _ _ _ hc.path).1.trans hn)
    obtain ⟨_, rfl⟩ := path_unique hc.path e1
    obtain ⟨k, m1, m2⟩ := lm_move he h7 hB1 hT h10
    obtain ⟨sc, A, q1, q2, q3, _⟩ := score_err he hB1 hT h5 h9
    have e3 : |u2 - x| ≤ n * (B / 2 ^ 20) := e3.trans (by
      have : ((p.length : Nat) : Rat) ≤ n := by exact_mod_cast (hm.path _ _ _ hc.path).1
      gcongr)
    have e3' := abs_le.1 e3
    obtain ⟨z, z1, z2⟩ := arc_err he hB1 hT hs e2 (Exact.le hB1 (inside_exact h1)) e3 h6 h8 q2 q3 (by rwa [abs_neg])
    rw [← sub_eq_add_neg] at z2
    have z2' := abs_le.1 z2
    refine ⟨_, .emit hc h2 h3 h4 q1 m1 (fun q t c' hq hem => ?_) (fun o ho => ?_)⟩
    · obtain ⟨x', u', g1, g2, g3⟩ := mild_cost he hB1 hT hn hm hq
      have g3' := abs_le.1 g3
      have g4' := abs_le.1 (Exact.le hB1 g1)
      have key := h12 q t x' g1 hem
      obtain ⟨b, b1, b2⟩ := is_dadd (is_toD g2) is_beam (M := 7 * B) (by linarith) (by linarith)
        (abs_le.2 ⟨by linarith [g3'.1], by linarith [g3'.2]⟩)
      have b2' := abs_le.1 b2
      obtain ⟨b', b3, b4⟩ := is_toF b1 (M := 8 * B) (by linarith) (by linarith)
        (abs_le.2 ⟨by linarith [g3'.1], by linarith [g3'.2]⟩)
      have b4' := abs_le.1 b4
      rw [he]
      rw [flt_is b3 e2, decide_eq_false_iff_not, not_lt]
      linarith [e3'.2, g3'.1, b2'.1, b4'.1]
    · obtain ⟨r, t, r1, r2, r3, r4⟩ := reached_err he hB1 hT hn hm ho
      have r3' := abs_le.1 r3
      have r4' := abs_le.1 r4
      have key := h13 t r2
      obtain ⟨b, b1, b2⟩ := is_dadd r1 is_beam (M := 7 * B) (by linarith) (by linarith)
        (abs_le.2 ⟨by linarith [r3'.1], by linarith [r3'.2]⟩)
      have b2' := abs_le.1 b2
      rw [he] at z1 ⊢
      rw [dlt_is b1 z1, decide_eq_false_iff_not, not_lt]
      linarith [z2'.2, r3'.1, b2'.1]

/-! ## Nothing is NaN -/

theorem mild_noNan (he : e.ar = machine) (hB : 1 ≤ B) (hT : B ≤ 2 ^ 100) {eos : Bool} {n : Nat} (hn : n ≤ 2 ^ 20)
    (hm : Mild e s0 fs eos B n) : NoNan e isNan s0 fs := by
  intro p s c h
  obtain ⟨_, v, _, h2, _⟩ := mild_cost he hB hT hn hm h
  exact is_nan h2

/-- The cost of ending: a number with its exact counterpart, or plus infinity. -/
theorem mild_end (he : e.ar = machine) (hB : 1 ≤ B) (hT : B ≤ 2 ^ 100) {eos : Bool} {n : Nat} (hn : n ≤ 2 ^ 20)
    (hm : Mild e s0 fs eos B n) {p : List (GArc F32)} {y : F64} (h : Whole e s0 fs eos p y) :
    y = .inf false ∨ ∃ x z, Total e s0 fs eos B p x ∧ Is y z ∧ |z - x| ≤ (n + 1) * (B / 2 ^ 20) := by
  have key : (∃ x, Total e s0 fs eos B p x) → ∃ x z, Total e s0 fs eos B p x ∧ Is y z ∧
      |z - x| ≤ (n + 1) * (B / 2 ^ 20) := by
    rintro ⟨x, hx⟩
    obtain ⟨s, c, h1, _, _⟩ := id h
    have hlen := (hm.path p s c h1).1
    obtain ⟨y', z, h1', h2, h3⟩ := total_err he hB hT hx (by omega)
    cases whole_unique h h1'
    refine ⟨x, z, hx, h2, h3.trans ?_⟩
    have : ((p.length : Nat) : Rat) ≤ n := by exact_mod_cast hlen
    gcongr
  obtain ⟨s, c, h1, h2, h3⟩ := h
  obtain ⟨x, v, g1, g2, g3⟩ := mild_cost he hB hT hn hm h1
  rcases h3 with ⟨h3, rfl⟩ | ⟨h3, h4, rfl⟩ | ⟨h3, lm, w, h4, h5, rfl⟩
  · exact .inr (key ⟨x, s, x, g1, h2, .inl ⟨h3, rfl⟩⟩)
  · rcases hm.final p s c h1 with hf | ⟨w, hw, hw'⟩
    · left
      simp only [he, hf]
      obtain ⟨_, hd⟩ := is_toD g2
      rw [hd]
      rfl
    · exact .inr (key ⟨x + w, s, x, g1, h2, .inr (.inl ⟨h3, h4, w, hw, hw', rfl⟩)⟩)
  · rcases hm.lmFinal p s c lm w h1 h4 h5 with rfl | ⟨b, hb, hb'⟩
    · left
      rcases hm.final p s c h1 with hf | ⟨u, hw, hw'⟩
      · simp only [he, hf]
        obtain ⟨_, hd⟩ := is_toD g2
        rw [hd]
        rfl
      · obtain ⟨_, hd⟩ := is_toD g2
        obtain ⟨_, hd'⟩ := is_toD hw
        simp only [he]
        rw [hd, hd']
        show add (fit binary64 _) (.inf false) = _
        have g3' := abs_le.1 g3
        have g4' := abs_le.1 (Exact.le hB g1)
        have hs := slack_le hB hn
        have hu := abs_le.1 hw'
        obtain ⟨_, ⟨_, hf⟩, _⟩ := fit64 (q := v + u) (M := 3 * B) (by linarith) (by linarith)
          (abs_le.2 ⟨by linarith [g3'.1], by linarith [g3'.2]⟩)
        rw [hf]
        rfl
    · rcases hm.final p s c h1 with hf | ⟨u, hw, hw'⟩
      · left
        simp only [he, hf]
        obtain ⟨_, hd⟩ := is_toD g2
        obtain ⟨_, hd'⟩ := is_toD hb
        rw [hd, hd']
        rfl
      · exact .inr (key ⟨x + u + b, s, x, g1, h2, .inr (.inr ⟨h3, lm, w, u, b, h4, h5, hw, hb, hw', hb', rfl⟩)⟩)

/-- No sum is too large for the machine. -/
theorem mild_bounded (he : e.ar = machine) (hB : 16 ≤ B) (hT : B ≤ 2 ^ 100) {eos : Bool} {n : Nat} (hn : n ≤ 2 ^ 20)
    (hm : Mild e s0 fs eos B n) : Bounded e s0 fs := by
  have hB1 : 1 ≤ B := by linarith
  have hsl := slack_le hB1 hn
  have num : ∀ {y : F64} {z : Rat}, Is y z → machine.finite y = true ∧ machine.dlt y machine.inf = true := by
    rintro _ z ⟨_, rfl⟩
    exact ⟨rfl, rfl⟩
  have key : ∀ {y : F64} {z : Rat}, Is y z → |z| ≤ 8 * B →
      machine.dlt (machine.dadd y (machine.toD machine.beam)) machine.inf = true ∧
      machine.finite (machine.toD (machine.toF (machine.dadd y (machine.toD machine.beam)))) = true := by
    intro y z h1 h2
    have h3 : |z + 16| ≤ 9 * B := by
      have := abs_le.1 h2
      exact abs_le.2 ⟨by linarith, by linarith⟩
    obtain ⟨v, g1, g2⟩ := is_dadd h1 is_beam (M := 9 * B) (by linarith) (by linarith) h3
    have h4 : |v| ≤ 10 * B := by
      have := abs_le.1 h3
      have := abs_le.1 g2
      have : 9 * B / 2 ^ 53 ≤ B := by linarith
      exact abs_le.2 ⟨by linarith, by linarith⟩
    obtain ⟨w, k1, _⟩ := is_toF g1 (M := 10 * B) (by linarith) (by linarith) h4
    exact ⟨(num g1).2, (num (is_toD k1)).1⟩
  constructor
  · intro p s c h
    obtain ⟨x, v, g1, g2, g3⟩ := mild_cost he hB1 hT hn hm h
    have := abs_le.1 (Exact.le hB1 g1)
    have := abs_le.1 g3
    rw [he]
    exact ⟨(num (is_toD g2)).1, (num (is_toD g2)).2, (key (is_toD g2) (abs_le.2 ⟨by linarith, by linarith⟩)).2⟩
  · intro m o h
    obtain ⟨u, z, g1, _, g3, g4⟩ := reached_err he hB1 hT hn hm h
    have := abs_le.1 g4
    have := abs_le.1 g3
    rw [he]
    exact key g1 (abs_le.2 ⟨by linarith, by linarith⟩)

end Verif.Ieee
