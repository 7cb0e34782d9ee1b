import Verif.IeeeNnetSpec
import Verif.IeeeFbankRow
import Verif.NnetLemmas

/-!
# Lemmas about the size of numbers in the network
-/

namespace Verif.Ieee

open Verif Verif.Ieee.Spec Verif.Nnet Verif.Nnet.Spec

/-! ## Sums that stick -/

/-- Above `2^(a+25)` the numbers of `float` are `2^(a+2)` apart: adding numbers up to `2^a` does not get beyond. -/
theorem stuck {a : ℕ} {q p : ℚ} (hq : q ≤ 2 ^ (a + 25)) (hp : p ≤ 2 ^ a) : round binary32 (q + p) ≤ 2 ^ (a + 25) := by
  have hmono : round binary32 (q + p) ≤ round binary32 (2 ^ (a + 25) + 2 ^ a) := round_mono _ (by decide) (by linarith)
  refine hmono.trans ?_
  have ea : (2 : ℚ) ^ (a + 25) = pow2 ((a + 25 : ℕ) : ℤ) := by rw [pow2_nat]; push_cast; rfl
  have hA : Grid binary32 (2 ^ (a + 25)) :=
    ⟨1, ((a + 25 : ℕ) : ℤ), by decide, le_trans (show binary32.low ≤ 0 by decide) (by positivity), by rw [ea]; push_cast; ring⟩
  have h1 := round_nearest binary32 (by decide) (2 ^ (a + 25) + 2 ^ a) hA
  rw [show (2 : ℚ) ^ (a + 25) - (2 ^ (a + 25) + 2 ^ a) = -2 ^ a by ring, abs_neg, abs_of_nonneg (show (0 : ℚ) ≤ 2 ^ a by positivity)] at h1
  have h2 := (abs_le.mp h1).2
  obtain ⟨m, k, hm, -, e⟩ := round_grid binary32 (by decide) (2 ^ (a + 25) + 2 ^ a)
  rw [e] at h2 ⊢
  by_contra hc
  have hc := not_le.mp hc
  have hk0 := pow2_pos k
  have hm' : (m : ℚ) < 2 ^ 24 := by
    have : m < 2 ^ 24 := (abs_lt.mp hm).2
    exact_mod_cast this
  have hk : (a : ℤ) + 2 ≤ k := by
    by_contra hk
    have hk : k ≤ (a : ℤ) + 1 := by omega
    have h3 := pow2_le hk
    have : (m : ℚ) * pow2 k < 2 ^ (a + 25) := by
      calc (m : ℚ) * pow2 k < 2 ^ 24 * pow2 k := mul_lt_mul_of_pos_right hm' hk0
        _ ≤ 2 ^ 24 * pow2 ((a : ℤ) + 1) := mul_le_mul_of_nonneg_left h3 (by positivity)
        _ = 2 ^ (a + 25) := by
          rw [show ((a : ℤ) + 1) = ((a + 1 : ℕ) : ℤ) by push_cast; rfl, pow2_nat]
          push_cast
          rw [← pow_add, show 24 + (a + 1) = a + 25 by omega]
    linarith
  obtain ⟨j, -, ej⟩ := pow2_mul hk
  have e2 : pow2 ((a : ℤ) + 2) = 2 ^ (a + 2) := by
    rw [show ((a : ℤ) + 2) = ((a + 2 : ℕ) : ℤ) by push_cast; rfl, pow2_nat]; push_cast; rfl
  rw [ej, e2, ← mul_assoc] at hc h2
  have e3 : (2 : ℚ) ^ (a + 25) = ((2 ^ 23 : ℤ) : ℚ) * 2 ^ (a + 2) := by rw [show a + 25 = 23 + (a + 2) by omega, pow_add]; norm_num
  have hp2 : (0 : ℚ) < 2 ^ (a + 2) := by positivity
  have hc' : ((2 ^ 23 : ℤ) : ℚ) < ((m * 2 ^ j : ℤ) : ℚ) := by
    rw [e3] at hc
    have := lt_of_mul_lt_mul_right hc hp2.le
    exact_mod_cast this
  have hc'' : (2 ^ 23 : ℤ) + 1 ≤ m * 2 ^ j := by exact_mod_cast hc'
  have h4 : (((2 ^ 23 : ℤ) + 1 : ℤ) : ℚ) * 2 ^ (a + 2) ≤ (m : ℚ) * ((2 ^ j : ℤ) : ℚ) * 2 ^ (a + 2) := by
    refine mul_le_mul_of_nonneg_right ?_ hp2.le
    exact_mod_cast hc''
  have e4 : (((2 ^ 23 : ℤ) + 1 : ℤ) : ℚ) * 2 ^ (a + 2) = 2 ^ (a + 25) + 4 * 2 ^ a := by
    push_cast
    rw [pow_add (2 : ℚ) a 25, pow_add (2 : ℚ) a 2]
    ring
  rw [e4] at h4
  have : (0 : ℚ) < 2 ^ a := by positivity
  linarith

theorem fit_stuck {a : ℕ} (ha : a + 25 ≤ 127) {q p : ℚ} (h0 : 0 ≤ q) (hq : q ≤ 2 ^ (a + 25)) (p0 : 0 ≤ p) (hp : p ≤ 2 ^ a) :
    ∃ r, Is (fit binary32 (q + p)) r ∧ 0 ≤ r ∧ r ≤ 2 ^ (a + 25) := by
  have h1 := stuck hq hp
  have h2 : 0 ≤ round binary32 (q + p) := by
    have := round_mono binary32 (by decide) (show (0 : ℚ) ≤ q + p by linarith)
    rwa [round_zero] at this
  have ht : (2 : ℚ) ^ (a + 25) < pow2 binary32.top := by
    have := (rep_pow (f := binary32) (a := a + 25) (by rw [top32]; omega)).2
    rwa [abs_of_nonneg (by positivity)] at this
  rcases fit_cases (f := binary32) (q + p) with ⟨h, e⟩ | ⟨-, e⟩ | ⟨-, e⟩
  · exact ⟨_, ⟨h, e⟩, h2, h1⟩
  · linarith
  · have := pow2_pos binary32.top
    linarith

theorem fit_ge {x : F32} {p q s : ℚ} (hx : Is x p) (h : p ≤ q) (hs : Is (fit binary32 q) s) : p ≤ s := by
  obtain ⟨hr, -⟩ := hx
  have h1 := round_mono binary32 (by decide) h
  rw [round_self (f := binary32) (by decide) hr.1, ← is_round hs] at h1
  exact h1

/-- A sum of any number of numbers that are not negative: it is a number, and none of them is larger. -/
theorem sum_stuck {a : ℕ} (ha : a + 25 ≤ 127) (l : List F32) : ∀ (acc : F32) (q : ℚ), Is acc q → 0 ≤ q → q ≤ 2 ^ (a + 25) →
    (∀ v ∈ l, Pos a v) → ∃ r, Is (l.foldl add acc) r ∧ q ≤ r ∧ r ≤ 2 ^ (a + 25) ∧ ∀ v ∈ l, ∀ p, Is v p → p ≤ r := by
  induction l with
  | nil =>
    intro acc q h1 h0 h2 _
    exact ⟨q, h1, le_refl _, h2, fun v hv => by cases hv⟩
  | cons v l ih =>
    intro acc q h1 h0 h2 h3
    obtain ⟨p, ep, p0, hp⟩ := h3 v List.mem_cons_self
    obtain ⟨s, es, s0, hs⟩ := fit_stuck ha h0 h2 p0 hp
    have hq : q ≤ s := fit_ge h1 (le_add_of_nonneg_right p0) es
    have hp' : p ≤ s := fit_ge ep (le_add_of_nonneg_left h0) es
    rw [← add_is h1 ep] at es
    obtain ⟨r, er, hr, hr', hall⟩ := ih (add acc v) s es s0 hs fun w hw => h3 w (List.mem_cons_of_mem _ hw)
    refine ⟨r, er, hq.trans hr, hr', fun w hw p' ep' => ?_⟩
    rcases List.mem_cons.mp hw with rfl | hw
    · rw [Is.unique ep' ep]
      exact hp'.trans hr
    · exact hall w hw p' ep'

/-! ## Layers -/

variable {lib : NnLib} {vm : List F32 → List (List F32) → List F32}

theorem mag_add' {a b : ℕ} {x y : F32} (h : max a b + 1 ≤ 126) (hx : AtMost a x) (hy : AtMost b y) :
    AtMost (max a b + 1) (add x y) :=
  mag_add (f := binary32) (a := max a b) (by rw [top32]; omega) (Mag.mono (le_max_left _ _) hx) (Mag.mono (le_max_right _ _) hy)

theorem times_mul {a k : ℕ} (hk : k ≤ 126) {x y : F32} (hx : AtMost a x) (hy : Times a k y) : AtMost k (mul x y) := by
  obtain ⟨p, ep, hp⟩ := hx
  obtain ⟨q, eq, hq⟩ := hy
  rw [mul_is ep eq]
  refine fit_mag (by rw [top32]; omega) ?_
  rw [abs_mul, mul_comm]
  exact (mul_le_mul_of_nonneg_left hp (abs_nonneg q)).trans hq

theorem nzero_is : Is (nnet lib).zero 0 := fit_is (f := binary32) rep_zero

theorem relu_mag {a : ℕ} {v : F32} (h : AtMost a v) : AtMost a (if (nnet lib).lt v (nnet lib).zero then (nnet lib).zero else v) := by
  split
  · exact ⟨0, nzero_is, by rw [abs_zero]; positivity⟩
  · exact h

theorem zipWith_all {α β γ : Type} {f : α → β → γ} {P : α → Prop} {Q : β → Prop} {R : γ → Prop}
    (h : ∀ a b, P a → Q b → R (f a b)) : ∀ {xs : List α} {ys : List β}, (∀ a ∈ xs, P a) → (∀ b ∈ ys, Q b) →
    ∀ c ∈ List.zipWith f xs ys, R c
  | [], _, _, _ => by simp
  | _ :: _, [], _, _ => by simp
  | x :: xs, y :: ys, h1, h2 => by
    intro c hc
    rw [List.zipWith_cons_cons] at hc
    rcases List.mem_cons.mp hc with rfl | hc
    · exact h _ _ (h1 _ List.mem_cons_self) (h2 _ List.mem_cons_self)
    · exact zipWith_all h (fun a ha => h1 a (List.mem_cons_of_mem _ ha)) (fun b hb => h2 b (List.mem_cons_of_mem _ hb)) c hc

/-- The sum of the exponentials of a vector a softmax layer copes with. -/
theorem exps_sum {ex : F32 → F32}
    (hex : ∀ {x : F32} {q : ℚ}, Is x q → q ≤ 64 → ∃ e, Is (ex x) e ∧ 0 ≤ e ∧ e ≤ 2 ^ 93 ∧ (-64 ≤ q → 1 / 2 ^ 93 ≤ e))
    {x : List F32} (hx : ∀ v ∈ x, ∃ q, Is v q) (h1 : ∀ v ∈ x, ∀ q, Is v q → q ≤ 64) (h2 : ∃ v ∈ x, ∃ q, Is v q ∧ -64 ≤ q) :
    ∃ r, Is ((x.map ex).foldl add (nnet lib).zero) r ∧ 1 / 2 ^ 93 ≤ r ∧ r ≤ 2 ^ 118 ∧
      ∀ v ∈ x, ∃ e, Is (ex v) e ∧ 0 ≤ e ∧ e ≤ r := by
  have hpos : ∀ w ∈ x.map ex, Pos 93 w := by
    intro w hw
    obtain ⟨v, hv, rfl⟩ := List.mem_map.mp hw
    obtain ⟨q, eq⟩ := hx v hv
    obtain ⟨e, h3, h4, h5, -⟩ := hex eq (h1 v hv q eq)
    exact ⟨e, h3, h4, h5⟩
  obtain ⟨r, er, -, hr, hall⟩ := sum_stuck (a := 93) (by omega) (x.map ex) (nnet lib).zero 0 nzero_is (le_refl _) (by positivity) hpos
  refine ⟨r, er, ?_, hr, fun v hv => ?_⟩
  · obtain ⟨v, hv, q, eq, hq⟩ := h2
    obtain ⟨e, h3, -, -, h6⟩ := hex eq (h1 v hv q eq)
    exact (h6 hq).trans (hall _ (List.mem_map.mpr ⟨v, hv, rfl⟩) e h3)
  · obtain ⟨q, eq⟩ := hx v hv
    obtain ⟨e, h3, h4, -, -⟩ := hex eq (h1 v hv q eq)
    exact ⟨e, h3, h4, hall _ (List.mem_map.mpr ⟨v, hv, rfl⟩) e h3⟩

/-- The scale of the normalise layer times one of the numbers. -/
theorem scale_mag (hl : NnLaws lib vm) {a d : ℕ} (hd : d ≤ 2147483647) (ha : a ≤ 50) {x : List F32} (hx : ∀ v ∈ x, AtMost a v)
    (hc : ∃ v ∈ x, ∃ q, Is v q ∧ 1 / 2 ^ 74 ≤ |q|) : ∀ v ∈ x,
    AtMost 17 (mul v ((nnet lib).rootOf ((nnet lib).ofInt d) ((x.map fun w => mul w w).foldl add (nnet lib).zero))) := by
  have hpos : ∀ w ∈ x.map (fun w => mul w w), Pos 100 w := by
    intro w hw
    obtain ⟨v, hv, rfl⟩ := List.mem_map.mp hw
    obtain ⟨q, e, hq⟩ := hx v hv
    rw [mul_is e e]
    refine fit_pos (by omega) (mul_self_nonneg q) ?_
    rw [← abs_mul_abs_self]
    have h50 : |q| ≤ 2 ^ 50 := hq.trans (pow_le_pow_right₀ (by norm_num) ha)
    calc |q| * |q| ≤ 2 ^ 50 * 2 ^ 50 := mul_le_mul h50 h50 (abs_nonneg _) (by positivity)
      _ = 2 ^ 100 := by norm_num
  obtain ⟨S, eS, -, -, hall⟩ := sum_stuck (a := 100) (by omega) (x.map fun w => mul w w) (nnet lib).zero 0 nzero_is (le_refl _)
    (by positivity) hpos
  -- squares
  have hsq : ∀ v ∈ x, ∀ q, Is v q → ∀ j : ℤ, -74 ≤ j → pow2 j ≤ |q| → pow2 (2 * j) ≤ S := by
    intro v hv q eq j hj hq
    have hj' : j ≤ 50 := by
      obtain ⟨q', e', hq'⟩ := hx v hv
      rw [Is.unique e' eq] at hq'
      by_contra hc
      have h1 := pow2_le (show (51 : ℤ) ≤ j by omega)
      have h2 : pow2 51 = 2 ^ 51 := by rw [show (51 : ℤ) = ((51 : ℕ) : ℤ) from rfl, pow2_nat]; push_cast; rfl
      have h3 : |q| ≤ 2 ^ 50 := hq'.trans (pow_le_pow_right₀ (by norm_num) ha)
      rw [h2] at h1
      have : (2 : ℚ) ^ 51 ≤ 2 ^ 50 := h1.trans (hq.trans h3)
      norm_num at this
    have hr : Rep binary32 (pow2 (2 * j)) := by
      have := rep_scale (f := binary32) (n := 1) (k := 2 * j) (by decide)
        (by rw [show binary32.low = -149 from rfl]; omega) (by rw [top32, show ((binary32.prec : ℕ) : ℤ) = 24 from rfl]; omega)
      simpa using this
    have h100 : Rep binary32 (2 ^ 100) := rep_pow (by rw [top32]; omega)
    obtain ⟨p, ep, p1, -⟩ := fit_between (f := binary32) (q := q * q) hr h100 (by
      rw [← abs_mul_abs_self, two_mul, pow2_add]
      exact mul_le_mul hq hq (pow2_pos j).le (abs_nonneg _)) (by
      obtain ⟨q', e', hq'⟩ := hx v hv
      rw [Is.unique e' eq] at hq'
      have h50 : |q| ≤ 2 ^ 50 := hq'.trans (pow_le_pow_right₀ (by norm_num) ha)
      rw [← abs_mul_abs_self]
      calc |q| * |q| ≤ 2 ^ 50 * 2 ^ 50 := mul_le_mul h50 h50 (abs_nonneg _) (by positivity)
        _ = 2 ^ 100 := by norm_num)
    rw [← mul_is eq eq] at ep
    exact p1.trans (hall _ (List.mem_map.mpr ⟨v, hv, rfl⟩) p ep)
  have e74 : pow2 (-74) = 1 / 2 ^ 74 := by rw [pow2_eq]; norm_num
  have hlow : pow2 (2 * -74) ≤ S := by
    obtain ⟨v, hv, q, eq, hq⟩ := hc
    exact hsq v hv q eq (-74) (by omega) (by rw [e74]; exact hq)
  have hS0 : 0 < S := lt_of_lt_of_le (pow2_pos _) hlow
  obtain ⟨D, eD, D0, hD⟩ := fit_pos (a := 31) (by omega) (q := ((d : ℤ) : ℚ)) (by positivity) (by
    have : (d : ℚ) ≤ 2147483647 := by exact_mod_cast hd
    push_cast
    linarith)
  have eD : Is ((nnet lib).ofInt d) D := eD
  intro v hv
  obtain ⟨q, eq, hq⟩ := hx v hv
  -- the power of two below the number
  obtain ⟨j, hj1, hj2, hj3, hj4⟩ : ∃ j : ℤ, -74 ≤ j ∧ j ≤ 50 ∧ |q| ≤ pow2 (j + 1) ∧ pow2 (2 * j) ≤ S := by
    by_cases h0 : q = 0
    · exact ⟨-74, by omega, by omega, by rw [h0, abs_zero]; exact (pow2_pos _).le, hlow⟩
    · obtain ⟨i1, i2⟩ := ilog_spec h0
      have i3 : ilog q ≤ 50 := by
        by_contra hc
        have h1 := pow2_le (show (51 : ℤ) ≤ ilog q by omega)
        have h2 : pow2 51 = 2 ^ 51 := by rw [show (51 : ℤ) = ((51 : ℕ) : ℤ) from rfl, pow2_nat]; push_cast; rfl
        have h3 : |q| ≤ 2 ^ 50 := hq.trans (pow_le_pow_right₀ (by norm_num) ha)
        rw [h2] at h1
        have : (2 : ℚ) ^ 51 ≤ 2 ^ 50 := h1.trans (i1.trans h3)
        norm_num at this
      by_cases h74 : -74 ≤ ilog q
      · exact ⟨ilog q, h74, i3, i2.le, hsq v hv q eq _ h74 i1⟩
      · exact ⟨-74, by omega, by omega, i2.le.trans (pow2_le (by omega)), hlow⟩
  -- the quotient
  have hquot : D / S ≤ pow2 (31 - 2 * j) := by
    rw [div_le_iff₀ hS0]
    have : pow2 (31 - 2 * j) * pow2 (2 * j) ≤ pow2 (31 - 2 * j) * S := mul_le_mul_of_nonneg_left hj4 (pow2_pos _).le
    rw [← pow2_add, show 31 - 2 * j + 2 * j = ((31 : ℕ) : ℤ) by push_cast; ring, pow2_nat] at this
    push_cast at this
    linarith
  have hr64 : Rep binary64 (pow2 (31 - 2 * j)) := by
    have := rep_scale (f := binary64) (n := 1) (k := 31 - 2 * j) (by decide)
      (by rw [show binary64.low = -1074 from rfl]; omega) (by rw [top64, show ((binary64.prec : ℕ) : ℤ) = 53 from rfl]; omega)
    simpa using this
  obtain ⟨r, er, r0, hr⟩ := fit_between (f := binary64) rep_zero hr64 (div_nonneg D0 hS0.le) hquot
  rw [← div_is (double_is eD) (double_is eS) hS0.ne'] at er
  obtain ⟨s, es, s0, hs⟩ := hl.sqrt er r0
  have hs' : s ≤ pow2 (16 - j) := by
    by_contra hc
    have hc := not_le.mp hc
    have h1 : pow2 (16 - j) * pow2 (16 - j) < s * s := mul_lt_mul'' hc hc (pow2_pos _).le (pow2_pos _).le
    rw [← pow2_add, show 16 - j + (16 - j) = 1 + (31 - 2 * j) by ring, pow2_add, pow2_one] at h1
    linarith
  have hr32 : Rep binary32 (pow2 (16 - j)) := by
    have := rep_scale (f := binary32) (n := 1) (k := 16 - j) (by decide)
      (by rw [show binary32.low = -149 from rfl]; omega) (by rw [top32, show ((binary32.prec : ℕ) : ℤ) = 24 from rfl]; omega)
    simpa using this
  obtain ⟨u, eu, u0, hu⟩ := fit_between (f := binary32) rep_zero hr32 s0 hs'
  rw [← single_is es] at eu
  have eu : Is ((nnet lib).rootOf ((nnet lib).ofInt d) ((x.map fun w => mul w w).foldl add (nnet lib).zero)) u := eu
  rw [mul_is eq eu]
  refine fit_mag (by rw [top32]; omega) ?_
  rw [abs_mul, abs_of_nonneg u0]
  calc |q| * u ≤ pow2 (j + 1) * pow2 (16 - j) := mul_le_mul hj3 hu u0 (pow2_pos _).le
    _ = 2 ^ 17 := by rw [← pow2_add, show j + 1 + (16 - j) = ((17 : ℕ) : ℤ) by push_cast; ring, pow2_nat]; push_cast; rfl

theorem pointwise_mag (hl : NnLaws lib vm) {l : Layer F32} {a b d e : ℕ} (hg : Grows l a b) (hb : b ≤ 126)
    (hp : Pointwise l d e) (hd : d ≤ 2147483647) {x : List F32} (hn : x.length = d) (hx : ∀ v ∈ x, AtMost a v)
    (hc : Copes l x) : ∀ v ∈ pointwise (nnet lib) vm x l, AtMost b v := by
  cases hg with
  | linear h1 h2 h3 h4 =>
    cases hp with
    | linear g0 g1 g2 g3 =>
      refine zipWith_all (P := AtMost _) (Q := AtMost _) (R := AtMost _) (fun p q hp hq => mag_add' hb hp hq) ?_ h4
      exact hl.product (hn.trans g1.symm) h1 h2 (by omega) hx h3
  | relu =>
    intro v hv
    obtain ⟨w, hw, rfl⟩ := List.mem_map.mp hv
    exact relu_mag (hx w hw)
  | normalize ha =>
    intro v hv
    obtain ⟨w, hw, rfl⟩ := List.mem_map.mp hv
    have := scale_mag hl (d := x.length) (by omega) ha hx hc w hw
    exact this
  | softmax =>
    obtain ⟨h1, h2⟩ := hc
    intro v hv
    obtain ⟨w, hw, rfl⟩ := List.mem_map.mp hv
    obtain ⟨r, er, r1, r2, hall⟩ := exps_sum (lib := lib) hl.expf (fun v hv => ⟨_, (hx v hv).choose_spec.1⟩) h1 h2
    obtain ⟨e, ee, e0, er'⟩ := hall w hw
    have r0 : 0 < r := lt_of_lt_of_le (by positivity) r1
    have : Is ((nnet lib).expf w) e := ee
    have h3 : (nnet lib).div ((nnet lib).expf w) ((x.map (nnet lib).expf).foldl (nnet lib).add (nnet lib).zero) =
        fit binary32 (e / r) := div_is ee er r0.ne'
    rw [h3]
    refine fit_mag (by rw [top32]; omega) ?_
    rw [abs_of_nonneg (div_nonneg e0 r0.le), pow_zero]
    exact (div_le_one r0).mpr er'
  | splice => cases hp
  | batchNorm h1 h2 =>
    refine zipWith_all (P := AtMost _) (Q := AtMost _) (R := AtMost _) (fun p q hp hq => mag_add' hb hp hq) ?_ h2
    exact zipWith_all (P := AtMost _) (Q := Times _ _) (R := AtMost _) (fun p q hp hq => times_mul (by omega) hp hq) hx h1
  | logSoftmax =>
    obtain ⟨h1, h2⟩ := hc
    intro v hv
    obtain ⟨w, hw, rfl⟩ := List.mem_map.mp hv
    obtain ⟨r, er, r1, r2, hall⟩ := exps_sum (lib := lib) hl.exp (fun v hv => ⟨_, (hx v hv).choose_spec.1⟩) h1 h2
    have hlog : AtMost 7 ((nnet lib).log ((x.map (nnet lib).exp).foldl (nnet lib).add (nnet lib).zero)) := hl.log er r1
    exact mag_sub (f := binary32) (by rw [top32]; omega) (Mag.mono (le_max_left _ _) (hx w hw)) (Mag.mono (le_max_right _ _) hlog)
  | narrow => cases hp

/-- The network: numbers in, numbers out. -/
theorem series_mag (hl : NnLaws lib vm) {ls : List (Layer F32)} {d e L R w : ℕ} (hb : Built ls d e L R w) (hw : w ≤ 2147483647) :
    ∀ {a b : ℕ}, GrowsTo ls a b → ∀ {x : ℤ → List F32}, (∀ t, (x t).length = d ∧ ∀ v ∈ x t, AtMost a v) →
    CopesAll (nnet lib) vm ls x → ∀ t, (series (nnet lib) vm ls x t).length = e ∧ ∀ v ∈ series (nnet lib) vm ls x t, AtMost b v := by
  induction hb with
  | nil h1 h2 =>
    intro a b hg x hx _ t
    cases hg
    exact hx t
  | row h1 h2 h hs ih =>
    intro a b hg x hx hc t
    rename_i l ls d e f L R w
    cases hg with
    | cons g1 g2 g3 =>
    have e1 : layerOn (nnet lib) vm x l = fun t => pointwise (nnet lib) vm (x t) l := by cases h <;> rfl
    unfold series
    refine ih hw g3 (x := layerOn (nnet lib) vm x l) (fun t => ?_) hc.2 t
    rw [e1]
    exact ⟨pointwise_size hl.rows h (hx t).1, pointwise_mag hl g1 g2 h (by omega) (hx t).1 (hx t).2 (hc.1 t)⟩
  | context h1 h2 h0 hl' hr' hl'' hr'' hs ih =>
    intro a b hg x hx hc t
    rename_i idx l r ls d f L R w
    cases hg with
    | cons g1 g2 g3 =>
    cases g1
    cases g3 with
    | cons g4 g5 g6 =>
    cases g4
    unfold series series
    refine ih hw g6 (fun t => ?_) hc.2.2 t
    show (idx.flatMap fun c => x (t + c)).length = _ ∧ ∀ v ∈ (idx.flatMap fun c => x (t + c)), _
    constructor
    · rw [List.length_flatMap]
      rw [List.map_congr_left (g := fun _ => d) (fun c _ => (hx _).1), List.map_const', List.sum_replicate]
      rfl
    · intro v hv
      obtain ⟨c, -, hv⟩ := List.mem_flatMap.mp hv
      exact (hx _).2 v hv

/-- A robust network copes with everything. -/
theorem robust_copes (hl : NnLaws lib vm) {ls : List (Layer F32)} {d e L R w : ℕ} (hb : Built ls d e L R w) (hw : w ≤ 2147483647) :
    ∀ {a b : ℕ}, Robust ls a b → ∀ {x : ℤ → List F32}, (∀ t, (x t).length = d ∧ ∀ v ∈ x t, AtMost a v) →
    CopesAll (nnet lib) vm ls x := by
  induction hb with
  | nil h1 h2 =>
    intro a b _ x _
    exact trivial
  | row h1 h2 h hs ih =>
    intro a b hg x hx
    rename_i l ls d e f L R w
    have e1 : layerOn (nnet lib) vm x l = fun t => pointwise (nnet lib) vm (x t) l := by cases h <;> rfl
    cases hg with
    | cons g1 g2 g3 g4 g5 =>
    have hc : ∀ t, Copes l (x t) := by
      intro t
      have key : a ≤ 6 → (∀ v ∈ x t, ∀ q, Is v q → q ≤ 64) ∧ ∃ v ∈ x t, ∃ q, Is v q ∧ -64 ≤ q := by
        intro ha
        have hq : ∀ v ∈ x t, ∀ q, Is v q → |q| ≤ 64 := by
          intro v hv q eq
          obtain ⟨q', eq', hq'⟩ := (hx t).2 v hv
          rw [Is.unique eq eq']
          refine hq'.trans ((pow_le_pow_right₀ (by norm_num) ha).trans ?_)
          norm_num
        refine ⟨fun v hv q eq => (abs_le.mp (hq v hv q eq)).2, ?_⟩
        obtain ⟨v, hv⟩ := List.exists_mem_of_length_pos (show 0 < (x t).length by rw [(hx t).1]; omega)
        obtain ⟨q, eq, -⟩ := (hx t).2 v hv
        exact ⟨v, hv, q, eq, (abs_le.mp (hq v hv q eq)).1⟩
      cases h with
      | normalize => exact absurd rfl g3
      | softmax => exact key (g4 (.inl rfl))
      | logSoftmax => exact key (g4 (.inr rfl))
      | _ => exact trivial
    refine ⟨hc, ih hw g5 fun t => ?_⟩
    rw [e1]
    exact ⟨pointwise_size hl.rows h (hx t).1, pointwise_mag hl g1 g2 h (by omega) (hx t).1 (hx t).2 (hc t)⟩
  | context h1 h2 h0 hl' hr' hl'' hr'' hs ih =>
    intro a b hg x hx
    rename_i idx l r ls d f L R w
    cases hg with
    | cons g1 g2 _ _ g3 =>
    cases g1
    cases g3 with
    | cons g4 g5 _ _ g6 =>
    cases g4
    refine ⟨fun _ => trivial, fun _ => trivial, ih hw g6 fun t => ?_⟩
    show (idx.flatMap fun c => x (t + c)).length = _ ∧ ∀ v ∈ (idx.flatMap fun c => x (t + c)), _
    constructor
    · rw [List.length_flatMap]
      rw [List.map_congr_left (g := fun _ => d) (fun c _ => (hx _).1), List.map_const', List.sum_replicate]
      rfl
    · intro v hv
      obtain ⟨c, -, hv⟩ := List.mem_flatMap.mp hv
      exact (hx _).2 v hv

theorem robust_grows {ls : List (Layer F32)} {a b : ℕ} (h : Robust ls a b) : GrowsTo ls a b := by
  induction h with
  | nil => exact .nil
  | cons h1 h2 _ _ _ ih => exact .cons h1 h2 ih

end Verif.Ieee
