import Verif.IeeeFbankMel
import Verif.IeeeFftSpec
import Mathlib.Analysis.Complex.Norm

/-!
# Rounding errors of the steps of the FFT
-/

namespace Verif.Ieee

open Verif Verif.Srfft Verif.Ieee.Spec

theorem fit_worth {q : ℚ} {m : ℝ} (h : |(q : ℝ)| ≤ m) (h1 : 1 / 2 ^ 100 ≤ m) (h2 : m ≤ 2 ^ 120) :
    ∃ r, Worth (fit binary32 q) r ∧ |r - q| ≤ m / 2 ^ 24 := by
  have hq : |q| ≤ 2 ^ 120 := by exact_mod_cast h.trans h2
  obtain ⟨p, e1, -⟩ := fit_le (f := binary32) (rep_pow (a := 120) (by rw [top32]; omega)) hq
  refine ⟨p, ⟨p, e1, rfl⟩, ?_⟩
  have h3 : |p - q| ≤ max (|q| * (1 / 2 ^ 24)) (1 / 2 ^ 150) := by
    rw [is_round e1]
    have := round_err binary32 q
    rwa [show pow2 (-((binary32.prec : ℕ) : ℤ)) = 1 / 2 ^ 24 by rw [pow2_eq]; norm_num [binary32],
      show pow2 (binary32.low - 1) = 1 / 2 ^ 150 by rw [pow2_eq]; norm_num [binary32]] at this
  have h4 : ((|p - q| : ℚ) : ℝ) ≤ ((max (|q| * (1 / 2 ^ 24)) (1 / 2 ^ 150) : ℚ) : ℝ) := Rat.cast_le.mpr h3
  push_cast at h4
  refine h4.trans (max_le ?_ ?_)
  · rw [mul_one_div]
    exact div_le_div_of_nonneg_right h (by positivity)
  · calc (1 : ℝ) / 2 ^ 150 ≤ (1 / 2 ^ 100) / 2 ^ 24 := by norm_num
      _ ≤ _ := div_le_div_of_nonneg_right h1 (by positivity)

theorem add_worth {x y : F32} {r s m : ℝ} (hx : Worth x r) (hy : Worth y s) (h : |r + s| ≤ m) (h1 : 1 / 2 ^ 100 ≤ m)
    (h2 : m ≤ 2 ^ 120) : ∃ t, Worth (add x y) t ∧ |t - (r + s)| ≤ m / 2 ^ 24 := by
  obtain ⟨p, e1, rfl⟩ := hx
  obtain ⟨q, e2, rfl⟩ := hy
  have := fit_worth (q := p + q) (m := m) (by push_cast; exact h) h1 h2
  rw [add_is e1 e2]
  push_cast at this
  exact this

theorem sub_worth {x y : F32} {r s m : ℝ} (hx : Worth x r) (hy : Worth y s) (h : |r - s| ≤ m) (h1 : 1 / 2 ^ 100 ≤ m)
    (h2 : m ≤ 2 ^ 120) : ∃ t, Worth (sub x y) t ∧ |t - (r - s)| ≤ m / 2 ^ 24 := by
  obtain ⟨p, e1, rfl⟩ := hx
  obtain ⟨q, e2, rfl⟩ := hy
  have := fit_worth (q := p - q) (m := m) (by push_cast; exact h) h1 h2
  rw [sub_is e1 e2]
  push_cast at this
  exact this

theorem mul_worth {x y : F32} {r s m : ℝ} (hx : Worth x r) (hy : Worth y s) (h : |r * s| ≤ m) (h1 : 1 / 2 ^ 100 ≤ m)
    (h2 : m ≤ 2 ^ 120) : ∃ t, Worth (mul x y) t ∧ |t - r * s| ≤ m / 2 ^ 24 := by
  obtain ⟨p, e1, rfl⟩ := hx
  obtain ⟨q, e2, rfl⟩ := hy
  have := fit_worth (q := p * q) (m := m) (by push_cast; exact h) h1 h2
  rw [mul_is e1 e2]
  push_cast at this
  exact this

theorem neg_worth {x : F32} {r : ℝ} (hx : Worth x r) : Worth (neg x) (-r) := by
  obtain ⟨p, e1, rfl⟩ := hx
  exact ⟨-p, neg_is e1, by push_cast; rfl⟩

theorem rep_half : Rep binary64 (1 / 2) := by
  have := rep_scale (f := binary64) (n := 1) (k := -1) (by decide) (by decide) (by decide)
  rwa [show ((1 : ℕ) : ℚ) * pow2 (-1) = 1 / 2 by rw [pow2_eq]; norm_num] at this

theorem grid_half {q : ℚ} (h : Rep binary32 q) : Rep binary64 (1 / 2 * q) := by
  obtain ⟨⟨m, j, hm, hj, rfl⟩, hl⟩ := h
  refine ⟨⟨m, j - 1, hm.trans (by norm_num [binary32, binary64]), ?_, ?_⟩, ?_⟩
  · have h0 : binary32.low = -149 := rfl
    have h1 : binary64.low = -1074 := rfl
    omega
  · have : pow2 (j - 1) = pow2 j / 2 := by
      rw [pow2_eq, pow2_eq, zpow_sub₀ (by norm_num)]
      norm_num
    rw [this]
    ring
  · have h1 : pow2 binary32.top ≤ pow2 binary64.top := by
      rw [pow2_eq, pow2_eq]
      exact zpow_le_zpow_right₀ (by norm_num) (by decide)
    have h2 : |1 / 2 * ((m : ℚ) * pow2 j)| ≤ |(m : ℚ) * pow2 j| := by
      rw [abs_mul, abs_of_pos (show (0 : ℚ) < 1 / 2 by norm_num)]
      have := abs_nonneg ((m : ℚ) * pow2 j)
      linarith
    exact (h2.trans_lt hl).trans_le h1

theorem half_worth (lib : Lib) {x : F32} {r m : ℝ} (hx : Worth x r) (h : |r / 2| ≤ m) (h1 : 1 / 2 ^ 100 ≤ m)
    (h2 : m ≤ 2 ^ 120) : ∃ t, Worth ((fftOps lib).half x) t ∧ |t - r / 2| ≤ m / 2 ^ 24 := by
  obtain ⟨p, e1, rfl⟩ := hx
  obtain ⟨hr, -⟩ := id e1
  have e3 : (fftOps lib).half x = fit binary32 (1 / 2 * p) := by
    show single (mul (fit _ (1 / 2)) (double x)) = _
    rw [mul_is (fit_is rep_half) (double_is e1), single_is (fit_is (grid_half hr))]
  rw [e3]
  have := fit_worth (q := 1 / 2 * p) (m := m) (by push_cast; rw [one_div_mul_eq_div]; exact h) h1 h2
  obtain ⟨t, w, k⟩ := this
  refine ⟨t, w, ?_⟩
  push_cast at k
  rwa [one_div_mul_eq_div] at k

/-! ## Estimates -/

theorem prod_err {a a' b b' α β K L : ℝ} (h1 : |a' - a| ≤ α) (h2 : |b' - b| ≤ β) (h3 : |a| ≤ K) (h4 : |b'| ≤ L) :
    |a' * b' - a * b| ≤ α * L + K * β := by
  have e : a' * b' - a * b = (a' - a) * b' + a * (b' - b) := by ring
  rw [e]
  refine (abs_add_le _ _).trans (add_le_add ?_ ?_)
  · rw [abs_mul]
    exact mul_le_mul h1 h4 (abs_nonneg _) ((abs_nonneg _).trans h1)
  · rw [abs_mul]
    exact mul_le_mul h3 h2 (abs_nonneg _) ((abs_nonneg _).trans h3)

theorem near_le {a b e B : ℝ} (h : |a - b| ≤ e) (hb : |b| ≤ B) : |a| ≤ B + e := by
  have : a = (a - b) + b := by ring
  rw [this]
  have := abs_add_le (a - b) b
  linarith

theorem near_trans {a b c d e : ℝ} (h1 : |a - b| ≤ d) (h2 : |b - c| ≤ e) : |a - c| ≤ d + e := by
  have : a - c = (a - b) + (b - c) := by ring
  rw [this]
  have := abs_add_le (a - b) (b - c)
  linarith

theorem sum_err {a a' b b' α β : ℝ} (h1 : |a' - a| ≤ α) (h2 : |b' - b| ≤ β) : |a' + b' - (a + b)| ≤ α + β := by
  have e : a' + b' - (a + b) = (a' - a) + (b' - b) := by ring
  rw [e]
  exact (abs_add_le _ _).trans (add_le_add h1 h2)

theorem diff_err {a a' b b' α β : ℝ} (h1 : |a' - a| ≤ α) (h2 : |b' - b| ≤ β) : |a' - b' - (a - b)| ≤ α + β := by
  have e : a' - b' - (a - b) = (a' - a) - (b' - b) := by ring
  rw [e]
  exact (abs_sub _ _).trans (add_le_add h1 h2)

theorem sum_le {a b m n : ℝ} (h1 : |a| ≤ m) (h2 : |b| ≤ n) : |a + b| ≤ m + n := (abs_add_le _ _).trans (add_le_add h1 h2)
theorem diff_le {a b m n : ℝ} (h1 : |a| ≤ m) (h2 : |b| ≤ n) : |a - b| ≤ m + n := (abs_sub _ _).trans (add_le_add h1 h2)
theorem mul_le' {a b m n : ℝ} (h1 : |a| ≤ m) (h2 : |b| ≤ n) : |a * b| ≤ m * n := by
  rw [abs_mul]
  exact mul_le_mul h1 h2 (abs_nonneg _) ((abs_nonneg _).trans h1)

theorem norm_le_parts {z : ℂ} {a b : ℝ} (h1 : |z.re| ≤ a) (h2 : |z.im| ≤ b) : ‖z‖ ≤ a + b :=
  (Complex.norm_le_abs_re_add_abs_im z).trans (add_le_add h1 h2)

/-- One element of a table, and how exact it is. -/
structure SixNear (e : Six F32) (c s c3 s3 : ℝ) : Prop where
  hc : ∃ r, Worth e.c r ∧ |r - c| ≤ 8 / 2 ^ 24
  hspc : ∃ r, Worth e.spc r ∧ |r - -(s + c)| ≤ 20 / 2 ^ 24
  hsmc : ∃ r, Worth e.smc r ∧ |r - (s - c)| ≤ 20 / 2 ^ 24
  hc3 : ∃ r, Worth e.c3 r ∧ |r - c3| ≤ 8 / 2 ^ 24
  hspc3 : ∃ r, Worth e.spc3 r ∧ |r - -(s3 + c3)| ≤ 20 / 2 ^ 24
  hsmc3 : ∃ r, Worth e.smc3 r ∧ |r - (s3 - c3)| ≤ 20 / 2 ^ 24

/-- `c (x + y) + k y`, as both parts of a turn are. -/
theorem turn_part {cc k x y z : F32} {c κ c' κ' r s v m : ℝ} (h1 : Worth cc c') (h2 : |c' - c| ≤ 8 / 2 ^ 24) (hc : |c| ≤ 1)
    (h3 : Worth k κ') (h4 : |κ' - κ| ≤ 20 / 2 ^ 24) (hκ : |κ| ≤ 2) (hx : Worth x r) (hy : Worth y s) (hz : Worth z v)
    (hr : |r| ≤ m) (hs : |s| ≤ m) (hv : |v| ≤ m) (m1 : 1 / 2 ^ 60 ≤ m) (m2 : m ≤ 2 ^ 110) :
    ∃ t, Worth (add (mul k z) (mul cc (add x y))) t ∧ |t - (κ * v + c * (r + s))| ≤ 60 * m / 2 ^ 24 := by
  have hm : 0 < m := lt_of_lt_of_le (by positivity) m1
  have hc' : |c'| ≤ 3 / 2 := (near_le h2 hc).trans (by norm_num)
  have hκ' : |κ'| ≤ 3 := (near_le h4 hκ).trans (by norm_num)
  have big : ∀ {n : ℝ}, 1 ≤ n → n ≤ 6 → 1 / 2 ^ 100 ≤ n * m ∧ n * m ≤ 2 ^ 120 := by
    intro n h1 h6
    constructor
    · calc (1 : ℝ) / 2 ^ 100 ≤ 1 * (1 / 2 ^ 60) := by norm_num
        _ ≤ n * m := mul_le_mul h1 m1 (by positivity) (by linarith)
    · calc n * m ≤ 6 * 2 ^ 110 := mul_le_mul h6 m2 hm.le (by norm_num)
        _ ≤ 2 ^ 120 := by norm_num
  obtain ⟨a1, w1, k1⟩ := add_worth hx hy (m := 2 * m) ((sum_le hr hs).trans (by linarith)) (big (by norm_num) (by norm_num)).1
    (big (by norm_num) (by norm_num)).2
  have ha1 : |a1| ≤ 3 * m := (near_le k1 (sum_le hr hs)).trans (by linarith)
  obtain ⟨t2, w2, k2⟩ := mul_worth h1 w1 (m := 5 * m) ((mul_le' hc' ha1).trans (by linarith)) (big (by norm_num) (by norm_num)).1
    (big (by norm_num) (by norm_num)).2
  obtain ⟨p, w3, k3⟩ := mul_worth h3 hz (m := 3 * m) (mul_le' hκ' hv) (big (by norm_num) (by norm_num)).1
    (big (by norm_num) (by norm_num)).2
  have e2 : |t2 - c * (r + s)| ≤ 31 * m / 2 ^ 24 := by
    refine (near_trans k2 (prod_err h2 k1 hc ha1)).trans ?_
    linarith
  have e3 : |p - κ * v| ≤ 23 * m / 2 ^ 24 := by
    have := prod_err h4 (show |v - v| ≤ 0 by simp) hκ hv
    refine (near_trans k3 this).trans ?_
    linarith
  have e4 : |p + t2| ≤ 5 * m := by
    have := near_le (sum_err e3 e2) (sum_le (mul_le' hκ hv) (mul_le' hc (sum_le hr hs)))
    refine this.trans ?_
    linarith
  obtain ⟨t, w4, k4⟩ := add_worth w3 w2 (m := 5 * m) e4 (big (by norm_num) (by norm_num)).1 (big (by norm_num) (by norm_num)).2
  refine ⟨t, w4, (near_trans k4 (sum_err e3 e2)).trans ?_⟩
  linarith

end Verif.Ieee
