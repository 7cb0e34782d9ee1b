import Mathlib.Analysis.SpecialFunctions.Trigonometric.Basic
import Mathlib.Tactic.Ring
import Mathlib.Tactic.FieldSimp
import Mathlib.Tactic.LinearCombination

/-!
# The discrete Fourier transform, exactly
-/

namespace Verif.Srfft

open Complex Finset

/-- `exp(-2 π i a / m)`. -/
noncomputable def root (m a : ℕ) : ℂ := Complex.exp (-(2 * Real.pi * a / m) * I)

/-- The discrete Fourier transform. -/
noncomputable def dft (m : ℕ) (f : ℕ → ℂ) (k : ℕ) : ℂ := ∑ j ∈ range m, f j * root m (j * k)

theorem root_add (m a b : ℕ) : root m (a + b) = root m a * root m b := by
  unfold root
  rw [← Complex.exp_add]
  congr 1
  push_cast
  ring

theorem root_zero (m : ℕ) : root m 0 = 1 := by
  unfold root
  simp

theorem root_scale {c : ℕ} (hc : c ≠ 0) (m a : ℕ) : root (c * m) (c * a) = root m a := by
  unfold root
  congr 1
  push_cast
  have : (c : ℂ) ≠ 0 := Nat.cast_ne_zero.mpr hc
  by_cases hm : (m : ℂ) = 0
  · rw [hm]; simp
  · field_simp

theorem root_full {m : ℕ} (hm : m ≠ 0) (a : ℕ) : root m (m * a) = 1 := by
  have : (m : ℂ) ≠ 0 := Nat.cast_ne_zero.mpr hm
  unfold root
  push_cast
  rw [show -(2 * (Real.pi : ℂ) * ((m : ℂ) * a) / m) * I = ((-(a : ℤ) : ℤ) : ℂ) * (2 * Real.pi * I) by
    field_simp; push_cast; ring]
  exact Complex.exp_int_mul_two_pi_mul_I _

theorem root_half {m : ℕ} (hm : m ≠ 0) : root (2 * m) m = -1 := by
  have : (m : ℂ) ≠ 0 := Nat.cast_ne_zero.mpr hm
  unfold root
  push_cast
  rw [show -(2 * (Real.pi : ℂ) * (m : ℂ) / (2 * m)) * I = -(Real.pi * I) by field_simp, Complex.exp_neg,
    Complex.exp_pi_mul_I]
  norm_num

theorem root_re (m a : ℕ) : (root m a).re = Real.cos (a * (2 * Real.pi) / m) := by
  unfold root
  rw [show (-(2 * (Real.pi : ℂ) * (a : ℂ) / (m : ℂ)) * I) = ((-(a * (2 * Real.pi) / m) : ℝ) : ℂ) * I by
    push_cast; ring, Complex.exp_ofReal_mul_I_re, Real.cos_neg]

theorem root_im (m a : ℕ) : (root m a).im = -Real.sin (a * (2 * Real.pi) / m) := by
  unfold root
  rw [show (-(2 * (Real.pi : ℂ) * (a : ℂ) / (m : ℂ)) * I) = ((-(a * (2 * Real.pi) / m) : ℝ) : ℂ) * I by
    push_cast; ring, Complex.exp_ofReal_mul_I_im, Real.sin_neg]

theorem root_quarter {q : ℕ} (hq : q ≠ 0) : root (4 * q) q = -I := by
  have h : (q : ℝ) ≠ 0 := Nat.cast_ne_zero.mpr hq
  apply Complex.ext
  · rw [root_re]
    push_cast
    rw [show (q : ℝ) * (2 * Real.pi) / (4 * q) = Real.pi / 2 by field_simp; norm_num, Real.cos_pi_div_two]
    simp
  · rw [root_im]
    push_cast
    rw [show (q : ℝ) * (2 * Real.pi) / (4 * q) = Real.pi / 2 by field_simp; norm_num, Real.sin_pi_div_two]
    simp

/-- The conjugate is the inverse. -/
theorem root_conj (m a : ℕ) : root m a * (starRingEnd ℂ) (root m a) = 1 := by
  rw [Complex.mul_conj, Complex.normSq_apply, root_re, root_im]
  have := Real.cos_sq_add_sin_sq (a * (2 * Real.pi) / m)
  norm_cast
  nlinarith [this]

theorem dft_congr {m : ℕ} {f g : ℕ → ℂ} (h : ∀ j, j < m → f j = g j) (k : ℕ) : dft m f k = dft m g k := by
  unfold dft
  apply Finset.sum_congr rfl
  intro j hj
  rw [h j (Finset.mem_range.mp hj)]

/-- The even frequencies. -/
theorem dft_even {p : ℕ} (hp : p ≠ 0) (f : ℕ → ℂ) (k : ℕ) :
    dft (2 * p) f (2 * k) = dft p (fun n => f n + f (n + p)) k := by
  unfold dft
  rw [two_mul p, Finset.sum_range_add, ← Finset.sum_add_distrib, ← two_mul p]
  apply Finset.sum_congr rfl
  intro n _
  rw [show n * (2 * k) = 2 * (n * k) by ring, root_scale two_ne_zero,
    show (p + n) * (2 * k) = 2 * (n * k) + 2 * (p * k) by ring, root_add, root_scale two_ne_zero,
    root_scale two_ne_zero, root_full hp, Nat.add_comm p n]
  ring

/-- The odd frequencies. -/
theorem dft_odd {p : ℕ} (hp : p ≠ 0) (f : ℕ → ℂ) (k : ℕ) :
    dft (2 * p) f (2 * k + 1) = dft p (fun n => (f n - f (n + p)) * root (2 * p) n) k := by
  unfold dft
  rw [two_mul p, Finset.sum_range_add, ← Finset.sum_add_distrib, ← two_mul p]
  apply Finset.sum_congr rfl
  intro n _
  rw [show n * (2 * k + 1) = 2 * (n * k) + n by ring, root_add, root_scale two_ne_zero,
    show (p + n) * (2 * k + 1) = 2 * (n * k) + n + (2 * (p * k) + p) by ring, root_add, root_add, root_add,
    root_scale two_ne_zero, root_scale two_ne_zero, root_full hp, root_half hp, Nat.add_comm p n]
  ring

/-- Frequencies 1, 5, 9, ... -/
theorem dft_one {q : ℕ} (hq : q ≠ 0) (f : ℕ → ℂ) (k : ℕ) :
    dft (4 * q) f (4 * k + 1) =
      dft q (fun n => ((f n - f (n + 2 * q)) - I * (f (n + q) - f (n + q + 2 * q))) * root (4 * q) n) k := by
  have e := dft_odd (p := 2 * q) (by omega) f (2 * k)
  rw [show 2 * (2 * q) = 4 * q by ring, show 2 * (2 * k) + 1 = 4 * k + 1 by ring] at e
  rw [e, dft_even hq]
  apply dft_congr
  intro n _
  rw [root_add, root_quarter hq]
  ring

/-- Frequencies 3, 7, 11, ... -/
theorem dft_three {q : ℕ} (hq : q ≠ 0) (f : ℕ → ℂ) (k : ℕ) :
    dft (4 * q) f (4 * k + 3) =
      dft q (fun n => ((f n - f (n + 2 * q)) + I * (f (n + q) - f (n + q + 2 * q))) * root (4 * q) (3 * n)) k := by
  have e := dft_odd (p := 2 * q) (by omega) f (2 * k + 1)
  rw [show 2 * (2 * q) = 4 * q by ring, show 2 * (2 * k + 1) + 1 = 4 * k + 3 by ring] at e
  rw [e, dft_odd hq]
  apply dft_congr
  intro n _
  rw [root_add, root_quarter hq, show 3 * n = n + 2 * n by ring, root_add, show 4 * q = 2 * (2 * q) by ring,
    root_scale two_ne_zero]
  ring

end Verif.Srfft
