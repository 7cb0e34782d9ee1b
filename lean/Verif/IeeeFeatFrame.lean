import Verif.IeeeFftProps

/-!
# A frame before the FFT, in machine numbers
-/

namespace Verif.Ieee

open Verif Verif.Srfft Verif.Ieee.Spec Verif.Fbank Finset

variable {lib : Lib} {A : ℝ}

/-! ## The mean -/

theorem sum_near (h1 : 1 ≤ A) (h2 : A ≤ 2 ^ 31) {V : ℕ → F32} {f : ℕ → ℝ} : ∀ n, n ≤ 400 →
    (∀ i, i < n → |f i| ≤ A ∧ Worth (V i) (f i)) →
    ∃ r, Worth (((List.range n).map V).foldl add (fit _ 0)) r ∧ |r - ∑ i ∈ range n, f i| ≤ n * (401 * A / 2 ^ 24) ∧
      |∑ i ∈ range n, f i| ≤ n * A
  | 0, _, _ => ⟨0, ⟨0, fit_is (f := binary32) rep_zero, by simp⟩, by simp, by simp⟩
  | n + 1, hn, h => by
    obtain ⟨r, wr, kr, ks⟩ := sum_near h1 h2 n (by omega) (fun i hi => h i (by omega))
    obtain ⟨g1, g2⟩ := h n (by omega)
    have hn' : (n : ℝ) ≤ 399 := by
      have : n ≤ 399 := by omega
      exact_mod_cast this
    have hs : |(∑ i ∈ range n, f i) + f n| ≤ n * A + A := (abs_add_le _ _).trans (add_le_add ks g1)
    have hA0 : 0 ≤ A := by linarith
    have hnA : (n : ℝ) * A ≤ 399 * A := mul_le_mul_of_nonneg_right hn' hA0
    have hr : |r + f n| ≤ 401 * A := by
      have k : |(r + f n) - ((∑ i ∈ range n, f i) + f n)| ≤ n * (401 * A / 2 ^ 24) := by
        rw [add_sub_add_right_eq_sub]
        exact kr
      refine (near_le k hs).trans ?_
      have : (n : ℝ) * (401 * A / 2 ^ 24) ≤ 399 * (401 * A / 2 ^ 24) := mul_le_mul_of_nonneg_right hn' (by positivity)
      linarith
    obtain ⟨t, wt, kt⟩ := add_worth wr g2 hr (by norm_num; linarith) (by norm_num at h2 ⊢; linarith)
    refine ⟨t, ?_, ?_, ?_⟩
    · rw [List.range_succ, List.map_append, List.foldl_append]
      exact wt
    · rw [sum_range_succ]
      have k : |(r + f n) - ((∑ i ∈ range n, f i) + f n)| ≤ n * (401 * A / 2 ^ 24) := by
        rw [add_sub_add_right_eq_sub]
        exact kr
      refine (near_trans kt k).trans ?_
      push_cast
      linarith
    · rw [sum_range_succ]
      push_cast
      linarith

theorem div_worth {x y : F32} {r m : ℝ} {n : ℕ} (hn : n ≠ 0) (hx : Worth x r) (hy : Is y n) (h : |r / n| ≤ m) (h1 : 1 / 2 ^ 100 ≤ m)
    (h2 : m ≤ 2 ^ 120) : ∃ t, Worth (div x y) t ∧ |t - r / n| ≤ m / 2 ^ 24 := by
  obtain ⟨p, e1, rfl⟩ := hx
  have := fit_worth (q := p / n) (m := m) (by push_cast; exact h) h1 h2
  rw [div_is e1 hy (by exact_mod_cast hn)]
  push_cast at this
  exact this

theorem mean_near (h1 : 1 ≤ A) (h2 : A ≤ 2 ^ 31) {V : ℕ → F32} {f : ℕ → ℝ} (h : ∀ i, i < 400 → |f i| ≤ A ∧ Worth (V i) (f i)) :
    ∃ r, Worth ((fbank lib).div ((vec 400 V).foldl (fbank lib).add (fbank lib).zero) ((fbank lib).ofInt (400 : ℕ))) r ∧
      |r - (∑ i ∈ range 400, f i) / 400| ≤ 403 * A / 2 ^ 24 ∧ |(∑ i ∈ range 400, f i) / 400| ≤ A := by
  obtain ⟨s, ws, ks, ms⟩ := sum_near h1 h2 400 le_rfl h
  push_cast at ks ms
  have hA0 : 0 ≤ A := by linarith
  have m1 : |(∑ i ∈ range 400, f i) / 400| ≤ A := by
    rw [abs_div, abs_of_pos (by norm_num : (0 : ℝ) < 400), div_le_iff₀ (by norm_num)]
    linarith
  have k1 : |s / 400 - (∑ i ∈ range 400, f i) / 400| ≤ 401 * A / 2 ^ 24 := by
    rw [← sub_div, abs_div, abs_of_pos (by norm_num : (0 : ℝ) < 400), div_le_iff₀ (by norm_num)]
    linarith
  obtain ⟨t, wt, kt⟩ := div_worth (n := 400) (m := 2 * A) (by norm_num) ws (int_is lib (n := 400) (by norm_num))
    (by push_cast; refine (near_le k1 m1).trans ?_; linarith) (by norm_num; linarith) (by norm_num at h2 ⊢; linarith)
  push_cast at kt
  have e : ∀ z, (fbank lib).div ((vec 400 V).foldl (fbank lib).add (fbank lib).zero) z =
      div (((List.range 400).map V).foldl add (fit _ 0)) z := by
    intro z
    simp only [fbank, vec]
  rw [e]
  exact ⟨t, wt, (near_trans kt k1).trans (by linarith), m1⟩

/-! ## Removal of the mean and pre-emphasis -/

theorem centred_near (h1 : 1 ≤ A) (h2 : A ≤ 2 ^ 31) {V : ℕ → F32} {f : ℕ → ℝ} (h : ∀ i, i < 400 → |f i| ≤ A ∧ Worth (V i) (f i))
    {j : ℕ} (hj : j < 400) :
    ∃ r, Worth ((fbank lib).sub (V j) ((fbank lib).div ((vec 400 V).foldl (fbank lib).add (fbank lib).zero)
        ((fbank lib).ofInt (400 : ℕ)))) r ∧ |r - centred f j| ≤ 406 * A / 2 ^ 24 ∧ |centred f j| ≤ 2 * A := by
  obtain ⟨r, wr, kr, mr⟩ := mean_near (lib := lib) h1 h2 h
  obtain ⟨g1, g2⟩ := h j hj
  have hc : |centred f j| ≤ 2 * A := by
    unfold centred
    refine (abs_sub _ _).trans ?_
    linarith
  have k1 : |(f j - r) - centred f j| ≤ 403 * A / 2 ^ 24 := by
    unfold centred
    rw [← abs_neg, show -(f j - r - (f j - (∑ i ∈ range 400, f i) / 400)) = r - (∑ i ∈ range 400, f i) / 400 by ring]
    exact kr
  obtain ⟨t, wt, kt⟩ := sub_worth g2 wr (m := 3 * A) ((near_le k1 hc).trans (by linarith)) (by norm_num; linarith)
    (by norm_num at h2 ⊢; linarith)
  exact ⟨t, wt, (near_trans kt k1).trans (by linarith), hc⟩

theorem preemph_near (h1 : 1 ≤ A) (h2 : A ≤ 2 ^ 31) {x y : F32} {a b r s : ℝ} (hx : Worth x r) (hy : Worth y s)
    (k1 : |r - a| ≤ 406 * A / 2 ^ 24) (k2 : |s - b| ≤ 406 * A / 2 ^ 24) (m1 : |a| ≤ 2 * A) (m2 : |b| ≤ 2 * A) :
    ∃ t, Worth ((fbank lib).preemph x y) t ∧ |t - (a - 0.97 * b)| ≤ 806 * A / 2 ^ 24 ∧ |a - 0.97 * b| ≤ 3.94 * A := by
  obtain ⟨p, ep, rfl⟩ := hx
  obtain ⟨q, eq, rfl⟩ := hy
  show ∃ t, Worth (single (sub (double x) (mul (fit _ (97 / 100)) (double y)))) t ∧ _
  have hm : |a - 0.97 * b| ≤ 3.94 * A := by
    refine (abs_sub _ _).trans ?_
    rw [abs_mul, abs_of_pos (by norm_num : (0 : ℝ) < 0.97)]
    norm_num
    linarith
  obtain ⟨c, ec, kc⟩ := fit_double (q := 97 / 100) (m := 1) (by push_cast; norm_num) (by norm_num) (by norm_num)
  push_cast at kc
  have mq : |(q : ℝ)| ≤ 3 * A := (near_le k2 m2).trans (by linarith)
  have kcq : |(c : ℝ) * q - 97 / 100 * b| ≤ 1 / 2 ^ 53 * (3 * A) + 97 / 100 * (406 * A / 2 ^ 24) :=
    prod_err kc k2 (by norm_num) mq
  have mb : |97 / 100 * b| ≤ 2 * A := by
    rw [abs_mul, abs_of_pos (by norm_num : (0 : ℝ) < 97 / 100)]
    linarith
  obtain ⟨d, ed, kd⟩ := fit_double (q := c * q) (m := 3 * A) (by push_cast; exact (near_le kcq mb).trans (by linarith))
    (by norm_num; linarith) (by norm_num at h2 ⊢; linarith)
  push_cast at kd
  have k3 := near_trans kd kcq
  have k4 := diff_err k1 k3
  have e97 : (0.97 : ℝ) = 97 / 100 := by norm_num
  rw [e97] at hm ⊢
  obtain ⟨g, eg, kg⟩ := fit_double (q := p - d) (m := 4 * A) (by push_cast; exact (near_le k4 hm).trans (by linarith))
    (by norm_num; linarith) (by norm_num at h2 ⊢; linarith)
  push_cast at kg
  have k5 := near_trans kg k4
  obtain ⟨t, wt, kt⟩ := single_worth eg (m := 4 * A) ((near_le k5 hm).trans (by linarith)) (by norm_num; linarith)
    (by norm_num at h2 ⊢; linarith)
  rw [mul_is ec (double_is eq), sub_is (double_is ep) ed]
  exact ⟨t, wt, (near_trans kt k5).trans (by linarith), hm⟩

/-! ## The window -/

theorem taper_abs (i : ℕ) : |taper i| ≤ 1 := by
  unfold taper
  have h1 := Real.cos_le_one (6.28318530718 / 399 * i)
  have h2 := Real.neg_one_le_cos (6.28318530718 / 399 * i)
  rw [abs_le]
  constructor <;> norm_num at h1 h2 ⊢ <;> linarith

theorem taper_near (ht : TrigLaws lib) {i : ℕ} (hi : i < 400) :
    ∃ r, Worth ((fbank lib).hamm ((fbank lib).mul ((fbank lib).hammAngle 399) ((fbank lib).ofInt i))) r ∧
      |r - taper i| ≤ 11 / 2 ^ 24 := by
  have hi' : (i : ℝ) ≤ 399 := by
    have : i ≤ 399 := by omega
    exact_mod_cast this
  have hi0 : (0 : ℝ) ≤ i := by positivity
  obtain ⟨t, et, kt⟩ := fit_double (q := 628318530718 / 10 ^ 11) (m := 7) (by push_cast; norm_num [abs_of_pos]) (by norm_num) (by norm_num)
  have e399 : Is (fit binary64 (((399 : ℤ)) : ℚ)) 399 := by
    have := fit_is (rep64 (n := 399) (by norm_num))
    simpa using this
  push_cast at kt
  have k0 : |(t : ℝ) / 399 - 628318530718 / 10 ^ 11 / 399| ≤ 1 / 2 ^ 53 := by
    rw [← sub_div, abs_div, abs_of_pos (by norm_num : (0 : ℝ) < 399), div_le_iff₀ (by norm_num)]
    refine kt.trans ?_
    norm_num
  obtain ⟨d, ed, kd⟩ := fit_double (q := t / 399) (m := 1 / 32) (by
    push_cast
    refine (near_le k0 (B := 1 / 33) ?_).trans ?_
    · rw [abs_of_pos (by norm_num)]; norm_num
    · norm_num) (by norm_num) (by norm_num)
  push_cast at kd
  have k1 := near_trans kd k0
  obtain ⟨s, ws, ks⟩ := single_worth ed (m := 1 / 32) ((near_le k1 (B := 1 / 33) (by
    rw [abs_of_pos (by norm_num)]; norm_num)).trans (by norm_num)) (by norm_num) (by norm_num)
  have k2 := near_trans ks k1
  have ea : (fbank lib).hammAngle 399 = single (fit binary64 (t / 399)) := by
    show single (div (fit binary64 (628318530718 / 10 ^ 11)) (fit binary64 (((399 : ℤ)) : ℚ))) = _
    rw [div_is et e399 (by norm_num)]
  have k3 : |s * i - 6.28318530718 / 399 * i| ≤ 12.6 / 2 ^ 24 := by
    rw [← sub_mul, abs_mul, abs_of_nonneg hi0]
    have e : (6.28318530718 : ℝ) / 399 = 628318530718 / 10 ^ 11 / 399 := by norm_num
    rw [e]
    refine (mul_le_mul k2 hi' hi0 ((abs_nonneg _).trans k2)).trans ?_
    norm_num
  have ma : |(6.28318530718 : ℝ) / 399 * i| ≤ 6.29 := by
    rw [abs_of_nonneg (by positivity)]
    have : (6.28318530718 : ℝ) / 399 * i ≤ 6.28318530718 / 399 * 399 := mul_le_mul_of_nonneg_left hi' (by norm_num)
    norm_num at this ⊢
    linarith
  obtain ⟨g, wg, kg⟩ := mul_worth ws (y := (fbank lib).ofInt i) (s := i) ⟨i, int_is lib (by omega), by push_cast; rfl⟩ (m := 7)
    ((near_le k3 ma).trans (by norm_num)) (by norm_num) (by norm_num)
  have k4 := near_trans kg k3
  obtain ⟨q, eq, rfl⟩ := wg
  have hq8 : |q| ≤ 8 := by
    have : |(q : ℝ)| ≤ 8 := (near_le k4 ma).trans (by norm_num)
    exact_mod_cast this
  show ∃ r, Worth (single (sub (fit _ (54 / 100)) (mul (fit _ (46 / 100)) (lib.cos (mul ((fbank lib).hammAngle 399) ((fbank lib).ofInt i)))))) r ∧ _
  rw [ea]
  obtain ⟨c, ec, kc⟩ := ht.cos eq hq8
  have k5 := near_trans kc ((Real.abs_cos_sub_cos_le _ _).trans k4)
  have mc : |(c : ℝ)| ≤ 2 := (near_le k5 (Real.abs_cos_le_one _)).trans (by norm_num)
  obtain ⟨a, ea', ka⟩ := fit_double (q := 46 / 100) (m := 1) (by push_cast; norm_num) (by norm_num) (by norm_num)
  obtain ⟨b, eb, kb⟩ := fit_double (q := 54 / 100) (m := 1) (by push_cast; norm_num) (by norm_num) (by norm_num)
  push_cast at ka kb
  have k6 := prod_err ka k5 (K := 46 / 100) (by norm_num [abs_of_pos]) mc
  have m6 : |46 / 100 * Real.cos (6.28318530718 / 399 * i)| ≤ 1 / 2 := by
    rw [abs_mul, abs_of_pos (by norm_num : (0 : ℝ) < 46 / 100)]
    have := Real.abs_cos_le_one (6.28318530718 / 399 * i)
    linarith
  obtain ⟨u, eu, ku⟩ := fit_double (q := a * c) (m := 1) (by push_cast; exact (near_le k6 m6).trans (by norm_num)) (by norm_num) (by norm_num)
  push_cast at ku
  have k7 := diff_err kb (near_trans ku k6)
  have et' : (54 : ℝ) / 100 - 46 / 100 * Real.cos (6.28318530718 / 399 * i) = taper i := by
    unfold taper
    norm_num
  rw [et'] at k7
  obtain ⟨v, ev, kv⟩ := fit_double (q := b - u) (m := 2) (by push_cast; exact (near_le k7 (taper_abs i)).trans (by norm_num)) (by norm_num)
    (by norm_num)
  push_cast at kv
  have k8 := near_trans kv k7
  obtain ⟨w, ww, kw⟩ := single_worth ev (m := 9 / 8) ((near_le k8 (taper_abs i)).trans (by norm_num)) (by norm_num) (by norm_num)
  rw [mul_is ea' ec, sub_is eb eu]
  exact ⟨w, ww, (near_trans kw k8).trans (by norm_num)⟩

/-! ## The frame -/

theorem shaped_near (ht : TrigLaws lib) (h1 : 1 ≤ A) (h2 : A ≤ 2 ^ 31) {V : ℕ → F32} {f : ℕ → ℝ}
    (h : ∀ i, i < 400 → |f i| ≤ A ∧ Worth (V i) (f i)) {j : ℕ} (hj : j < 400) :
    ∃ r, Worth ((fbank lib).mul ((fbank lib).preemph
        ((fbank lib).sub (V j) ((fbank lib).div ((vec 400 V).foldl (fbank lib).add (fbank lib).zero) ((fbank lib).ofInt (400 : ℕ))))
        ((fbank lib).sub (V (j - 1)) ((fbank lib).div ((vec 400 V).foldl (fbank lib).add (fbank lib).zero) ((fbank lib).ofInt (400 : ℕ)))))
      ((fbank lib).hamm ((fbank lib).mul ((fbank lib).hammAngle 399) ((fbank lib).ofInt j)))) r ∧
      |r - shaped f j| ≤ 900 * A / 2 ^ 24 ∧ |r| ≤ 4 * A := by
  obtain ⟨a, wa, ka, ma⟩ := centred_near (lib := lib) h1 h2 h hj
  obtain ⟨b, wb, kb, mb⟩ := centred_near (lib := lib) h1 h2 h (show j - 1 < 400 by omega)
  obtain ⟨p, wp, kp, mp⟩ := preemph_near (lib := lib) h1 h2 wa wb ka kb ma mb
  obtain ⟨t, wt, kt⟩ := taper_near ht hj
  have mt : |t| ≤ 33 / 32 := (near_le kt (taper_abs j)).trans (by norm_num)
  have kpt := prod_err kp kt mp mt
  have mpt : |(centred f j - 0.97 * centred f (j - 1)) * taper j| ≤ 3.94 * A := by
    rw [abs_mul]
    refine (mul_le_mul mp (taper_abs j) (abs_nonneg _) ((abs_nonneg _).trans mp)).trans ?_
    linarith
  obtain ⟨r, wr, kr⟩ := mul_worth wp wt (m := 4 * A) ((near_le kpt mpt).trans (by norm_num; linarith)) (by norm_num; linarith)
    (by norm_num at h2 ⊢; linarith)
  have hs : shaped f j = (centred f j - 0.97 * centred f (j - 1)) * taper j := by
    unfold shaped
    rw [if_pos hj]
  have k := near_trans kr kpt
  rw [hs]
  refine ⟨r, wr, k.trans ?_, (near_le k mpt).trans ?_⟩
  · norm_num
    linarith
  · norm_num
    linarith

end Verif.Ieee
