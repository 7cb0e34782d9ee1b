import Verif.IeeeFftStep
import Verif.SrfftFft
import Mathlib.Analysis.SpecialFunctions.Trigonometric.Bounds
import Mathlib.Analysis.Real.Pi.Bounds

/-!
# How exact the constants of the FFT are
-/

namespace Verif.Ieee

open Verif Verif.Srfft Verif.Ieee.Spec

theorem is_round64 {q r : ℚ} (h : Is (fit binary64 q) r) : r = round binary64 q := by
  obtain ⟨h, e⟩ := h
  rcases fit_cases (f := binary64) q with ⟨h', e'⟩ | ⟨e', -⟩ | ⟨e', -⟩ <;> rw [e'] at e <;> cases e
  rfl

theorem fit_double {q : ℚ} {m : ℝ} (h : |(q : ℝ)| ≤ m) (h1 : 1 / 2 ^ 100 ≤ m) (h2 : m ≤ 2 ^ 120) :
    ∃ r, Is (fit binary64 q) r ∧ |(r : ℝ) - q| ≤ m / 2 ^ 53 := by
  have hq : |q| ≤ 2 ^ 120 := by exact_mod_cast h.trans h2
  obtain ⟨p, e1, -⟩ := fit_le (f := binary64) (rep_pow (a := 120) (by rw [top64]; omega)) hq
  refine ⟨p, e1, ?_⟩
  have hlow : pow2 (binary64.low - 1) ≤ 1 / 2 ^ 153 := by
    rw [pow2_eq, show (1 : ℚ) / 2 ^ 153 = 2 ^ (-153 : ℤ) by norm_num]
    exact zpow_le_zpow_right₀ (by norm_num) (by decide)
  have h3 : |p - q| ≤ max (|q| * (1 / 2 ^ 53)) (1 / 2 ^ 153) := by
    rw [is_round64 e1]
    have := round_err binary64 q
    rw [show pow2 (-((binary64.prec : ℕ) : ℤ)) = 1 / 2 ^ 53 by rw [pow2_eq]; norm_num [binary64]] at this
    exact this.trans (max_le_max le_rfl hlow)
  have h4 : ((|p - q| : ℚ) : ℝ) ≤ ((max (|q| * (1 / 2 ^ 53)) (1 / 2 ^ 153) : ℚ) : ℝ) := Rat.cast_le.mpr h3
  push_cast at h4
  refine h4.trans (max_le ?_ ?_)
  · rw [mul_one_div]
    exact div_le_div_of_nonneg_right h (by positivity)
  · calc (1 : ℝ) / 2 ^ 153 ≤ (1 / 2 ^ 100) / 2 ^ 53 := by norm_num
      _ ≤ _ := div_le_div_of_nonneg_right h1 (by positivity)

theorem single_worth {x : F64} {q : ℚ} {m : ℝ} (e : Is x q) (h : |(q : ℝ)| ≤ m) (h1 : 1 / 2 ^ 100 ≤ m) (h2 : m ≤ 2 ^ 120) :
    ∃ r, Worth (single x) r ∧ |r - q| ≤ m / 2 ^ 24 := by
  rw [single_is e]
  exact fit_worth h h1 h2

theorem sqhalf_worth (lib : Lib) : ∃ r, Worth (fftOps lib).sqhalf r ∧ |r - 1 / Real.sqrt 2| ≤ 2 / 2 ^ 24 := by
  show ∃ r, Worth (single (fit _ (70710678118654752440 / 10 ^ 20))) r ∧ _
  obtain ⟨a, ea, ka⟩ := fit_double (q := 70710678118654752440 / 10 ^ 20) (m := 1)
    (by push_cast; rw [abs_of_nonneg (by positivity)]; norm_num) (by norm_num) (by norm_num)
  obtain ⟨r, er, kr⟩ := single_worth ea (m := 9 / 8) (by
    refine (near_le ka (B := 1) (by push_cast; rw [abs_of_nonneg (by positivity)]; norm_num)).trans (by norm_num))
    (by norm_num) (by norm_num)
  refine ⟨r, er, ?_⟩
  have h : |((70710678118654752440 / 10 ^ 20 : ℚ) : ℝ) - 1 / Real.sqrt 2| ≤ 1 / 2 ^ 36 := by
    rw [sqrt_half]
    have s1 : (1.41421356237 : ℝ) ≤ Real.sqrt 2 := Real.le_sqrt_of_sq_le (by norm_num)
    have s2 : Real.sqrt 2 ≤ (1.41421356238 : ℝ) := Real.sqrt_le_iff.mpr ⟨by norm_num, by norm_num⟩
    push_cast
    rw [abs_le]
    constructor <;> norm_num <;> linarith
  refine (near_trans kr (near_trans ka h)).trans ?_
  norm_num

theorem twoPi_worth : ∃ t, Is twoPi t ∧ |(t : ℝ) - 2 * Real.pi| ≤ 1 / 2 ^ 48 := by
  obtain ⟨a, ea, ka⟩ := fit_double (q := 6283185307179586476925286766559005 / 10 ^ 33) (m := 7)
    (by push_cast; rw [abs_of_nonneg (by positivity)]; norm_num) (by norm_num) (by norm_num)
  refine ⟨a, ea, ?_⟩
  have h : |((6283185307179586476925286766559005 / 10 ^ 33 : ℚ) : ℝ) - 2 * Real.pi| ≤ 1 / 2 ^ 53 := by
    have s1 := Real.pi_gt_d20
    have s2 := Real.pi_lt_d20
    push_cast
    rw [abs_le]
    constructor <;> norm_num at s1 s2 ⊢ <;> linarith
  refine (near_trans ka h).trans ?_
  norm_num

theorem pi_small : Real.pi ≤ 22 / 7 := by
  have := Real.pi_lt_d20
  norm_num at this
  linarith

theorem ang_worth (lib : Lib) {n m : ℕ} (hn : 0 < n) (hm : m ≤ 2 ^ 30) (hnm : 4 * n ≤ 3 * m) :
    ∃ q, Is ((fftOps lib).ang n m) q ∧ |q| ≤ 8 ∧ |(q : ℝ) - n * (2 * Real.pi) / m| ≤ (5 + 1 / 16) / 2 ^ 24 := by
  show ∃ q, Is (single (div (mul (ofNat n) twoPi) (ofNat m))) q ∧ _
  have hn' : (1 : ℝ) ≤ n := by exact_mod_cast hn
  have hm0 : (0 : ℝ) < m := by
    have : 0 < m := by omega
    exact_mod_cast this
  have hnm' : (4 : ℝ) * n ≤ 3 * m := by exact_mod_cast hnm
  have hx : (n : ℝ) / m ≤ 3 / 4 := by
    rw [div_le_iff₀ hm0]
    linarith
  have hx0 : 0 ≤ (n : ℝ) / m := by positivity
  have hnb : (n : ℝ) ≤ 2 ^ 30 := by
    have : n ≤ 2 ^ 30 := by omega
    exact_mod_cast this
  obtain ⟨t, et, kt⟩ := twoPi_worth
  have p0 := Real.pi_pos
  have p1 := pi_small
  have t1 : |(t : ℝ)| ≤ 7 := (near_le kt (B := 2 * Real.pi) (by rw [abs_of_pos (by linarith)])).trans (by norm_num; linarith)
  have en : Is (ofNat n : F64) (n : ℚ) := fit_is (rep64 (lt_of_le_of_lt (show n ≤ 2 ^ 30 by omega) (by norm_num)))
  have em : Is (ofNat m : F64) (m : ℚ) := fit_is (rep64 (lt_of_le_of_lt hm (by norm_num)))
  obtain ⟨a, ea, ka⟩ := fit_double (q := n * t) (m := 7 * n) (by
    push_cast
    rw [abs_mul, abs_of_nonneg (by positivity : (0 : ℝ) ≤ n), mul_comm]
    exact mul_le_mul_of_nonneg_right t1 (by positivity)) (by
      calc (1 : ℝ) / 2 ^ 100 ≤ 7 := by norm_num
        _ ≤ 7 * n := by linarith) (by
      calc (7 : ℝ) * n ≤ 7 * 2 ^ 30 := by linarith
        _ ≤ 2 ^ 120 := by norm_num)
  rw [mul_is en et]
  have ham : |(a : ℝ) / m - n * (2 * Real.pi) / m| ≤ 1 / 2 ^ 47 := by
    rw [← sub_div, abs_div, abs_of_pos hm0]
    have k1 : |(n : ℝ) * t - n * (2 * Real.pi)| ≤ n / 2 ^ 48 := by
      rw [← mul_sub, abs_mul, abs_of_nonneg (by positivity : (0 : ℝ) ≤ n)]
      calc (n : ℝ) * |t - 2 * Real.pi| ≤ n * (1 / 2 ^ 48) := mul_le_mul_of_nonneg_left kt (by positivity)
        _ = _ := by ring
    push_cast at ka
    have k2 := near_trans ka k1
    rw [div_le_iff₀ hm0]
    refine k2.trans ?_
    norm_num
    linarith
  have th : |(n : ℝ) * (2 * Real.pi) / m| ≤ 4.72 := by
    rw [abs_of_nonneg (by positivity), mul_div_right_comm]
    calc (n : ℝ) / m * (2 * Real.pi) ≤ 3 / 4 * (2 * (22 / 7)) := mul_le_mul hx (by linarith) (by linarith) (by norm_num)
      _ ≤ 4.72 := by norm_num
  obtain ⟨d, ed, kd⟩ := fit_double (q := a / m) (m := 5) (by
    push_cast
    refine (near_le ham th).trans ?_
    norm_num) (by norm_num) (by norm_num)
  have hm1 : (m : ℚ) ≠ 0 := by
    have : m ≠ 0 := by omega
    exact_mod_cast this
  rw [div_is ea em hm1]
  push_cast at kd
  have kd' := near_trans kd ham
  obtain ⟨r, ⟨q, eq, rfl⟩, kr⟩ := single_worth ed (m := 5) ((near_le kd' th).trans (by norm_num)) (by norm_num) (by norm_num)
  have k5 : |(q : ℝ) - n * (2 * Real.pi) / m| ≤ (5 + 1 / 16) / 2 ^ 24 := (near_trans kr kd').trans (by norm_num)
  refine ⟨q, eq, ?_, k5⟩
  have : |(q : ℝ)| ≤ 8 := (near_le k5 th).trans (by norm_num)
  exact_mod_cast this

variable {lib : Lib}

theorem cos_worth (hl : TrigLaws lib) {x : F32} {q : ℚ} {θ e : ℝ} (h : Is x q) (h1 : |q| ≤ 8) (h2 : |(q : ℝ) - θ| ≤ e) :
    ∃ r, Worth ((fftOps lib).cos x) r ∧ |r - Real.cos θ| ≤ e + (2 + 1 / 16) / 2 ^ 24 := by
  show ∃ r, Worth (single (lib.cos x)) r ∧ _
  obtain ⟨c, ec, kc⟩ := hl.cos h h1
  obtain ⟨r, er, kr⟩ := single_worth ec (m := 17 / 16) ((near_le kc (Real.abs_cos_le_one _)).trans (by norm_num)) (by norm_num)
    (by norm_num)
  refine ⟨r, er, (near_trans (near_trans kr kc) ((Real.abs_cos_sub_cos_le _ _).trans h2)).trans ?_⟩
  linarith

theorem sin_worth (hl : TrigLaws lib) {x : F32} {q : ℚ} {θ e : ℝ} (h : Is x q) (h1 : |q| ≤ 8) (h2 : |(q : ℝ) - θ| ≤ e) :
    ∃ r, Worth ((fftOps lib).sin x) r ∧ |r - Real.sin θ| ≤ e + (2 + 1 / 16) / 2 ^ 24 := by
  show ∃ r, Worth (single (lib.sin x)) r ∧ _
  obtain ⟨c, ec, kc⟩ := hl.sin h h1
  obtain ⟨r, er, kr⟩ := single_worth ec (m := 17 / 16) ((near_le kc (Real.abs_sin_le_one _)).trans (by norm_num)) (by norm_num)
    (by norm_num)
  refine ⟨r, er, (near_trans (near_trans kr kc) ((Real.abs_sin_sub_sin_le _ _).trans h2)).trans ?_⟩
  linarith

theorem pair_worth {x y : F32} {r s c t : ℝ} (hx : Worth x r) (hy : Worth y s) (h1 : |r - c| ≤ 8 / 2 ^ 24)
    (h2 : |s - t| ≤ 8 / 2 ^ 24) (hc : |c| ≤ 1) (ht : |t| ≤ 1) :
    (∃ v, Worth (neg (add y x)) v ∧ |v - -(t + c)| ≤ 20 / 2 ^ 24) ∧ (∃ v, Worth (sub y x) v ∧ |v - (t - c)| ≤ 20 / 2 ^ 24) := by
  have r1 : |r| ≤ 3 / 2 := (near_le h1 hc).trans (by norm_num)
  have s1 : |s| ≤ 3 / 2 := (near_le h2 ht).trans (by norm_num)
  obtain ⟨v, wv, kv⟩ := add_worth hy hx (m := 3) ((sum_le s1 r1).trans (by norm_num)) (by norm_num) (by norm_num)
  obtain ⟨w, ww, kw⟩ := sub_worth hy hx (m := 3) ((diff_le s1 r1).trans (by norm_num)) (by norm_num) (by norm_num)
  refine ⟨⟨-v, neg_worth wv, ?_⟩, w, ww, (near_trans kw (diff_err h2 h1)).trans (by norm_num)⟩
  rw [← abs_neg, show -(-v - -(t + c)) = v - (t + c) by ring]
  exact (near_trans kv (sum_err h2 h1)).trans (by norm_num)

theorem entry_near (hl : TrigLaws lib) {n m : ℕ} (hn : 0 < n) (hm : m ≤ 2 ^ 30) (hnm : 4 * n ≤ m) :
    SixNear (entry (fftOps lib) m n) (Real.cos (n * (2 * Real.pi) / m)) (Real.sin (n * (2 * Real.pi) / m))
      (Real.cos ((3 * n : ℕ) * (2 * Real.pi) / m)) (Real.sin ((3 * n : ℕ) * (2 * Real.pi) / m)) := by
  obtain ⟨q, eq, q8, kq⟩ := ang_worth lib (n := n) (m := m) hn hm (by omega)
  obtain ⟨q3, eq3, q38, kq3⟩ := ang_worth lib (n := 3 * n) (m := m) (by omega) hm (by omega)
  obtain ⟨c, wc, kc⟩ := cos_worth hl eq q8 kq
  obtain ⟨s, ws, ks⟩ := sin_worth hl eq q8 kq
  obtain ⟨c3, wc3, kc3⟩ := cos_worth hl eq3 q38 kq3
  obtain ⟨s3, ws3, ks3⟩ := sin_worth hl eq3 q38 kq3
  have f : ((5 : ℝ) + 1 / 16) / 2 ^ 24 + (2 + 1 / 16) / 2 ^ 24 ≤ 8 / 2 ^ 24 := by norm_num
  have := pair_worth wc ws (kc.trans f) (ks.trans f) (Real.abs_cos_le_one _) (Real.abs_sin_le_one _)
  have := pair_worth wc3 ws3 (kc3.trans f) (ks3.trans f) (Real.abs_cos_le_one _) (Real.abs_sin_le_one _)
  exact ⟨⟨c, wc, kc.trans f⟩, by tauto, by tauto, ⟨c3, wc3, kc3.trans f⟩, by tauto, by tauto⟩

end Verif.Ieee
