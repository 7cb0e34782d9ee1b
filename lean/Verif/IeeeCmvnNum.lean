import Verif.IeeeCmvn
import Verif.IeeeCmvnRun
import Verif.IeeeError
import Verif.IeeeFbankLemmas

/-!
# How exact the steps of the normalisation are
-/

namespace Verif.Ieee

open Verif Verif.Ieee.Spec Verif.Cmvn

/-! ## Single operations -/

theorem off_prod {a a' b b' α β K L : ℚ} (h1 : |a' - a| ≤ α) (h2 : |b' - b| ≤ β) (h3 : |a| ≤ K) (h4 : |b'| ≤ L) :
    |a' * b' - a * b| ≤ α * L + K * β := by
  have e : a' * b' - a * b = (a' - a) * b' + a * (b' - b) := by ring
  rw [e]
  refine (abs_add_le _ _).trans (add_le_add ?_ ?_)
  · rw [abs_mul]; exact mul_le_mul h1 h4 (abs_nonneg _) ((abs_nonneg _).trans h1)
  · rw [abs_mul]; exact mul_le_mul h3 h2 (abs_nonneg _) ((abs_nonneg _).trans h3)

theorem off_le {a b e B : ℚ} (h : |a - b| ≤ e) (hb : |b| ≤ B) : |a| ≤ B + e := by
  have : a = (a - b) + b := by ring
  rw [this]
  have := abs_add_le (a - b) b
  linarith

theorem off_trans {a b c d e : ℚ} (h1 : |a - b| ≤ d) (h2 : |b - c| ≤ e) : |a - c| ≤ d + e := by
  have : a - c = (a - b) + (b - c) := by ring
  rw [this]
  have := abs_add_le (a - b) (b - c)
  linarith

/-- Rounding to `float` moves a number that is not tiny by a small part of it. -/
theorem rel32 {q : ℚ} (h1 : 1 / 2 ^ 100 ≤ q) (h2 : q ≤ 2 ^ 100) : ∃ v, Is (fit binary32 q) v ∧ |v - q| ≤ q / 2 ^ 24 := by
  have h0 : 0 < q := lt_of_lt_of_le (by positivity) h1
  obtain ⟨v, e, -⟩ := fit_le (f := binary32) (rep_pow (a := 100) (by rw [top32]; omega)) (by rw [abs_of_pos h0]; exact h2)
  refine ⟨v, e, ?_⟩
  have hr : v = round binary32 q := by
    rcases fit_cases (f := binary32) q with ⟨h, e'⟩ | ⟨e', -⟩ | ⟨e', -⟩ <;> rw [e'] at e <;> obtain ⟨_, e⟩ := e <;> cases e
    rfl
  rw [hr]
  refine (round_err binary32 q).trans (max_le ?_ ?_)
  · rw [show pow2 (-(binary32.prec : Int)) = 1 / 2 ^ 24 by rw [pow2_eq]; norm_num [binary32], abs_of_pos h0]
    exact le_of_eq (by ring)
  · rw [show pow2 (binary32.low - 1) = 1 / 2 ^ 150 by rw [pow2_eq]; norm_num [binary32]]
    refine le_trans ?_ (div_le_div_of_nonneg_right h1 (by positivity))
    norm_num

theorem rel64 {q : ℚ} (h1 : 1 / 2 ^ 100 ≤ q) (h2 : q ≤ 2 ^ 100) : ∃ v, Is (fit binary64 q) v ∧ |v - q| ≤ q / 2 ^ 53 := by
  have h0 : 0 < q := lt_of_lt_of_le (by positivity) h1
  obtain ⟨v, e, -⟩ := fit_le (f := binary64) (rep_pow (a := 100) (by rw [top64]; omega)) (by rw [abs_of_pos h0]; exact h2)
  refine ⟨v, e, ?_⟩
  have hr : v = round binary64 q := by
    rcases fit_cases (f := binary64) q with ⟨h, e'⟩ | ⟨e', -⟩ | ⟨e', -⟩ <;> rw [e'] at e <;> obtain ⟨_, e⟩ := e <;> cases e
    rfl
  rw [hr]
  refine (round_err binary64 q).trans (max_le ?_ ?_)
  · rw [show pow2 (-(binary64.prec : Int)) = 1 / 2 ^ 53 by rw [pow2_eq]; norm_num [binary64], abs_of_pos h0]
    exact le_of_eq (by ring)
  · have : pow2 (binary64.low - 1) ≤ pow2 (-153) := pow2_le (by decide)
    refine this.trans ?_
    rw [show pow2 (-153) = 1 / 2 ^ 100 / 2 ^ 53 by rw [pow2_eq]; norm_num]
    exact div_le_div_of_nonneg_right h1 (by positivity)

/-- A quotient of `double`s, stored as `float`. -/
theorem ratio_off {x y : F64} {p q : ℚ} (hx : Is x p) (hy : Is y q) (hq : 0 < q) (h1 : 1 / 2 ^ 90 ≤ p / q)
    (h2 : p / q ≤ 2 ^ 90) : ∃ v, Is (single (div x y)) v ∧ |v - p / q| ≤ p / q * (17 / 16 / 2 ^ 24) := by
  have h0 : 0 < p / q := lt_of_lt_of_le (by positivity) h1
  obtain ⟨w, e1, k1⟩ := rel64 (q := p / q) (le_trans (by norm_num) h1) (h2.trans (by norm_num))
  rw [← div_is hx hy (ne_of_gt hq)] at e1
  obtain ⟨k2, k3⟩ := abs_le.mp k1
  have hw1 : p / q * (1 - 1 / 2 ^ 53) ≤ w := by linarith
  have hw2 : w ≤ p / q * (1 + 1 / 2 ^ 53) := by linarith
  have g1 : 1 / 2 ^ 100 ≤ w := by
    refine le_trans ?_ hw1
    refine le_trans ?_ (mul_le_mul_of_nonneg_right h1 (by norm_num))
    norm_num
  have g2 : w ≤ 2 ^ 100 := by
    refine hw2.trans ((mul_le_mul_of_nonneg_right h2 (by norm_num)).trans ?_)
    norm_num
  obtain ⟨v, e2, k4⟩ := rel32 g1 g2
  rw [← single_is e1] at e2
  refine ⟨v, e2, (off_trans k4 k1).trans ?_⟩
  have : w / 2 ^ 24 ≤ p / q * (1 + 1 / 2 ^ 53) / 2 ^ 24 := by gcongr
  have e : p / q * (17 / 16 / 2 ^ 24) - (p / q * (1 + 1 / 2 ^ 53) / 2 ^ 24 + p / q / 2 ^ 53) =
      p / q * (17 / 16 / 2 ^ 24 - (1 + 1 / 2 ^ 53) / 2 ^ 24 - 1 / 2 ^ 53) := by ring
  have : 0 ≤ p / q * (17 / 16 / 2 ^ 24 - (1 + 1 / 2 ^ 53) / 2 ^ 24 - 1 / 2 ^ 53) := mul_nonneg h0.le (by norm_num)
  linarith

theorem isOne_is {x : F64} {p : ℚ} (h : Is x p) : isOne x = decide (p = 1) := by
  obtain ⟨_, rfl⟩ := h
  rfl

theorem rep_nat64 {n : ℕ} (hn : n < 2 ^ 53) : Rep binary64 (n : ℚ) := by
  have := rep_scale (f := binary64) (k := 0) hn (by decide) (by decide)
  rwa [pow2_zero, mul_one] at this

theorem nat_is {n : ℕ} (hn : n < 2 ^ 53) : Is (cmvn.ofNat n) n := fit_is (rep_nat64 hn)

theorem negOne_is : Is cmvn.negOne (-1) := by
  have := fit_is (rep_minus (rep_nat64 (n := 1) (by norm_num)))
  simpa [cmvn] using this

/-- `AddVec` on `float`s. -/
theorem plusF_off {al x y : F32} {a p q m₁ m₂ : ℚ} (ha : Is al a) (hx : Is x p) (hy : Is y q) (h1 : |a * q| ≤ m₁)
    (h2 : |p + a * q| + m₁ / 2 ^ 24 ≤ m₂) (h3 : 1 ≤ m₁) (h4 : m₁ ≤ m₂) (h5 : m₂ ≤ 2 ^ 120) :
    ∃ z, Is (plusF cmvn al x y) z ∧ |z - (p + a * q)| ≤ (m₁ + m₂) / 2 ^ 24 := by
  have e : plusF cmvn al x y = if decide (a = 1) = true then add x y else add x (mul al y) := by
    unfold plusF
    rw [show cmvn.isOne (cmvn.toD al) = decide (a = 1) from isOne_is (double_is ha)]
    rfl
  have hm : 0 ≤ m₁ / 2 ^ 24 := div_nonneg (by linarith) (by positivity)
  rw [e]
  by_cases h : a = 1
  · rw [decide_eq_true h, if_pos rfl, add_is hx hy]
    subst h
    rw [one_mul] at h1 h2 ⊢
    obtain ⟨z, e1, k⟩ := fit32 (q := p + q) (M := m₂) (by linarith) h5 (by linarith)
    exact ⟨z, e1, k.trans (by rw [add_div]; linarith)⟩
  · rw [decide_eq_false h, if_neg (by decide)]
    obtain ⟨w, e1, k1⟩ := fit32 (q := a * q) (M := m₁) h3 (by linarith) h1
    rw [← mul_is ha hy] at e1
    have k2 : |(p + w) - (p + a * q)| ≤ m₁ / 2 ^ 24 := by rwa [add_sub_add_left_eq_sub]
    obtain ⟨z, e2, k3⟩ := fit32 (q := p + w) (M := m₂) (by linarith) h5 ((off_le k2 le_rfl).trans h2)
    rw [← add_is hx e1] at e2
    exact ⟨z, e2, (off_trans k3 k2).trans (by rw [add_div]; linarith)⟩

theorem plusD_one {a : F64} {b : F32} {p q : ℚ} (ha : Is a p) (hb : Is b q) : plusD cmvn (cmvn.ofNat 1) a b = fit binary64 (p + q) := by
  unfold plusD
  rw [show cmvn.isOne (cmvn.ofNat 1) = true from by
    rw [show cmvn.isOne = isOne from rfl, isOne_is (nat_is (n := 1) (by norm_num))]; rfl, if_pos rfl]
  exact add_is ha (double_is hb)

theorem plusD_minus {a : F64} {b : F32} {p q : ℚ} (ha : Is a p) (hb : Is b q) :
    plusD cmvn cmvn.negOne a b = fit binary64 (p - q) := by
  have hr : Rep binary64 (-q) := by
    obtain ⟨h, -⟩ := neg_is (double_is hb)
    exact h
  have e : Is (mul cmvn.negOne (double b)) (-q) := by
    rw [mul_is negOne_is (double_is hb), neg_one_mul]
    exact fit_is hr
  unfold plusD
  rw [show cmvn.isOne cmvn.negOne = false from by
    rw [show cmvn.isOne = isOne from rfl, isOne_is negOne_is]; decide, if_neg (by decide)]
  show add a (mul cmvn.negOne (double b)) = _
  rw [add_is ha e, sub_eq_add_neg]

/-! ## The running sum -/

theorem enter_off {a : F64} {x : F32} {c S X e M : ℚ} (ha : Is a c) (hx : Is x X) (hM : 1 ≤ M) (hM' : M ≤ 2 ^ 100)
    (hS : |S| ≤ 600 * M) (hc : |c - S| ≤ e) (he : e ≤ 250 * M) (hX : |X| ≤ M) :
    ∃ q, Is (plusD cmvn (cmvn.ofNat 1) a x) q ∧ |q - (S + X)| ≤ e + M / 2 ^ 40 := by
  have k : |(c + X) - (S + X)| ≤ e := by rwa [add_sub_add_right_eq_sub]
  have k1 : |S + X| ≤ 601 * M := (abs_add_le _ _).trans (by linarith)
  obtain ⟨q, e1, k2⟩ := fit64 (q := c + X) (M := 851 * M) (by linarith) (by norm_num at hM' ⊢; linarith)
    ((off_le k k1).trans (by linarith))
  rw [← plusD_one ha hx] at e1
  refine ⟨q, e1, (off_trans k2 k).trans ?_⟩
  have : 851 * M / 2 ^ 53 ≤ M / 2 ^ 40 := by
    rw [mul_comm, mul_div_assoc, div_eq_mul_one_div M]
    exact mul_le_mul_of_nonneg_left (by norm_num) (by linarith)
  linarith

theorem leave_off {a : F64} {x : F32} {c S X e M : ℚ} (ha : Is a c) (hx : Is x X) (hM : 1 ≤ M) (hM' : M ≤ 2 ^ 100)
    (hS : |S| ≤ 601 * M) (hc : |c - S| ≤ e) (he : e ≤ 251 * M) (hX : |X| ≤ M) :
    ∃ q, Is (plusD cmvn cmvn.negOne a x) q ∧ |q - (S - X)| ≤ e + M / 2 ^ 40 := by
  have k : |(c - X) - (S - X)| ≤ e := by rwa [sub_sub_sub_cancel_right]
  have k1 : |S - X| ≤ 602 * M := (abs_sub _ _).trans (by linarith)
  obtain ⟨q, e1, k2⟩ := fit64 (q := c - X) (M := 853 * M) (by linarith) (by norm_num at hM' ⊢; linarith)
    ((off_le k k1).trans (by linarith))
  rw [← plusD_minus ha hx] at e1
  refine ⟨q, e1, (off_trans k2 k).trans ?_⟩
  have : 853 * M / 2 ^ 53 ≤ M / 2 ^ 40 := by
    rw [mul_comm, mul_div_assoc, div_eq_mul_one_div M]
    exact mul_le_mul_of_nonneg_left (by norm_num) (by linarith)
  linarith

theorem store_off {a : F64} {c S e M : ℚ} (ha : Is a c) (hM : 1 ≤ M) (hM' : M ≤ 2 ^ 100) (hS : |S| ≤ 600 * M)
    (hc : |c - S| ≤ e + M / 2 ^ 40 + M / 2 ^ 40) (he : e ≤ 250 * M) :
    ∃ q, Is (single a) q ∧ |q - S| ≤ e + 1000 * M / 2 ^ 24 := by
  have h0 : M / 2 ^ 40 ≤ M := by
    rw [div_eq_mul_one_div]
    have := mul_le_mul_of_nonneg_left (show (1 : ℚ) / 2 ^ 40 ≤ 1 by norm_num) (show 0 ≤ M by linarith)
    linarith
  obtain ⟨q, e1, k⟩ := fit32 (q := c) (M := 852 * M) (by linarith) (by norm_num at hM' ⊢; linarith)
    ((off_le hc hS).trans (by linarith))
  rw [← single_is ha] at e1
  refine ⟨q, e1, (off_trans k hc).trans ?_⟩
  have : M / 2 ^ 40 + M / 2 ^ 40 + 852 * M / 2 ^ 24 ≤ 1000 * M / 2 ^ 24 := by
    have e : 1000 * M / 2 ^ 24 - (M / 2 ^ 40 + M / 2 ^ 40 + 852 * M / 2 ^ 24) =
      M * (1000 / 2 ^ 24 - 1 / 2 ^ 40 - 1 / 2 ^ 40 - 852 / 2 ^ 24) := by ring
    have : 0 ≤ M * (1000 / 2 ^ 24 - 1 / 2 ^ 40 - 1 / 2 ^ 40 - 852 / 2 ^ 24) := mul_nonneg (by linarith) (by norm_num)
    linarith
  linarith

/-! ## Smoothing and the difference -/

/-- One sum after smoothing: `c` frames of the mean `g` are added. -/
theorem smooth_off {al x y : F32} {a p S G c g n e M : ℚ} (hal : Is al a) (ha : |a - c / G| ≤ c / G * (17 / 16 / 2 ^ 24))
    (hx : Is x p) (hp : |p - S| ≤ e) (hy : Is y (g * G)) (hG : 0 < G) (hc : 0 < c) (hc' : c ≤ 200) (hg : |g| ≤ M)
    (hS : |S + c * g| ≤ n * M) (hn : 201 ≤ n) (hn' : n ≤ 600) (he : e ≤ M) (hM : 1 ≤ M) (hM' : M ≤ 2 ^ 100) :
    ∃ z, Is (plusF cmvn al x y) z ∧ |z - (S + c * g)| ≤ e + n * (4 * M / 2 ^ 24) := by
  have hM0 : 0 < M := by linarith
  have e0 : 0 ≤ e := (abs_nonneg _).trans hp
  have k1 : |a * (g * G) - c * g| ≤ 213 * M / 2 ^ 24 := by
    have e1 : a * (g * G) - c * g = (a - c / G) * G * g := by field_simp
    have e2 : |(a - c / G) * G| ≤ c * (17 / 16 / 2 ^ 24) := by
      rw [abs_mul, abs_of_pos hG]
      refine (mul_le_mul_of_nonneg_right ha hG.le).trans (le_of_eq ?_)
      field_simp
    rw [e1, abs_mul]
    refine (mul_le_mul e2 hg (abs_nonneg _) (by positivity)).trans ?_
    have : c * (17 / 16 / 2 ^ 24) ≤ 200 * (17 / 16 / 2 ^ 24) := mul_le_mul_of_nonneg_right hc' (by norm_num)
    refine (mul_le_mul_of_nonneg_right this hM0.le).trans ?_
    have e : 213 * M / 2 ^ 24 - 200 * (17 / 16 / 2 ^ 24) * M = M * (213 / 2 ^ 24 - 200 * (17 / 16 / 2 ^ 24)) := by ring
    have : 0 ≤ M * (213 / 2 ^ 24 - 200 * (17 / 16 / 2 ^ 24)) := mul_nonneg hM0.le (by norm_num)
    linarith
  have hu : 213 * M / 2 ^ 24 ≤ M / 2 ^ 10 := by
    rw [mul_comm, mul_div_assoc, div_eq_mul_one_div M]
    exact mul_le_mul_of_nonneg_left (by norm_num) hM0.le
  have hcg : |c * g| ≤ 200 * M := by
    rw [abs_mul, abs_of_pos hc]
    exact mul_le_mul hc' hg (abs_nonneg _) (by norm_num)
  have k2 : |a * (g * G)| ≤ 201 * M := (off_le k1 hcg).trans (by linarith)
  have k3 : |(p + a * (g * G)) - (S + c * g)| ≤ e + 213 * M / 2 ^ 24 := by
    have e1 : (p + a * (g * G)) - (S + c * g) = (p - S) + (a * (g * G) - c * g) := by ring
    rw [e1]
    exact (abs_add_le _ _).trans (add_le_add hp k1)
  have hnM : n * M ≤ 600 * M := mul_le_mul_of_nonneg_right hn' hM0.le
  have hnM' : 201 * M ≤ n * M := mul_le_mul_of_nonneg_right hn hM0.le
  have hu2 : 201 * M / 2 ^ 24 ≤ M / 2 ^ 10 := by
    rw [mul_comm, mul_div_assoc, div_eq_mul_one_div M]
    exact mul_le_mul_of_nonneg_left (by norm_num) hM0.le
  obtain ⟨z, e1, k4⟩ := plusF_off (m₁ := 201 * M) (m₂ := n * M + 2 * M) hal hx hy k2
    (by have := off_le k3 hS; linarith) (by linarith) (by linarith) (by norm_num at hM' ⊢; linarith)
  refine ⟨z, e1, (off_trans k4 k3).trans ?_⟩
  have e2 : n * (4 * M / 2 ^ 24) - ((201 * M + (n * M + 2 * M)) / 2 ^ 24 + 213 * M / 2 ^ 24) =
      (3 * (n * M) - 416 * M) / 2 ^ 24 := by ring
  have : 0 ≤ (3 * (n * M) - 416 * M) / 2 ^ 24 := div_nonneg (by linarith) (by positivity)
  linarith

/-- Taking the mean off. -/
theorem apply_off {x y cnt : F32} {X q T k n ε M : ℚ} (hx : Is x X) (hX : |X| ≤ M) (hy : Is y q)
    (hq : |q - T| ≤ n * (ε + 4 * M / 2 ^ 24)) (hT : |T| ≤ n * M) (hc : Is cnt k) (hk : |k - n| ≤ n * (4 / 2 ^ 24))
    (hn : 201 ≤ n) (hn' : n ≤ 600) (h0 : 0 ≤ ε) (he : ε ≤ M / 2) (hM : 1 ≤ M) (hM' : M ≤ 2 ^ 100) :
    ∃ z, Is (plusF cmvn (neg (single (div (cmvn.ofNat 1) (double cnt)))) x y) z ∧
      |z - (X - T / n)| ≤ ε + 20 * M / 2 ^ 24 := by
  have hM0 : 0 < M := by linarith
  have hn0 : 0 < n := by linarith
  obtain ⟨k1, k2⟩ := abs_le.mp hk
  have kl : n * (1 - 4 / 2 ^ 24) ≤ k := by linarith
  have kh : k ≤ n * (1 + 4 / 2 ^ 24) := by linarith
  have hk0 : 0 < k := lt_of_lt_of_le (mul_pos hn0 (by norm_num)) kl
  have hk200 : 200 ≤ k := by
    have : 201 * (1 - 4 / 2 ^ 24) ≤ n * (1 - 4 / 2 ^ 24 : ℚ) := mul_le_mul_of_nonneg_right hn (by norm_num)
    norm_num at this kl ⊢
    linarith
  have hk601 : k ≤ 601 := by
    have : n * (1 + 4 / 2 ^ 24 : ℚ) ≤ 600 * (1 + 4 / 2 ^ 24) := mul_le_mul_of_nonneg_right hn' (by norm_num)
    norm_num at this kh ⊢
    linarith
  obtain ⟨s, e1, k3⟩ := ratio_off (nat_is (n := 1) (by norm_num)) (double_is hc) hk0
    (by rw [div_le_div_iff₀ (by positivity) hk0]; push_cast; norm_num; linarith)
    (by rw [div_le_iff₀ hk0]; push_cast; norm_num; linarith)
  rw [Nat.cast_one] at k3
  -- the reciprocal of the count
  have k4 : |s * n - 1| ≤ 6 / 2 ^ 24 := by
    have e2 : |1 / k * n - 1| ≤ 17 / 4 / 2 ^ 24 := by
      have : 1 / k * n - 1 = -(k - n) / k := by field_simp; ring
      rw [this, abs_div, abs_neg, abs_of_pos hk0, div_le_iff₀ hk0]
      refine hk.trans ?_
      have := mul_le_mul_of_nonneg_left kl (show (0 : ℚ) ≤ 17 / 4 / 2 ^ 24 by norm_num)
      refine le_trans ?_ this
      have e : 17 / 4 / 2 ^ 24 * (n * (1 - 4 / 2 ^ 24)) - n * (4 / 2 ^ 24) = n * (17 / 4 / 2 ^ 24 * (1 - 4 / 2 ^ 24) - 4 / 2 ^ 24) := by ring
      have : 0 ≤ n * (17 / 4 / 2 ^ 24 * (1 - 4 / 2 ^ 24) - 4 / 2 ^ 24) := mul_nonneg hn0.le (by norm_num)
      linarith
    have e3 : |1 / k * n| ≤ 1 + 17 / 4 / 2 ^ 24 := off_le e2 (by rw [abs_one])
    have e4 : |s * n - 1 / k * n| ≤ (1 + 17 / 4 / 2 ^ 24) * (17 / 16 / 2 ^ 24) := by
      rw [← sub_mul, abs_mul, abs_of_pos hn0]
      refine (mul_le_mul_of_nonneg_right k3 hn0.le).trans ?_
      rw [abs_of_pos (mul_pos (div_pos one_pos hk0) hn0)] at e3
      calc 1 / k * (17 / 16 / 2 ^ 24) * n = 1 / k * n * (17 / 16 / 2 ^ 24) := by ring
        _ ≤ _ := mul_le_mul_of_nonneg_right e3 (by norm_num)
    exact (off_trans e4 e2).trans (by norm_num)
  -- the mean
  have hr : 0 < 1 / n := by positivity
  have hnr : n * (1 / n) = 1 := by field_simp
  have hTn : |T / n| ≤ M := by
    rw [abs_div, abs_of_pos hn0, div_le_iff₀ hn0, mul_comm]
    exact hT
  have k5 : |q / n - T / n| ≤ ε + 4 * M / 2 ^ 24 := by
    rw [← sub_div, abs_div, abs_of_pos hn0, div_le_iff₀ hn0, mul_comm]
    exact hq
  have hu : 4 * M / 2 ^ 24 ≤ M / 2 ^ 20 := by
    rw [mul_comm, mul_div_assoc, div_eq_mul_one_div M]
    exact mul_le_mul_of_nonneg_left (by norm_num) hM0.le
  have k6 : |(s * n) * (q / n) - 1 * (T / n)| ≤ 6 / 2 ^ 24 * (8 / 5 * M) + 1 * (ε + 4 * M / 2 ^ 24) := by
    refine off_prod k4 k5 (by rw [abs_one]) ((off_le k5 hTn).trans ?_)
    have : M / 2 ^ 20 ≤ M / 100 := div_le_div_of_nonneg_left hM0.le (by norm_num) (by norm_num)
    linarith
  have e5 : (s * n) * (q / n) = s * q := by field_simp
  rw [e5, one_mul, one_mul] at k6
  have k7 : |-s * q - -(T / n)| ≤ ε + 14 * M / 2 ^ 24 := by
    have e6 : -s * q - -(T / n) = -(s * q - T / n) := by ring
    rw [e6, abs_neg]
    refine k6.trans ?_
    have e7 : ε + 14 * M / 2 ^ 24 - (6 / 2 ^ 24 * (8 / 5 * M) + (ε + 4 * M / 2 ^ 24)) = M * (2 / 5 / 2 ^ 24) := by ring
    have : 0 ≤ M * (2 / 5 / 2 ^ 24) := by positivity
    linarith
  have hu' : 14 * M / 2 ^ 24 ≤ M / 10 := by
    rw [mul_comm, mul_div_assoc, div_eq_mul_one_div M]
    exact mul_le_mul_of_nonneg_left (by norm_num) hM0.le
  have hu2 : 2 * M / 2 ^ 24 ≤ M / 10 := by
    rw [mul_comm, mul_div_assoc, div_eq_mul_one_div M]
    exact mul_le_mul_of_nonneg_left (by norm_num) hM0.le
  have k8 : |-s * q| ≤ 8 / 5 * M := (off_le (B := M) k7 (by rwa [abs_neg])).trans (by linarith)
  have k9 : |X + -s * q| ≤ 13 / 5 * M := (abs_add_le _ _).trans (by linarith)
  obtain ⟨z, e6, k10⟩ := plusF_off (m₁ := 2 * M) (m₂ := 3 * M) (neg_is e1) hx hy (by linarith) (by linarith) (by linarith)
    (by linarith) (by norm_num at hM' ⊢; linarith)
  refine ⟨z, e6, ?_⟩
  have k11 : |(X + -s * q) - (X - T / n)| ≤ ε + 14 * M / 2 ^ 24 := by
    have : (X + -s * q) - (X - T / n) = -s * q - -(T / n) := by ring
    rw [this]
    exact k7
  refine (off_trans k10 k11).trans ?_
  have e7 : ε + 20 * M / 2 ^ 24 - ((2 * M + 3 * M) / 2 ^ 24 + (ε + 14 * M / 2 ^ 24)) = M / 2 ^ 24 := by ring
  have : 0 ≤ M / 2 ^ 24 := by positivity
  linarith

end Verif.Ieee
