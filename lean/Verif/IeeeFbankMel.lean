import Verif.IeeeFbankLemmas
import Verif.FbankReal

/-!
# Lemmas about the mel filters the machine computes
-/

namespace Verif.Ieee

open Verif Verif.Srfft Verif.Ieee.Spec Verif.Fbank

/-! ## Numbers near a real number -/

/-- A number at most `e` away from `r`. -/
def Near (x : F32) (r e : ℝ) : Prop := ∃ q : ℚ, Is x q ∧ |(q : ℝ) - r| ≤ e

theorem is_round {q r : ℚ} (h : Is (fit binary32 q) r) : r = round binary32 q := by
  obtain ⟨h, e⟩ := h
  rcases fit_cases (f := binary32) q with ⟨h', e'⟩ | ⟨e', -⟩ | ⟨e', -⟩ <;> rw [e'] at e <;> cases e
  rfl

theorem fit_near {q : ℚ} {r e : ℝ} {k : ℕ} (hk : k ≤ 127) (hq : |q| ≤ 2 ^ k) (h : |(q : ℝ) - r| ≤ e) :
    Near (fit binary32 q) r (e + 2 ^ k / 2 ^ 24) := by
  obtain ⟨p, e1, h1⟩ := fit_le (f := binary32) (rep_pow (a := k) (by rw [top32]; omega)) hq
  refine ⟨p, e1, ?_⟩
  have h2 : |p - q| ≤ 2 ^ k / 2 ^ 24 := by
    rw [is_round e1]
    refine (round_err binary32 q).trans (max_le ?_ ?_)
    · have : pow2 (-((binary32.prec : ℕ) : ℤ)) = 1 / 2 ^ 24 := by rw [pow2_eq]; norm_num [binary32]
      rw [this, mul_one_div]
      exact div_le_div_of_nonneg_right hq (by positivity)
    · have : pow2 (binary32.low - 1) ≤ 1 / 2 ^ 24 := by
        rw [pow2_eq]
        calc (2 : ℚ) ^ (binary32.low - 1) ≤ 2 ^ (-24 : ℤ) := zpow_le_zpow_right₀ (by norm_num) (by decide)
          _ = 1 / 2 ^ 24 := by norm_num
      refine this.trans (div_le_div_of_nonneg_right (one_le_pow₀ (by norm_num)) (by positivity))
  have h3 : |(p : ℝ) - q| ≤ 2 ^ k / 2 ^ 24 := by
    have : ((|p - q| : ℚ) : ℝ) ≤ ((2 ^ k / 2 ^ 24 : ℚ) : ℝ) := Rat.cast_le.mpr h2
    push_cast at this
    exact this
  calc |(p : ℝ) - r| = |((p : ℝ) - q) + (q - r)| := by ring_nf
    _ ≤ |(p : ℝ) - q| + |(q : ℝ) - r| := abs_add_le _ _
    _ ≤ _ := by linarith

theorem Near.weaken {x : F32} {r e e' : ℝ} (h : Near x r e) (he : e ≤ e') : Near x r e' := by
  obtain ⟨q, e1, h1⟩ := h
  exact ⟨q, e1, h1.trans he⟩

theorem abs_rat {q : ℚ} {k : ℕ} {B : ℝ} (h : |(q : ℝ)| ≤ B) (hB : B ≤ 2 ^ k) : |q| ≤ 2 ^ k := by
  have := h.trans hB
  exact_mod_cast this

theorem near_abs {q : ℚ} {r e B : ℝ} (h : |(q : ℝ) - r| ≤ e) (hr : |r| ≤ B) : |(q : ℝ)| ≤ B + e := by
  calc |(q : ℝ)| = |((q : ℝ) - r) + r| := by ring_nf
    _ ≤ |(q : ℝ) - r| + |r| := abs_add_le _ _
    _ ≤ _ := by linarith

theorem near_add {x y : F32} {r s d e B : ℝ} {k : ℕ} (h1 : Near x r d) (h2 : Near y s e) (hB : |r + s| ≤ B)
    (hk : B + (d + e) ≤ 2 ^ k) (hk' : k ≤ 127) : Near (add x y) (r + s) (d + e + 2 ^ k / 2 ^ 24) := by
  obtain ⟨p, e1, h1⟩ := h1
  obtain ⟨q, e2, h2⟩ := h2
  rw [add_is e1 e2]
  have h3 : |((p + q : ℚ) : ℝ) - (r + s)| ≤ d + e := by
    push_cast
    calc |(p : ℝ) + q - (r + s)| = |((p : ℝ) - r) + (q - s)| := by ring_nf
      _ ≤ |(p : ℝ) - r| + |(q : ℝ) - s| := abs_add_le _ _
      _ ≤ _ := by linarith
  exact fit_near hk' (abs_rat (near_abs h3 hB) hk) h3

theorem near_sub {x y : F32} {r s d e B : ℝ} {k : ℕ} (h1 : Near x r d) (h2 : Near y s e) (hB : |r - s| ≤ B)
    (hk : B + (d + e) ≤ 2 ^ k) (hk' : k ≤ 127) : Near (sub x y) (r - s) (d + e + 2 ^ k / 2 ^ 24) := by
  obtain ⟨p, e1, h1⟩ := h1
  obtain ⟨q, e2, h2⟩ := h2
  rw [sub_is e1 e2]
  have h3 : |((p - q : ℚ) : ℝ) - (r - s)| ≤ d + e := by
    push_cast
    calc |(p : ℝ) - q - (r - s)| = |((p : ℝ) - r) - (q - s)| := by ring_nf
      _ ≤ |(p : ℝ) - r| + |(q : ℝ) - s| := abs_sub _ _
      _ ≤ _ := by linarith
  exact fit_near hk' (abs_rat (near_abs h3 hB) hk) h3

/-- A product with a whole number. -/
theorem near_scale {x y : F32} {n : ℕ} {r e B : ℝ} {k : ℕ} (hx : Is x n) (h : Near y r e) (hB : |(n : ℝ) * r| ≤ B)
    (hk : B + n * e ≤ 2 ^ k) (hk' : k ≤ 127) : Near (mul x y) (n * r) (n * e + 2 ^ k / 2 ^ 24) := by
  obtain ⟨q, e2, h2⟩ := h
  rw [mul_is hx e2]
  have h3 : |(((n : ℚ) * q : ℚ) : ℝ) - n * r| ≤ n * e := by
    push_cast
    rw [← mul_sub, abs_mul, abs_of_nonneg (show (0 : ℝ) ≤ n by positivity)]
    exact mul_le_mul_of_nonneg_left h2 (by positivity)
  exact fit_near hk' (abs_rat (near_abs h3 hB) hk) h3

/-- A quotient by a whole number. -/
theorem near_div {x y : F32} {n : ℕ} {r e B : ℝ} {k : ℕ} (hn : 0 < n) (hy : Is y n) (h : Near x r e) (hB : |r / n| ≤ B)
    (hk : B + e / n ≤ 2 ^ k) (hk' : k ≤ 127) : Near (div x y) (r / n) (e / n + 2 ^ k / 2 ^ 24) := by
  obtain ⟨q, e2, h2⟩ := h
  have hn' : (0 : ℝ) < n := by exact_mod_cast hn
  rw [div_is e2 hy (by exact_mod_cast hn.ne')]
  have h3 : |((q / (n : ℚ) : ℚ) : ℝ) - r / n| ≤ e / n := by
    push_cast
    rw [← sub_div, abs_div, abs_of_pos hn']
    exact div_le_div_of_nonneg_right h2 hn'.le
  exact fit_near hk' (abs_rat (near_abs h3 hB) hk) h3

/-! ## The mel scale -/

theorem log_lip {a b : ℝ} (ha : 1 ≤ a) (hb : 1 ≤ b) : |Real.log a - Real.log b| ≤ |a - b| := by
  have key : ∀ {a b : ℝ}, 1 ≤ a → 1 ≤ b → Real.log a - Real.log b ≤ |a - b| := by
    intro a b ha hb
    rw [← Real.log_div (by linarith) (by linarith)]
    have h1 := Real.log_le_sub_one_of_pos (show 0 < a / b by positivity)
    have h2 : a / b - 1 = (a - b) / b := by field_simp
    rw [h2] at h1
    calc Real.log (a / b) ≤ (a - b) / b := h1
      _ ≤ |a - b| / b := div_le_div_of_nonneg_right (le_abs_self _) (by linarith)
      _ ≤ |a - b| := div_le_self (abs_nonneg _) hb
  rw [abs_le]
  constructor
  · have := key hb ha
    rw [abs_sub_comm] at this
    linarith
  · exact key ha hb

theorem melOf_abs {f : ℝ} (h0 : 0 ≤ f) (h1 : f ≤ 8000) : |melOf f| ≤ 13000 := by
  unfold melOf
  have h2 : 1 ≤ 1 + f / 700 := by have := div_nonneg h0 (show (0 : ℝ) ≤ 700 by norm_num); linarith
  have h3 := Real.log_nonneg h2
  have h4 := Real.log_le_sub_one_of_pos (show 0 < 1 + f / 700 by linarith)
  have h5 : f / 700 ≤ 8000 / 700 := div_le_div_of_nonneg_right h1 (by norm_num)
  rw [abs_of_nonneg (by positivity)]
  have : (8000 : ℝ) / 700 ≤ 11.5 := by norm_num
  linarith

theorem mel_near {lib : Lib} (hl : LibLaws lib) {x : F32} {φ : ℚ} (hx : Is x φ) (h0 : 0 ≤ φ) (h1 : φ ≤ 8000) :
    Near ((fbank lib).melScale x) (melOf φ) (1 / 100) := by
  have i700 : Is (fit binary32 700) ((700 : ℕ) : ℚ) := fit_is (rep_small (n := 700) (by decide))
  have i1 : Is (fit binary32 1) 1 := by
    have := fit_is (rep_small (n := 1) (by decide)); simpa using this
  have i1127 : Is (fit binary32 1127) ((1127 : ℕ) : ℚ) := fit_is (rep_small (n := 1127) (by decide))
  have e1 : div x (fit binary32 700) = fit binary32 (φ / 700) := by
    have := div_is hx i700 (by norm_num); simpa using this
  have b0 : 0 ≤ φ / 700 := by positivity
  have b1 : φ / 700 ≤ 12 := by linarith
  obtain ⟨p, ep, p0, p1⟩ := fit_between (f := binary32) rep_zero (rep_small (n := 12) (by decide)) b0 (by exact_mod_cast b1)
  obtain ⟨p', ep', hp⟩ := fit_near (r := (φ : ℝ) / 700) (e := 0) (k := 4) (q := φ / 700) (by omega)
    (by rw [abs_of_nonneg b0]; linarith) (by push_cast; simp)
  obtain rfl := Is.unique ep ep'
  have p1' : p ≤ 12 := by exact_mod_cast p1
  obtain ⟨s, es, s0, s1⟩ := fit_between (f := binary32) (q := 1 + p) (rep_small (n := 1) (by decide)) (rep_small (n := 13) (by decide))
    (by push_cast; linarith) (by push_cast; linarith)
  obtain ⟨s', es', hs⟩ := fit_near (r := 1 + (φ : ℝ) / 700) (e := 0 + 2 ^ 4 / 2 ^ 24) (k := 4) (q := 1 + p) (by omega)
    (by rw [abs_of_nonneg (by linarith)]; linarith)
    (by push_cast; rwa [add_sub_add_left_eq_sub])
  obtain rfl := Is.unique es es'
  have s0 : 1 ≤ s := by exact_mod_cast s0
  have s1 : s ≤ 13 := by exact_mod_cast s1
  have ea : add (fit binary32 1) (div x (fit binary32 700)) = fit binary32 (1 + p) := by rw [e1]; exact add_is i1 ep
  obtain ⟨l, el, hll⟩ := hl.logf es s0 (by linarith)
  have s0' : (1 : ℝ) ≤ s := by exact_mod_cast s0
  have f0 : (1 : ℝ) ≤ 1 + φ / 700 := by
    have : (0 : ℝ) ≤ ((φ / 700 : ℚ) : ℝ) := by exact_mod_cast b0
    push_cast at this
    linarith
  have hlip := (log_lip s0' f0).trans hs
  have nl : Near (lib.logf (fit binary32 (1 + p))) (Real.log (1 + φ / 700)) (1 / 2 ^ 20 + (0 + 2 ^ 4 / 2 ^ 24 + 2 ^ 4 / 2 ^ 24)) := by
    refine ⟨l, el, ?_⟩
    calc |(l : ℝ) - Real.log (1 + φ / 700)| = |((l : ℝ) - Real.log s) + (Real.log s - Real.log (1 + φ / 700))| := by ring_nf
      _ ≤ _ := abs_add_le _ _
      _ ≤ _ := by linarith
  have hm := melOf_abs (f := (φ : ℝ)) (by exact_mod_cast h0) (by exact_mod_cast h1)
  show Near (mul (fit binary32 1127) (lib.logf (add (fit binary32 1) (div x (fit binary32 700))))) _ _
  rw [ea]
  have := near_scale (k := 15) i1127 nl (B := 13000) (by unfold melOf at hm; push_cast; exact hm) (by norm_num) (by omega)
  refine Near.weaken (e := ((1127 : ℕ) : ℝ) * (1 / 2 ^ 20 + (0 + 2 ^ 4 / 2 ^ 24 + 2 ^ 4 / 2 ^ 24)) + 2 ^ 15 / 2 ^ 24) ?_ (by norm_num)
  unfold melOf
  exact_mod_cast this

/-! ## Corners and bins -/

/-- `mel_low_freq` of the machine. -/
def lowMel (lib : Lib) : F32 := (fbank lib).melScale ((fbank lib).ofInt 20)

/-- `mel_freq_delta` of the machine. -/
def melStep (lib : Lib) : F32 :=
  (fbank lib).div ((fbank lib).sub ((fbank lib).melScale ((fbank lib).ofInt 8000)) (lowMel lib)) ((fbank lib).ofInt (fbankDim + 1))

/-- `fft_bin_width` of the machine. -/
def binWidth (lib : Lib) : F32 := (fbank lib).div ((fbank lib).ofInt 16000) ((fbank lib).ofInt 512)

theorem int_is (lib : Lib) {n : ℕ} (hn : n < 2 ^ 24) : Is ((fbank lib).ofInt n) n := by
  show Is (fit binary32 (((n : ℤ)) : ℚ)) n
  have := fit_is (rep_small hn)
  simpa using this

theorem int_is' (lib : Lib) {n : ℕ} {z : ℤ} (hz : z = n) (hn : n < 2 ^ 24) : Is ((fbank lib).ofInt z) n := by
  rw [hz]
  exact int_is lib hn

theorem width_is (lib : Lib) : Is (binWidth lib) (125 / 4) := by
  have h := div_is (int_is' lib (n := 16000) (z := 16000) rfl (by decide)) (int_is' lib (n := 512) (z := 512) rfl (by decide)) (by norm_num)
  have hr : Rep binary32 (125 / 4) := by
    have := rep_scale (f := binary32) (n := 125) (k := -2) (by decide) (by decide) (by decide)
    rwa [show ((125 : ℕ) : ℚ) * pow2 (-2) = 125 / 4 by rw [pow2_eq]; norm_num] at this
  unfold binWidth
  show Is (div _ _) _
  rw [h]
  norm_num
  exact fit_is hr

theorem bin_near {lib : Lib} (hl : LibLaws lib) {i : ℕ} (hi : i ≤ 256) : Near (melAt (fbank lib) (binWidth lib) i) (binMel i) (1 / 100) := by
  have hr : Rep binary32 (125 / 4 * i) := by
    have := rep_scale (f := binary32) (n := 125 * i) (k := -2) (by show _ < 2 ^ 24; omega) (by decide) (by decide)
    rwa [show ((125 * i : ℕ) : ℚ) * pow2 (-2) = 125 / 4 * i by rw [pow2_eq]; push_cast; norm_num; ring] at this
  have e1 : (fbank lib).mul (binWidth lib) ((fbank lib).ofInt i) = fit binary32 (125 / 4 * i) :=
    mul_is (width_is lib) (int_is lib (by omega))
  have hi' : (i : ℚ) ≤ 256 := by exact_mod_cast hi
  have h := mel_near hl (fit_is hr) (by positivity) (by linarith)
  unfold melAt
  rw [e1]
  unfold binMel
  have e2 : (31.25 : ℝ) * i = (((125 / 4 * i : ℚ)) : ℝ) := by push_cast; norm_num
  rw [e2]
  exact h

theorem low_near {lib : Lib} (hl : LibLaws lib) : Near (lowMel lib) (melOf 20) (1 / 100) := by
  have := mel_near hl (int_is' lib (n := 20) (z := 20) rfl (by decide)) (by norm_num) (by norm_num)
  unfold lowMel
  exact_mod_cast this

theorem high_near {lib : Lib} (hl : LibLaws lib) : Near ((fbank lib).melScale ((fbank lib).ofInt 8000)) (melOf 8000) (1 / 100) := by
  have := mel_near hl (int_is' lib (n := 8000) (z := 8000) rfl (by decide)) (by norm_num) (by norm_num)
  exact_mod_cast this

theorem gap_le : gap ≤ 400 := by
  have h1 := abs_le.mp (melOf_abs (f := 8000) (by norm_num) (by norm_num))
  have h2 : 0 ≤ melOf 20 := by
    unfold melOf
    have := Real.log_nonneg (show (1 : ℝ) ≤ 1 + 20 / 700 by norm_num)
    linarith
  unfold gap
  linarith [h1.2]

theorem step_near {lib : Lib} (hl : LibLaws lib) : Near (melStep lib) gap (1 / 1000) := by
  have h1 := melOf_abs (f := 8000) (by norm_num) (by norm_num)
  have h2 := melOf_abs (f := 20) (by norm_num) (by norm_num)
  have h3 := near_sub (k := 15) (B := 26000) (high_near hl) (low_near hl) ((abs_sub _ _).trans (by linarith)) (by norm_num) (by omega)
  have h4 := near_div (n := 41) (k := 9) (B := 400) (by norm_num) (int_is' lib (n := 41) (z := fbankDim + 1) rfl (by decide)) h3
    (by have := gap_le; have := gap_pos; unfold gap at *; rw [abs_of_pos (by exact_mod_cast this)]; exact_mod_cast ‹_ ≤ (400 : ℝ)›) (by norm_num) (by omega)
  unfold gap
  refine Near.weaken (e := (1 / 100 + 1 / 100 + 2 ^ 15 / 2 ^ 24) / ((41 : ℕ) : ℝ) + 2 ^ 9 / 2 ^ 24) ?_ (by norm_num)
  exact_mod_cast h4

/-- A corner of the filters on the machine. -/
theorem corner_near {lib : Lib} (hl : LibLaws lib) {b : ℕ} (hb : b ≤ 41) {z : ℤ} (hz : z = b) :
    Near ((fbank lib).add (lowMel lib) ((fbank lib).mul ((fbank lib).ofInt z) (melStep lib))) (bound b) (1 / 4) := by
  have hb' : (b : ℝ) ≤ 41 := by exact_mod_cast hb
  have hb0 : (0 : ℝ) ≤ b := by positivity
  have hg := gap_pos
  have hg' := gap_le
  have hbg : (b : ℝ) * gap ≤ 41 * 400 := mul_le_mul hb' hg' hg.le (by norm_num)
  have h1 := near_scale (k := 15) (B := 16400) (int_is' lib hz (by omega)) (step_near hl)
    (by rw [abs_of_nonneg (by positivity)]; linarith) (by
      have : (b : ℝ) * (1 / 1000) ≤ 41 * (1 / 1000) := mul_le_mul_of_nonneg_right hb' (by norm_num)
      norm_num at this ⊢
      linarith) (by omega)
  have h2 := melOf_abs (f := 20) (by norm_num) (by norm_num)
  have hbe : (b : ℝ) * (1 / 1000) ≤ 41 / 1000 := by linarith
  have h3 := near_add (k := 15) (B := 29400) (low_near hl) h1 ((abs_add_le _ _).trans (by
    rw [abs_of_nonneg (show 0 ≤ (b : ℝ) * gap by positivity)]; linarith)) (by norm_num at hbe ⊢; linarith) (by omega)
  unfold bound
  refine Near.weaken h3 ?_
  norm_num at hbe ⊢
  linarith

/-! ## Two bins well inside every filter -/

/-- For every filter a bin that lies well inside it, and so does the next one. -/
def innerBin : List ℕ := [2, 3, 5, 6, 8, 10, 12, 15, 17, 19, 22, 25, 28, 31, 34, 38, 42, 46, 50, 55, 60, 65, 70, 76,
  82, 89, 96, 103, 111, 120, 129, 138, 148, 159, 170, 183, 195, 209, 224, 239]

theorem innerBin_ok : ∀ b < 40, 102 * (2880 ^ (41 - b) * 34800 ^ b) < 100 * (2800 + 125 * innerBin.getD b 0) ^ 41 ∧
    102 * (2800 + 125 * (innerBin.getD b 0 + 1)) ^ 41 < 100 * (2880 ^ (41 - (b + 2)) * 34800 ^ (b + 2)) ∧
    innerBin.getD b 0 + 1 < 256 := by
  decide +kernel

theorem log_gap {a b : ℝ} (ha : 0 < a) (h : 102 * a ≤ 100 * b) : Real.log a + 1 / 52 ≤ Real.log b := by
  have hb : 0 < b := by linarith
  have h1 := Real.one_sub_inv_le_log_of_pos (show 0 < b / a by positivity)
  rw [Real.log_div hb.ne' ha.ne', inv_div] at h1
  have h2 : a / b ≤ 100 / 102 := by
    rw [div_le_div_iff₀ hb (by norm_num)]
    linarith
  norm_num at h2 ⊢
  linarith

theorem inner {b : ℕ} (hb : b < 40) :
    ∃ i, i + 1 < 256 ∧ bound b + 27 / 52 ≤ binMel i ∧ binMel (i + 1) + 27 / 52 ≤ bound (b + 2) := by
  obtain ⟨h1, h2, h3⟩ := innerBin_ok b hb
  refine ⟨_, h3, ?_, ?_⟩
  · have e1 := bound_log b (by omega)
    have e2 := binMel_log (innerBin.getD b 0)
    have := log_gap (a := ((2880 ^ (41 - b) * 34800 ^ b : ℕ) : ℝ) / 2800 ^ 41)
      (b := (((2800 + 125 * innerBin.getD b 0) ^ 41 : ℕ) : ℝ) / 2800 ^ 41) (by positivity) (by
        rw [← mul_div_assoc, ← mul_div_assoc]
        exact div_le_div_of_nonneg_right (by exact_mod_cast h1.le) (by positivity))
    linarith
  · have e1 := bound_log (b + 2) (by omega)
    have e2 := binMel_log (innerBin.getD b 0 + 1)
    have := log_gap (a := (((2800 + 125 * (innerBin.getD b 0 + 1)) ^ 41 : ℕ) : ℝ) / 2800 ^ 41)
      (b := ((2880 ^ (41 - (b + 2)) * 34800 ^ (b + 2) : ℕ) : ℝ) / 2800 ^ 41) (by positivity) (by
        rw [← mul_div_assoc, ← mul_div_assoc]
        exact div_le_div_of_nonneg_right (by exact_mod_cast h2.le) (by positivity))
    linarith

theorem near_lt {x y : F32} {r s d e : ℝ} (h1 : Near x r d) (h2 : Near y s e) (h : r + d + e < s) : lt x y = true := by
  obtain ⟨p, e1, h1⟩ := h1
  obtain ⟨q, e2, h2⟩ := h2
  rw [lt_is e1 e2, decide_eq_true_eq]
  have a1 := (abs_le.mp h1).2
  have a2 := (abs_le.mp h2).1
  have : (p : ℝ) < q := by linarith
  exact_mod_cast this

/-! ## The weights -/

/-- A number from 0 to `2^a`. -/
def Pos (a : ℕ) (x : F32) : Prop := ∃ q, Is x q ∧ 0 ≤ q ∧ q ≤ 2 ^ a

theorem fit_pos {a : ℕ} (ha : a ≤ 127) {q : ℚ} (h0 : 0 ≤ q) (h1 : q ≤ 2 ^ a) : Pos a (fit binary32 q) :=
  fit_between rep_zero (rep_pow (by rw [top32]; omega)) h0 h1

/-- Numbers of the format are not closer to each other than the smallest one. -/
theorem grid_diff {f : Format} {a b : ℚ} (ha : Grid f a) (hb : Grid f b) (h : a < b) : pow2 f.low ≤ b - a := by
  obtain ⟨m, j, -, hj, rfl⟩ := ha
  obtain ⟨n, k, -, hk, rfl⟩ := hb
  obtain ⟨u, -, eu⟩ := pow2_mul hj
  obtain ⟨v, -, ev⟩ := pow2_mul hk
  have hp := pow2_pos f.low
  rw [eu, ev] at h ⊢
  have e : (n : ℚ) * (((2 ^ v : ℤ) : ℚ) * pow2 f.low) - m * (((2 ^ u : ℤ) : ℚ) * pow2 f.low) =
      ((n * 2 ^ v - m * 2 ^ u : ℤ) : ℚ) * pow2 f.low := by push_cast; ring
  rw [e]
  have hz : 0 < n * 2 ^ v - m * 2 ^ u := by
    have h' : 0 < ((n * 2 ^ v - m * 2 ^ u : ℤ) : ℚ) * pow2 f.low := by rw [← e]; linarith
    have h'' := (mul_pos_iff_of_pos_right hp).mp h'
    exact_mod_cast h''
  have : (1 : ℚ) ≤ ((n * 2 ^ v - m * 2 ^ u : ℤ) : ℚ) := by exact_mod_cast hz
  calc pow2 f.low = 1 * pow2 f.low := (one_mul _).symm
    _ ≤ _ := mul_le_mul_of_nonneg_right this hp.le

/-- The quotient of two differences of numbers, the first of which is not the larger one. -/
theorem ratio_pos {x y z w : F32} {p q r s : ℚ} (h1 : Is x p) (h2 : Is y q) (h3 : Is z r) (h4 : Is w s) (hp : |p| ≤ 2 ^ 20)
    (hq : |q| ≤ 2 ^ 20) (hr : |r| ≤ 2 ^ 20) (hs : |s| ≤ 2 ^ 20) (h : q ≤ p) (h' : s < r) (hd : p - q ≤ r - s) :
    Pos 0 (div (sub x y) (sub z w)) := by
  rw [sub_is h1 h2, sub_is h3 h4]
  obtain ⟨u, eu, u0, -⟩ := fit_between (f := binary32) (q := p - q) rep_zero (rep_pow (a := 21) (by decide)) (by linarith)
    (by have := abs_le.mp hp; have := abs_le.mp hq; norm_num at *; linarith)
  have hlow : Rep binary32 (pow2 binary32.low) := by
    have := rep_scale (f := binary32) (n := 1) (k := binary32.low) (by decide) (by decide) (by decide)
    simpa using this
  obtain ⟨v, ev, v0, -⟩ := fit_between (f := binary32) (q := r - s) hlow (rep_pow (a := 21) (by decide))
    (grid_diff h4.1.1 h3.1.1 h') (by have := abs_le.mp hr; have := abs_le.mp hs; norm_num at *; linarith)
  have hv : 0 < v := lt_of_lt_of_le (pow2_pos _) v0
  have huv : u ≤ v := by
    rw [is_round eu, is_round ev]
    exact round_mono binary32 (by decide) hd
  rw [div_is eu ev hv.ne']
  refine fit_pos (by omega) (by positivity) ?_
  rw [div_le_iff₀ hv]
  simpa using huv

theorem near_size {x : F32} {r e : ℝ} (h : Near x r e) (hr : |r| + e ≤ 2 ^ 20) : ∃ q, Is x q ∧ |q| ≤ 2 ^ 20 := by
  obtain ⟨q, e1, h1⟩ := h
  refine ⟨q, e1, abs_rat (near_abs h1 (le_refl _)) hr⟩

theorem bound_abs {b : ℕ} (hb : b ≤ 41) : |bound b| ≤ 29400 := by
  have hb' : (b : ℝ) ≤ 41 := by exact_mod_cast hb
  have hg := gap_pos
  have hbg : (b : ℝ) * gap ≤ 41 * 400 := mul_le_mul hb' gap_le hg.le (by norm_num)
  have h2 := melOf_abs (f := 20) (by norm_num) (by norm_num)
  unfold bound
  refine (abs_add_le _ _).trans ?_
  rw [abs_of_nonneg (show 0 ≤ (b : ℝ) * gap by positivity)]
  linarith

theorem binMel_abs {i : ℕ} (hi : i ≤ 256) : |binMel i| ≤ 13000 := by
  have hi' : (i : ℝ) ≤ 256 := by exact_mod_cast hi
  refine melOf_abs (by positivity) (by norm_num; linarith)

theorem weight_pos' {lib : Lib} {left center right mel : F32} {p q r s : ℚ} (h1 : Is left p) (h2 : Is center q) (h3 : Is right r)
    (h4 : Is mel s) (hp : |p| ≤ 2 ^ 20) (hq : |q| ≤ 2 ^ 20) (hr : |r| ≤ 2 ^ 20) (hs : |s| ≤ 2 ^ 20) (hl : p < s) (hr' : s < r) :
    Pos 0 (binWeight (fbank lib) left center right mel) := by
  unfold binWeight
  show Pos 0 (if le mel center = true then div (sub mel left) (sub center left) else div (sub right mel) (sub right center))
  rw [le_is h4 h2]
  by_cases h : s ≤ q
  · rw [if_pos (by simpa using h)]
    exact ratio_pos h4 h1 h2 h1 hs hp hq hp hl.le (by linarith) (by linarith)
  · rw [if_neg (by simpa using h)]
    exact ratio_pos h3 h4 h3 h2 hr hs hr hq hr'.le (by linarith) (by linarith)

/-- A filter of the machine: it is made, it lies inside the spectrum, and its weights are numbers from 0 to 1. -/
theorem filter_ok {lib : Lib} (hl : LibLaws lib) {b : ℕ} (hb : b < 40) :
    ∃ r, melFilter (fbank lib) 256 (binWidth lib) (lowMel lib) (melStep lib) b = .ok r ∧ r.1 + r.2.length ≤ 256 ∧
      ∀ w ∈ r.2, Pos 0 w := by
  have n0 := corner_near hl (b := b) (by omega) (z := b) rfl
  have n1 := corner_near hl (b := b + 1) (by omega) (z := (b : ℤ) + 1) (by push_cast; rfl)
  have n2 := corner_near hl (b := b + 2) (by omega) (z := (b : ℤ) + 2) (by push_cast; rfl)
  have key := melFilter_ok (fbank lib) (num := 256) (by decide) (binWidth lib) (lowMel lib) (melStep lib) b rfl rfl
  obtain ⟨p, ep, hp⟩ := near_size n0 (by have := bound_abs (b := b) (by omega); norm_num; linarith)
  obtain ⟨q, eq, hq⟩ := near_size n1 (by have := bound_abs (b := b + 1) (by omega); norm_num; linarith)
  obtain ⟨r, er, hr⟩ := near_size n2 (by have := bound_abs (b := b + 2) (by omega); norm_num; linarith)
  rcases key with ⟨f, l, h1, h2, -, -, -, h6⟩ | ⟨h, -⟩
  · refine ⟨_, h6, ?_, ?_⟩
    · simp only
      rw [vec_length]
      omega
    · intro w hw
      obtain ⟨k, hk, rfl⟩ := mem_vec.mp hw
      split_ifs with hc
      · obtain ⟨s, es, hs⟩ := near_size (bin_near hl (i := f + k) (by omega))
          (by have := binMel_abs (i := f + k) (by omega); norm_num; linarith)
        unfold inside at hc
        rw [Bool.and_eq_true] at hc
        have c1 : lt _ (melAt (fbank lib) (binWidth lib) (f + k)) = true := hc.1
        have c2 : lt (melAt (fbank lib) (binWidth lib) (f + k)) _ = true := hc.2
        rw [lt_is ep es, decide_eq_true_eq] at c1
        rw [lt_is es er, decide_eq_true_eq] at c2
        exact weight_pos' ep eq er es hp hq hr hs c1 c2
      · exact fit_pos (by omega) (le_refl _) (by norm_num)
  · exfalso
    obtain ⟨i, hi, g1, g2⟩ := inner hb
    have hlt := binMel_lt (show i < i + 1 by omega)
    have m0 := bin_near hl (i := i) (by omega)
    have m1 := bin_near hl (i := i + 1) (by omega)
    have := h i (i + 1) (by omega) hi
      (by
        unfold inside
        rw [Bool.and_eq_true]
        exact ⟨near_lt n0 m0 (by linarith), near_lt m0 n2 (by linarith)⟩)
      (by
        unfold inside
        rw [Bool.and_eq_true]
        exact ⟨near_lt n0 m1 (by linarith), near_lt m1 n2 (by linarith)⟩)
    omega

/-- All filters of the machine. -/
theorem filters_ok {lib : Lib} (hl : LibLaws lib) : ∃ bins, melInit (fbank lib) 512 = .ok bins ∧ bins.length = 40 ∧
    ∀ b ∈ bins, b.1 + b.2.length ≤ 256 ∧ ∀ w ∈ b.2, Pos 0 w := by
  have hg : ∀ b : ℕ, ∃ r, b < 40 → melFilter (fbank lib) 256 (binWidth lib) (lowMel lib) (melStep lib) b = .ok r := by
    intro b
    by_cases hb : b < 40
    · obtain ⟨r, e, -⟩ := filter_ok hl hb
      exact ⟨r, fun _ => e⟩
    · exact ⟨(0, []), fun h => absurd h hb⟩
  choose g hg using hg
  refine ⟨(List.range 40).map g, ?_, by rw [List.length_map, List.length_range], ?_⟩
  · unfold melInit
    rw [decide_eq_true (by decide), cassert_true, ok_bind]
    simp only
    rw [vecInit_ok (by decide) (by decide), ok_bind, show ((512 : Int).tdiv 2).toNat = 256 by decide]
    exact mapM_ok _ _ _ (fun b hb => hg b (List.mem_range.mp hb))
  · intro r hr
    obtain ⟨b, hb, rfl⟩ := List.mem_map.mp hr
    have hb := List.mem_range.mp hb
    obtain ⟨r, e, h⟩ := filter_ok hl hb
    rw [hg b hb] at e
    cases e
    exact h

end Verif.Ieee
