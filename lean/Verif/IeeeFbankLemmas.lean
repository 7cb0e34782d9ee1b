import Verif.IeeeFbankSpec
import Verif.IeeeLemmas
import Verif.FbankInitLemmas
import Verif.SrfftSize

/-!
# Lemmas about the size of numbers in the feature extraction
-/

namespace Verif.Ieee

open Verif Verif.Srfft Verif.Ieee.Spec

variable {f g : Format} [Good f] [Good g]

/-! ## Rounding between numbers of the format -/

theorem fit_between {lo hi q : ℚ} (h1 : Rep f lo) (h2 : Rep f hi) (h3 : lo ≤ q) (h4 : q ≤ hi) :
    ∃ r, Is (fit f q) r ∧ lo ≤ r ∧ r ≤ hi := by
  have e1 := round_mono f Good.prec h3
  have e2 := round_mono f Good.prec h4
  rw [round_self Good.prec h1.1] at e1
  rw [round_self Good.prec h2.1] at e2
  rcases fit_cases (f := f) q with ⟨h, e⟩ | ⟨-, e⟩ | ⟨-, e⟩
  · exact ⟨_, ⟨h, e⟩, e1, e2⟩
  · have := (abs_lt.mp h2.2).2
    linarith
  · have := (abs_lt.mp h1.2).1
    linarith

theorem rep_minus {q : ℚ} (h : Rep f q) : Rep f (-q) := by
  obtain ⟨⟨m, k, h1, h2, h3⟩, h4⟩ := h
  exact ⟨⟨-m, k, by rwa [abs_neg], h2, by rw [h3]; push_cast; ring⟩, by rwa [abs_neg]⟩

theorem fit_le {B q : ℚ} (hB : Rep f B) (hq : |q| ≤ B) : ∃ r, Is (fit f q) r ∧ |r| ≤ B := by
  obtain ⟨r, e, h1, h2⟩ := fit_between (rep_minus hB) hB (neg_le_of_abs_le hq) (le_of_abs_le hq)
  exact ⟨r, e, abs_le.mpr ⟨h1, h2⟩⟩

/-- `n * 2^k` with a small `n`. -/
theorem rep_scale {n : ℕ} {k : ℤ} (hn : n < 2 ^ f.prec) (hk : f.low ≤ k) (ht : (f.prec : ℤ) + k ≤ f.top) :
    Rep f (n * pow2 k) := by
  refine ⟨⟨n, k, ?_, hk, by push_cast; rfl⟩, ?_⟩
  · rw [abs_of_nonneg (by positivity)]; exact_mod_cast hn
  · rw [abs_of_nonneg (mul_nonneg (by positivity) (pow2_pos k).le)]
    refine lt_of_lt_of_le ?_ (pow2_le ht)
    rw [pow2_add, pow2_nat]
    push_cast
    have : ((n : ℕ) : ℚ) < 2 ^ f.prec := by exact_mod_cast hn
    exact mul_lt_mul_of_pos_right this (pow2_pos k)

theorem rep_pow {a : ℕ} (h : (a : ℤ) < f.top) : Rep f (2 ^ a) := by
  have e : (2 : ℚ) ^ a = pow2 a := by rw [pow2_nat]; push_cast; rfl
  refine ⟨⟨1, a, ?_, le_trans Good.low (by positivity), by rw [e]; push_cast; ring⟩, ?_⟩
  · have : 0 < f.prec := Good.prec
    rw [abs_one]
    exact one_lt_pow₀ (by norm_num) (by omega)
  · rw [abs_of_nonneg (by positivity), e, pow2_eq, pow2_eq]
    exact zpow_lt_zpow_right₀ (by norm_num) h

theorem Is.unique {x : Fl f} {p q : ℚ} (h1 : Is x p) (h2 : Is x q) : p = q := by
  obtain ⟨_, rfl⟩ := h1
  obtain ⟨_, e⟩ := h2
  cases e
  rfl

theorem add_is {x y : Fl f} {p q : ℚ} (h1 : Is x p) (h2 : Is y q) : add x y = fit f (p + q) := by
  obtain ⟨_, rfl⟩ := h1
  obtain ⟨_, rfl⟩ := h2
  rfl

theorem neg_is {x : Fl f} {p : ℚ} (h : Is x p) : Is (neg x) (-p) := by
  obtain ⟨h, rfl⟩ := h
  exact ⟨rep_minus h, fit_rep (rep_minus h)⟩

theorem sub_is {x y : Fl f} {p q : ℚ} (h1 : Is x p) (h2 : Is y q) : sub x y = fit f (p - q) := by
  rw [sub_eq_add_neg]
  exact add_is h1 (neg_is h2)

theorem mul_is {x y : Fl f} {p q : ℚ} (h1 : Is x p) (h2 : Is y q) : mul x y = fit f (p * q) := by
  obtain ⟨_, rfl⟩ := h1
  obtain ⟨_, rfl⟩ := h2
  rfl

theorem div_is {x y : Fl f} {p q : ℚ} (h1 : Is x p) (h2 : Is y q) (hq : q ≠ 0) : div x y = fit f (p / q) := by
  obtain ⟨_, rfl⟩ := h1
  obtain ⟨_, rfl⟩ := h2
  show (if _ then _ else _) = _
  rw [if_neg hq]

theorem lt_is {x y : Fl f} {p q : ℚ} (h1 : Is x p) (h2 : Is y q) : lt x y = decide (p < q) := by
  obtain ⟨_, rfl⟩ := h1
  obtain ⟨_, rfl⟩ := h2
  rfl

theorem le_is {x y : Fl f} {p q : ℚ} (h1 : Is x p) (h2 : Is y q) : le x y = decide (p ≤ q) := by
  obtain ⟨_, rfl⟩ := h1
  obtain ⟨_, rfl⟩ := h2
  show (!false && !false && !decide (q < p)) = _
  by_cases h : p ≤ q <;> simp [h, not_lt.mpr, not_le.mp]

theorem double_is {x : F32} {p : ℚ} (h : Is x p) : Is (double x) p := by
  obtain ⟨h, rfl⟩ := h
  exact ⟨_, widen_num h⟩

theorem single_is {x : F64} {p : ℚ} (h : Is x p) : single x = fit binary32 p := by
  obtain ⟨_, rfl⟩ := h
  rfl

theorem fit_is {q : ℚ} (h : Rep f q) : Is (fit f q) q := ⟨h, fit_rep h⟩

theorem rep_small {n : ℕ} (hn : n < 2 ^ 24) : Rep binary32 (n : ℚ) := by
  have := rep_scale (f := binary32) (k := 0) hn (by decide) (by decide)
  rwa [pow2_zero, mul_one] at this

theorem top32 : binary32.top = 128 := rfl
theorem top64 : binary64.top = 1024 := rfl

/-! ## Sizes -/

/-- A number of at most `2^a`. -/
def Mag (a : ℕ) (x : Fl f) : Prop := ∃ q, Is x q ∧ |q| ≤ 2 ^ a

theorem Mag.mono {a b : ℕ} {x : Fl f} (h : a ≤ b) (hx : Mag a x) : Mag b x := by
  obtain ⟨q, e, hq⟩ := hx
  exact ⟨q, e, hq.trans (pow_le_pow_right₀ (by norm_num) h)⟩

theorem fit_mag {a : ℕ} (ha : (a : ℤ) < f.top) {q : ℚ} (hq : |q| ≤ 2 ^ a) : Mag a (fit f q) := fit_le (rep_pow ha) hq

theorem mag_add {a : ℕ} {x y : Fl f} (ha : ((a + 1 : ℕ) : ℤ) < f.top) (hx : Mag a x) (hy : Mag a y) : Mag (a + 1) (add x y) := by
  obtain ⟨p, e1, h1⟩ := hx
  obtain ⟨q, e2, h2⟩ := hy
  rw [add_is e1 e2]
  refine fit_mag ha ?_
  have := abs_add_le p q
  rw [pow_succ]
  linarith

theorem mag_neg {a : ℕ} {x : Fl f} (hx : Mag a x) : Mag a (neg x) := by
  obtain ⟨p, e1, h1⟩ := hx
  exact ⟨_, neg_is e1, by rwa [abs_neg]⟩

theorem mag_sub {a : ℕ} {x y : Fl f} (ha : ((a + 1 : ℕ) : ℤ) < f.top) (hx : Mag a x) (hy : Mag a y) : Mag (a + 1) (sub x y) :=
  mag_add ha hx (mag_neg hy)

theorem mag_mul {a b : ℕ} {x y : Fl f} (ha : ((a + b : ℕ) : ℤ) < f.top) (hx : Mag a x) (hy : Mag b y) : Mag (a + b) (mul x y) := by
  obtain ⟨p, e1, h1⟩ := hx
  obtain ⟨q, e2, h2⟩ := hy
  rw [mul_is e1 e2]
  refine fit_mag ha ?_
  rw [abs_mul, pow_add]
  exact mul_le_mul h1 h2 (abs_nonneg _) (by positivity)

theorem mag_double {a : ℕ} {x : F32} (hx : Mag a x) : Mag a (double x) := by
  obtain ⟨p, e1, h1⟩ := hx
  exact ⟨p, double_is e1, h1⟩

theorem mag_single {a : ℕ} (ha : a ≤ 127) {x : F64} (hx : Mag a x) : Mag a (single x) := by
  obtain ⟨p, e1, h1⟩ := hx
  rw [single_is e1]
  exact fit_mag (by rw [top32]; omega) h1

theorem mag_nat {n a : ℕ} (ha : (a : ℤ) < f.top) (h : n ≤ 2 ^ a) : Mag a (ofNat n : Fl f) := by
  refine fit_mag ha ?_
  rw [abs_of_nonneg (by positivity)]
  exact_mod_cast h

/-- A quotient by a whole number. -/
theorem mag_div {a n : ℕ} (ha : (a : ℤ) < f.top) {x : Fl f} (hx : Mag a x) (hn : 0 < n) (hr : Rep f (n : ℚ)) :
    Mag a (div x (ofNat n)) := by
  obtain ⟨p, e1, h1⟩ := hx
  have h1' : (1 : ℚ) ≤ n := by exact_mod_cast hn
  have hr' : Is (ofNat n : Fl f) n := fit_is hr
  rw [div_is e1 hr' (by positivity)]
  refine fit_mag ha ?_
  rw [abs_div, abs_of_pos (show (0 : ℚ) < n by linarith)]
  exact (div_le_self (abs_nonneg p) h1').trans h1

theorem mag_twoPi : Mag 3 twoPi := by
  refine fit_mag (by decide) ?_
  rw [abs_of_nonneg (by norm_num)]
  norm_num

theorem mag_twoPi' : Mag 3 twoPi' := by
  refine fit_mag (by decide) ?_
  rw [abs_of_nonneg (by norm_num)]
  norm_num

theorem rep64 {n : ℕ} (hn : n < 2 ^ 53) : Rep binary64 (n : ℚ) := by
  have := rep_scale (f := binary64) (k := 0) hn (by decide) (by decide)
  rwa [pow2_zero, mul_one] at this

theorem mag_ang (lib : Lib) {n m : ℕ} (hm : 0 < m) (hm' : m ≤ 2 ^ 30) (hn : n ≤ 3 * m) : Mag 35 ((fftOps lib).ang n m) := by
  refine mag_single (by omega) (mag_div (by decide) ?_ hm (rep64 (lt_of_le_of_lt hm' (by norm_num))))
  exact mag_mul (a := 32) (by decide) (mag_nat (by decide) (by omega)) mag_twoPi

theorem mag_cos {lib : Lib} (hl : LibLaws lib) {a : ℕ} {x : F32} (h : Mag a x) : Mag 0 (lib.cos x) := by
  obtain ⟨q, e, -⟩ := h
  obtain ⟨c, e, h⟩ := hl.cos e
  exact ⟨c, e, by simpa using h⟩

theorem mag_sin {lib : Lib} (hl : LibLaws lib) {a : ℕ} {x : F32} (h : Mag a x) : Mag 0 (lib.sin x) := by
  obtain ⟨q, e, -⟩ := h
  obtain ⟨c, e, h, -⟩ := hl.sin e
  exact ⟨c, e, by simpa using h⟩

/-- The arithmetic of the FFT and sizes up to 2^127. -/
theorem fft_sizes {lib : Lib} (hl : LibLaws lib) : Sizes (fftOps lib) Mag 127 where
  mono h hx := hx.mono h
  add {a _ _} h hx hy := mag_add (by rw [top32]; omega) hx hy
  sub {a _ _} h hx hy := mag_sub (by rw [top32]; omega) hx hy
  mul {a b _ _} h hx hy := mag_mul (by rw [top32]; omega) hx hy
  neg hx := mag_neg hx
  half {a x} hx := by
    obtain ⟨q, ⟨hr, rfl⟩, h⟩ := hx
    have hh : Rep binary64 (1 / 2) := by
      have := rep_scale (f := binary64) (n := 1) (k := -1) (by decide) (by decide) (by decide)
      rwa [show ((1 : ℕ) : ℚ) * pow2 (-1) = 1 / 2 by rw [pow2_eq]; norm_num] at this
    have hd : |1 / 2 * q| ≤ 2 ^ a := by
      rw [abs_mul, abs_of_pos (show (0 : ℚ) < 1 / 2 by norm_num)]
      rw [pow_succ] at h
      linarith
    by_cases ha : a ≤ 127
    · show Mag a (single (mul (fit _ (1 / 2)) (double (.num q hr))))
      rw [mul_is (fit_is hh) (double_is ⟨hr, rfl⟩)]
      exact mag_single ha (fit_mag (by rw [top64]; omega) hd)
    · have hq : |q| ≤ 2 ^ 128 := by
        have := hr.2.le
        rwa [show pow2 binary32.top = 2 ^ 128 by rw [pow2_eq]; rfl] at this
      have hd' : |1 / 2 * q| ≤ 2 ^ 127 := by
        rw [abs_mul, abs_of_pos (show (0 : ℚ) < 1 / 2 by norm_num)]
        rw [pow_succ] at hq
        linarith
      refine Mag.mono (a := 127) (by omega) ?_
      show Mag 127 (single (mul (fit _ (1 / 2)) (double (.num q hr))))
      rw [mul_is (fit_is hh) (double_is ⟨hr, rfl⟩)]
      exact mag_single (by omega) (fit_mag (by decide) hd')
  sqhalf := mag_single (by omega) (fit_mag (by decide) (by rw [abs_of_nonneg (by norm_num)]; norm_num))
  cos hm hm' hn := mag_single (by omega) (mag_cos hl (mag_ang lib hm hm' hn))
  sin hm hm' hn := mag_single (by omega) (mag_sin hl (mag_ang lib hm hm' hn))

/-! ## The powers of the root -/

/-- Bounds for the powers of the root of unity, in units of 2^-10. -/
def grow : ℕ → ℕ
  | 0 => 1024
  | k + 1 => grow k + grow k / 64 + 1

theorem grow_mono {i j : ℕ} (h : i ≤ j) : grow i ≤ grow j := by
  induction h with
  | refl => exact Nat.le_refl _
  | @step m _ ih => exact ih.trans (show grow m ≤ grow m + grow m / 64 + 1 by omega)

theorem grow_le {i : ℕ} (h : i ≤ 128) : grow i ≤ 16384 := (grow_mono h).trans (by decide +kernel)

theorem rep_ten {n : ℕ} (h : n < 2 ^ 24) : Rep binary32 (n * pow2 (-10)) := rep_scale h (by decide) (by decide)
theorem rep_sixteen {n : ℕ} (h : n < 2 ^ 24) : Rep binary32 (n * pow2 (-16)) := rep_scale h (by decide) (by decide)

theorem turn_bound {n : ℕ} (hn : n < 2 ^ 20) {rr ri a b : F32} {p q s t : ℚ} (h1 : Is rr p) (h2 : Is ri q) (h3 : Is a s)
    (h4 : Is b t) (hp : |p| ≤ 1) (hq : |q| ≤ 1 / 64) (hs : |s| ≤ n * pow2 (-10)) (ht : |t| ≤ n * pow2 (-10)) :
    ∃ u, Is (sub (mul a rr) (mul b ri)) u ∧ |u| ≤ (n + n / 64 + 1 : ℕ) * pow2 (-10) ∧
    ∃ v, Is (add (mul a ri) (mul b rr)) v ∧ |v| ≤ (n + n / 64 + 1 : ℕ) * pow2 (-10) := by
  have hu := pow2_pos (-10)
  have e16 : pow2 (-16) = pow2 (-10) / 64 := by rw [pow2_eq, pow2_eq]; norm_num
  have big : ∀ {x y : F32} {i j : ℚ}, Is x i → Is y j → |i| ≤ n * pow2 (-10) → |j| ≤ 1 →
      ∃ r, Is (mul x y) r ∧ |r| ≤ n * pow2 (-10) := by
    intro x y i j e1 e2 hi hj
    rw [mul_is e1 e2]
    refine fit_le (rep_ten (by omega)) ?_
    rw [abs_mul]
    calc |i| * |j| ≤ |i| * 1 := mul_le_mul_of_nonneg_left hj (abs_nonneg _)
      _ ≤ _ := by rw [mul_one]; exact hi
  have small : ∀ {x y : F32} {i j : ℚ}, Is x i → Is y j → |i| ≤ n * pow2 (-10) → |j| ≤ 1 / 64 →
      ∃ r, Is (mul x y) r ∧ |r| ≤ n * pow2 (-10) / 64 := by
    intro x y i j e1 e2 hi hj
    rw [mul_is e1 e2]
    have := fit_le (f := binary32) (q := i * j) (rep_sixteen (n := n) (by omega)) (by
      rw [abs_mul, e16]
      calc |i| * |j| ≤ (n * pow2 (-10)) * (1 / 64) := mul_le_mul hi hj (abs_nonneg _) (le_trans (abs_nonneg _) hi)
        _ = _ := by ring)
    rw [e16] at this
    obtain ⟨r, e, h⟩ := this
    exact ⟨r, e, h.trans (by rw [← mul_div_assoc])⟩
  have hd : (n : ℚ) / 64 ≤ ((n / 64 : ℕ) : ℚ) + 1 := by
    have : n ≤ 64 * (n / 64) + 64 := by omega
    have : (n : ℚ) ≤ 64 * ((n / 64 : ℕ) : ℚ) + 64 := by exact_mod_cast this
    linarith
  have hsum : n * pow2 (-10) + n * pow2 (-10) / 64 ≤ (n + n / 64 + 1 : ℕ) * pow2 (-10) := by
    push_cast
    have := mul_le_mul_of_nonneg_right hd hu.le
    linarith
  obtain ⟨r1, e1, k1⟩ := big h3 h1 hs hp
  obtain ⟨r2, e2, k2⟩ := small h4 h2 ht hq
  obtain ⟨r3, e3, k3⟩ := small h3 h2 hs hq
  obtain ⟨r4, e4, k4⟩ := big h4 h1 ht hp
  obtain ⟨u, eu, ku⟩ := fit_le (f := binary32) (q := r1 - r2) (rep_ten (n := n + n / 64 + 1) (by omega)) (by
    have := abs_sub r1 r2
    linarith)
  obtain ⟨v, ev, kv⟩ := fit_le (f := binary32) (q := r3 + r4) (rep_ten (n := n + n / 64 + 1) (by omega)) (by
    have := abs_add_le r3 r4
    linarith)
  exact ⟨u, by rw [sub_is e1 e2]; exact eu, ku, v, by rw [add_is e3 e4]; exact ev, kv⟩

theorem root_small {lib : Lib} : ∃ q, Is ((fftOps lib).rootAng 512 (-1)) q ∧ |q| ≤ 1 / 64 := by
  have : ∃ q, Is (single (mul (div twoPi (ofNat 512)) (fit _ (((-1 : ℤ)) : ℚ)))) q ∧ |q| ≤ 1 / 64 := by
    have h1 : Rep binary64 (7 / 512) := by
      have := rep_scale (f := binary64) (n := 7) (k := -9) (by decide) (by decide) (by decide)
      rwa [show ((7 : ℕ) : ℚ) * pow2 (-9) = 7 / 512 by rw [pow2_eq]; norm_num] at this
    have h1' : Rep binary32 (7 / 512) := by
      have := rep_scale (f := binary32) (n := 7) (k := -9) (by decide) (by decide) (by decide)
      rwa [show ((7 : ℕ) : ℚ) * pow2 (-9) = 7 / 512 by rw [pow2_eq]; norm_num] at this
    obtain ⟨t, et, ht⟩ := fit_le (f := binary64) (q := 6283185307179586476925286766559005 / 10 ^ 33) (rep64 (n := 7) (by decide)) (by
      rw [abs_of_nonneg (by norm_num)]; norm_num)
    obtain ⟨u, eu, hu⟩ := fit_le (f := binary64) (q := t / 512) h1 (by
      rw [abs_div, abs_of_pos (show (0 : ℚ) < 512 by norm_num)]
      have : |t| ≤ 7 := ht
      linarith)
    obtain ⟨v, ev, hv⟩ := fit_le (f := binary64) (q := u * ((-1 : ℤ) : ℚ)) h1 (by push_cast; rwa [mul_neg_one, abs_neg])
    obtain ⟨w, ew, hw⟩ := fit_le (f := binary32) (q := v) h1' hv
    refine ⟨w, ?_, by linarith⟩
    have hm : Is (fit binary64 (((-1 : ℤ)) : ℚ)) ((-1 : ℤ) : ℚ) := by
      have := fit_is (rep_minus (rep64 (n := 1) (by decide)))
      push_cast at this ⊢
      exact this
    have e1 : div twoPi (ofNat 512) = fit binary64 (t / 512) := by
      have := div_is (f := binary64) (x := twoPi) (y := ofNat 512) et (fit_is (rep64 (n := 512) (by decide))) (by norm_num)
      simpa using this
    rw [e1, mul_is eu hm, single_is ev]
    exact ew
  exact this

theorem turns_mag {lib : Lib} (hl : LibLaws lib) : ∀ i, i ≤ 128 →
    ∃ s t, Is (turns (fftOps lib) ((fftOps lib).cos ((fftOps lib).rootAng 512 (-1)))
        ((fftOps lib).sin ((fftOps lib).rootAng 512 (-1))) i).1 s ∧ |s| ≤ grow i * pow2 (-10) ∧
      Is (turns (fftOps lib) ((fftOps lib).cos ((fftOps lib).rootAng 512 (-1)))
        ((fftOps lib).sin ((fftOps lib).rootAng 512 (-1))) i).2 t ∧ |t| ≤ grow i * pow2 (-10) := by
  obtain ⟨q, eq, hq⟩ := root_small (lib := lib)
  obtain ⟨c, ec, hc⟩ := hl.cos eq
  obtain ⟨s, es, -, hs⟩ := hl.sin eq
  obtain ⟨rr, er, hr⟩ := fit_le (f := binary32) (q := c) (rep_small (n := 1) (by decide)) (by simpa using hc)
  have h64 : Rep binary32 (1 / 64) := by
    have := rep_scale (f := binary32) (n := 1) (k := -6) (by decide) (by decide) (by decide)
    rwa [show ((1 : ℕ) : ℚ) * pow2 (-6) = 1 / 64 by rw [pow2_eq]; norm_num] at this
  obtain ⟨ri, ei, hi⟩ := fit_le (f := binary32) (q := s) h64 (hs hq)
  have er' : Is ((fftOps lib).cos ((fftOps lib).rootAng 512 (-1))) rr := by
    show Is (single (lib.cos _)) rr
    rw [single_is ec]
    exact er
  have ei' : Is ((fftOps lib).sin ((fftOps lib).rootAng 512 (-1))) ri := by
    show Is (single (lib.sin _)) ri
    rw [single_is es]
    exact ei
  intro i
  induction i with
  | zero =>
    intro _
    have e1 : ((1024 : ℕ) : ℚ) * pow2 (-10) = 1 := by rw [pow2_eq]; norm_num
    refine ⟨1, 0, ?_, ?_, ?_, ?_⟩
    · show Is (fit binary32 ((1 : ℤ) : ℚ)) 1
      have := fit_is (rep_small (n := 1) (by decide))
      simpa using this
    · show |(1 : ℚ)| ≤ ((1024 : ℕ) : ℚ) * pow2 (-10)
      rw [e1, abs_one]
    · show Is (fit binary32 ((0 : ℤ) : ℚ)) 0
      have := fit_is (f := binary32) rep_zero
      simpa using this
    · show |(0 : ℚ)| ≤ ((1024 : ℕ) : ℚ) * pow2 (-10)
      rw [e1, abs_zero]
      norm_num
  | succ i ih =>
    intro hi'
    obtain ⟨s, t, h1, h2, h3, h4⟩ := ih (by omega)
    have hg := grow_le (i := i) (by omega)
    obtain ⟨u, e1, k1, v, e2, k2⟩ := turn_bound (n := grow i) (by omega) er' ei' h1 h3 (by simpa using hr) hi h2 h4
    exact ⟨u, v, e1, k1, e2, k2⟩

/-- The FFT: numbers up to 2^34 become numbers up to 2^56. -/
theorem fft_mag {lib : Lib} (hl : LibLaws lib) {x b : List F32} (hx : Ar Mag 512 (fun _ => 34) x) (hb : b.length = 512) :
    Safe (compute (fftOps lib) (made (fftOps lib) 8) x x.length true b b.length) (fun r => Ar Mag 512 (fun _ => 56) r.1) := by
  refine compute_size (fft_sizes hl) (k := 8) (a := 34) (by decide) (by decide) ?_ hx (by rw [hx.1]; decide) (by rw [hb]; decide)
    (by rw [hb]; decide)
  intro i hi
  obtain ⟨s, t, h1, h2, h3, h4⟩ := turns_mag hl i (by omega)
  have hg : ((grow i : ℕ) : ℚ) ≤ 16384 := by exact_mod_cast grow_le (i := i) (by omega)
  have : (grow i : ℚ) * pow2 (-10) ≤ 2 ^ 4 := by
    calc (grow i : ℚ) * pow2 (-10) ≤ 16384 * pow2 (-10) := mul_le_mul_of_nonneg_right hg (pow2_pos _).le
      _ = 2 ^ 4 := by rw [pow2_eq]; norm_num
  exact ⟨⟨s, h1, h2.trans this⟩, ⟨t, h3, h4.trans this⟩⟩

end Verif.Ieee
