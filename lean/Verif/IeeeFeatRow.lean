import Verif.IeeeFeatFrame

/-!
# Spectrum, powers and energies of a frame, in machine numbers
-/

namespace Verif.Ieee

open Verif Verif.Srfft Verif.Ieee.Spec Verif.Fbank Verif.Fbank.Spec Finset

variable {lib : Lib} {bins : List (ℕ × List F32)} {A : ℝ}

/-! ## The spectrum -/

theorem fourier_near {N : ℕ} {x y : ℕ → ℝ} {e : ℝ} (h : ∑ j ∈ range N, |x j - y j| ≤ e) (k : ℕ) :
    ‖fourier (-1) N (fun j => (x j : ℂ)) k - fourier (-1) N (fun j => (y j : ℂ)) k‖ ≤ e := by
  rw [fourier_dft, fourier_dft]
  unfold dft
  rw [← sum_sub_distrib]
  refine (norm_sum_le _ _).trans (le_trans (sum_le_sum fun j _ => ?_) h)
  rw [← sub_mul, norm_mul, ← Complex.ofReal_sub, Complex.norm_real, Real.norm_eq_abs]
  have : ‖root N (j * k)‖ = 1 := by
    unfold root
    rw [show (-(2 * Real.pi * ((j * k : ℕ) : ℂ) / N) * Complex.I : ℂ) = ((-(2 * Real.pi * ((j * k : ℕ) : ℝ) / N) : ℝ) : ℂ) * Complex.I by
      push_cast; ring]
    exact Complex.norm_exp_ofReal_mul_I _
  rw [this, mul_one]

theorem NearAt.weaken {l : List F32} {i : ℕ} {r s d e : ℝ} (h : NearAt l i r d) (hs : |r - s| ≤ e) : NearAt l i s (d + e) := by
  obtain ⟨v, q, h1, h2, h3⟩ := h
  exact ⟨v, q, h1, h2, near_trans h3 hs⟩

theorem re_near {a b : ℂ} {e : ℝ} (h : ‖a - b‖ ≤ e) : |a.re - b.re| ≤ e := by
  rw [← Complex.sub_re]
  exact (Complex.abs_re_le_norm _).trans h

theorem im_near {a b : ℂ} {e : ℝ} (h : ‖a - b‖ ≤ e) : |a.im - b.im| ≤ e := by
  rw [← Complex.sub_im]
  exact (Complex.abs_im_le_norm _).trans h

theorem windowed_at (x : List F32) (hx : x.length = 400) {j : ℕ} (hj : j < 400) (V : ℕ → F32) (hV : x = vec 400 V) :
    (windowed (builtWith lib bins) x)[j]? = some ((fbank lib).mul ((fbank lib).preemph
        ((fbank lib).sub (V j) ((fbank lib).div ((vec 400 V).foldl (fbank lib).add (fbank lib).zero) ((fbank lib).ofInt (400 : ℕ))))
        ((fbank lib).sub (V (j - 1)) ((fbank lib).div ((vec 400 V).foldl (fbank lib).add (fbank lib).zero) ((fbank lib).ofInt (400 : ℕ)))))
      ((fbank lib).hamm ((fbank lib).mul ((fbank lib).hammAngle 399) ((fbank lib).ofInt j)))) := by
  have ha : ∀ i, i < 400 → at_ (builtWith lib bins) x i = V i := by
    intro i hi
    unfold at_
    rw [hV, getD_of _ (vec_get V hi)]
  have hw : at_ (builtWith lib bins) (builtWith lib bins).window j =
      (fbank lib).hamm ((fbank lib).mul ((fbank lib).hammAngle 399) ((fbank lib).ofInt j)) := by
    unfold at_
    exact getD_of _ (vec_get (fun i : ℕ => (fbank lib).hamm ((fbank lib).mul ((fbank lib).hammAngle 399) ((fbank lib).ofInt i))) hj)
  unfold windowed
  simp only
  rw [List.getElem?_map, List.getElem?_range (by omega), Option.map_some, hw, ha j hj, ha (j - 1) (by omega), hx, hV]
  simp only [builtWith]

theorem spectrum_near (ht : TrigLaws lib) (h1 : 1 ≤ A) (h2 : A ≤ 2 ^ 31) {x : List F32} {f : ℕ → ℝ} (hx : x.length = 400)
    (h : ∀ i, i < 400 → |f i| ≤ A ∧ NearAt x i (f i) 0) :
    ∃ s, Fbank.Spec.spectrum (builtWith lib bins) x = .ok s ∧ s.length = 512 ∧
      PackedNear 512 s (fourier (-1) 512 (fun j => (shaped f j : ℂ))) (16 / 25 * A) := by
  have hA : 0 ≤ A := by linarith
  obtain ⟨V, hV⟩ : ∃ V : ℕ → F32, x = vec 400 V := ⟨_, by rw [← hx]; exact eq_getD x (fbank lib).zero⟩
  have hVf : ∀ i, i < 400 → |f i| ≤ A ∧ Worth (V i) (f i) := by
    intro i hi
    obtain ⟨g1, v, q, g2, g3, g4⟩ := h i hi
    rw [hV, vec_get V hi] at g2
    obtain rfl := Option.some.inj g2
    have : q = f i := by
      have := abs_le.mp g4
      linarith [this.1, this.2]
    rw [this] at g3
    exact ⟨g1, g3⟩
  -- the frame after windowing
  have key : ∀ j, ∃ r, (j < 400 → Worth ((fbank lib).mul ((fbank lib).preemph
        ((fbank lib).sub (V j) ((fbank lib).div ((vec 400 V).foldl (fbank lib).add (fbank lib).zero) ((fbank lib).ofInt (400 : ℕ))))
        ((fbank lib).sub (V (j - 1)) ((fbank lib).div ((vec 400 V).foldl (fbank lib).add (fbank lib).zero) ((fbank lib).ofInt (400 : ℕ)))))
      ((fbank lib).hamm ((fbank lib).mul ((fbank lib).hammAngle 399) ((fbank lib).ofInt j)))) r ∧
      |r - shaped f j| ≤ 900 * A / 2 ^ 24 ∧ |r| ≤ 4 * A) ∧ (400 ≤ j → r = 0) := by
    intro j
    by_cases hj : j < 400
    · obtain ⟨r, w, k, m⟩ := shaped_near ht h1 h2 hVf hj
      exact ⟨r, fun _ => ⟨w, k, m⟩, fun c => by omega⟩
    · exact ⟨0, fun c => by omega, fun _ => rfl⟩
  choose g hg hg' using key
  obtain ⟨d, ed⟩ : ∃ d, d = windowed (builtWith lib bins) x ++ List.replicate 112 (builtWith lib bins).zero := ⟨_, rfl⟩
  have hwl : (windowed (builtWith lib bins) x).length = 400 := by
    unfold windowed
    rw [List.length_map, List.length_range, hx]
  have hd : d.length = 512 := by rw [ed, List.length_append, List.length_replicate, hwl]
  have hdg : ∀ i, i < 512 → |g i| ≤ 4 * A ∧ NearAt d i (g i) 0 := by
    intro i hi
    by_cases c : i < 400
    · obtain ⟨w, -, m⟩ := hg i c
      refine ⟨m, _, _, ?_, w, by simp⟩
      rw [ed, List.getElem?_append_left (by omega)]
      exact windowed_at x hx c V hV
    · rw [hg' i (by omega)]
      refine ⟨by simpa using hA, (fbank lib).zero, 0, ?_, ⟨0, zero_is lib, by simp⟩, by simp⟩
      rw [ed, List.getElem?_append_right (by omega), hwl, List.getElem?_replicate, if_pos (by omega)]
      rfl
  obtain ⟨t, et, hf⟩ := C103_fbank ht
  rw [Srfft.new_pow (k := 8) (fftOps lib) (by omega) rfl] at et
  cases et
  obtain ⟨B, eB⟩ : ∃ B : List F32, B = List.replicate 512 (builtWith lib bins).zero := ⟨_, rfl⟩
  have hB : B.length = 512 := by rw [eB, List.length_replicate]
  obtain ⟨s, buf, e1, hl, hp⟩ := hf (4 * A) (by norm_num; linarith) (by norm_num at h2 ⊢; linarith) d B 512 (by omega) (by omega)
    (by norm_num) g hdg
  have hsum : ∑ j ∈ range 512, |g j - shaped f j| ≤ 22 / 1000 * A := by
    rw [show (512 : ℕ) = 400 + 112 by norm_num, sum_range_add]
    have z : ∑ j ∈ range 112, |g (400 + j) - shaped f (400 + j)| = 0 := by
      refine sum_eq_zero fun j _ => ?_
      rw [hg' (400 + j) (by omega)]
      unfold shaped
      rw [if_neg (by omega)]
      simp
    rw [z]
    have : ∑ j ∈ range 400, |g j - shaped f j| ≤ ∑ j ∈ range 400, 900 * A / 2 ^ 24 :=
      sum_le_sum fun j hj => (hg j (mem_range.mp hj)).2.1
    rw [sum_const, card_range, nsmul_eq_mul] at this
    push_cast at this
    linarith
  have hF := fourier_near hsum
  refine ⟨s, ?_, by rw [hl, hd], ?_⟩
  · unfold Fbank.Spec.spectrum
    rw [← ed, ← eB]
    show Except.map Prod.fst (compute (fftOps lib) (made (fftOps lib) 8) d d.length true B B.length) = _
    rw [hd, hB, show ((512 : ℕ) : Int) = 512 from rfl, e1]
    rfl
  · have up : ∀ {i : ℕ} {r r' : ℝ}, NearAt s i r (153 / 1000 * (4 * A)) → |r - r'| ≤ 22 / 1000 * A → NearAt s i r' (16 / 25 * A) := by
      intro i r r' a b
      obtain ⟨v, q, b1, b2, b3⟩ := a.weaken b
      exact ⟨v, q, b1, b2, b3.trans (by linarith)⟩
    exact ⟨up hp.1 (re_near (hF 0)), up hp.2.1 (re_near (hF _)), fun k k0 k1 =>
      ⟨up (hp.2.2 k k0 k1).1 (re_near (hF k)), up (hp.2.2 k k0 k1).2 (im_near (hF k))⟩⟩

/-! ## Powers -/

theorem fit_rel {q : ℚ} (h : |(q : ℝ)| ≤ 2 ^ 120) :
    ∃ r, Worth (fit binary32 q) r ∧ |r - q| ≤ |(q : ℝ)| / 2 ^ 24 + 1 / 2 ^ 150 := by
  have hq : |q| ≤ 2 ^ 120 := by exact_mod_cast h
  obtain ⟨p, e1, -⟩ := fit_le (f := binary32) (rep_pow (a := 120) (by rw [top32]; omega)) hq
  refine ⟨p, ⟨p, e1, rfl⟩, ?_⟩
  have h3 : |p - q| ≤ max (|q| * (1 / 2 ^ 24)) (1 / 2 ^ 150) := by
    rw [is_round e1]
    have := round_err binary32 q
    rwa [show pow2 (-((binary32.prec : ℕ) : ℤ)) = 1 / 2 ^ 24 by rw [pow2_eq]; norm_num [binary32],
      show pow2 (binary32.low - 1) = 1 / 2 ^ 150 by rw [pow2_eq]; norm_num [binary32]] at this
  have h4 : ((|p - q| : ℚ) : ℝ) ≤ ((max (|q| * (1 / 2 ^ 24)) (1 / 2 ^ 150) : ℚ) : ℝ) := Rat.cast_le.mpr h3
  push_cast at h4
  refine h4.trans (max_le ?_ ?_)
  · rw [mul_one_div]
    exact le_add_of_nonneg_right (by positivity)
  · exact le_add_of_nonneg_left (by positivity)

/-- The smallest error of a rounding. -/
noncomputable def tiny : ℝ := 1 / 2 ^ 150

theorem tiny_pos : 0 < tiny := by unfold tiny; positivity

theorem fit_nonneg {q : ℚ} (h0 : 0 ≤ q) (h : (q : ℝ) ≤ 2 ^ 120) :
    ∃ r, Worth (fit binary32 q) r ∧ 0 ≤ r ∧ |r - q| ≤ q / 2 ^ 24 + tiny := by
  have h0' : (0 : ℝ) ≤ q := by exact_mod_cast h0
  obtain ⟨r, ⟨p, e1, rfl⟩, k⟩ := fit_rel (q := q) (by rw [abs_of_nonneg h0']; exact h)
  rw [abs_of_nonneg h0'] at k
  obtain ⟨p', e2, g0, -⟩ := fit_between (f := binary32) (q := q) rep_zero (rep_pow (a := 120) (by rw [top32]; omega)) h0 (by exact_mod_cast h)
  have : p = p' := (is_round e1).trans (is_round e2).symm
  subst this
  exact ⟨p, ⟨p, e1, rfl⟩, by exact_mod_cast g0, k⟩

theorem mul_nonneg_near {x y : F32} {r s : ℝ} (hx : Worth x r) (hy : Worth y s) (h0 : 0 ≤ r * s) (h : r * s ≤ 2 ^ 120) :
    ∃ t, Worth (mul x y) t ∧ 0 ≤ t ∧ |t - r * s| ≤ r * s / 2 ^ 24 + tiny := by
  obtain ⟨p, e1, rfl⟩ := hx
  obtain ⟨q, e2, rfl⟩ := hy
  have := fit_nonneg (q := p * q) (by exact_mod_cast h0) (by push_cast; exact h)
  rw [mul_is e1 e2]
  push_cast at this
  exact this

theorem add_nonneg_near {x y : F32} {r s : ℝ} (hx : Worth x r) (hy : Worth y s) (h0 : 0 ≤ r + s) (h : r + s ≤ 2 ^ 120) :
    ∃ t, Worth (add x y) t ∧ 0 ≤ t ∧ |t - (r + s)| ≤ (r + s) / 2 ^ 24 + tiny := by
  obtain ⟨p, e1, rfl⟩ := hx
  obtain ⟨q, e2, rfl⟩ := hy
  have := fit_nonneg (q := p + q) (by exact_mod_cast h0) (by push_cast; exact h)
  rw [add_is e1 e2]
  push_cast at this
  exact this

theorem sqrt_close {p n η τ : ℝ} (hn : 0 ≤ n) (h0 : 0 ≤ η) (h1 : η ≤ 1) (ht : 0 ≤ τ) (h : |p - n ^ 2| ≤ η * n ^ 2 + τ ^ 2) :
    |Real.sqrt p - n| ≤ η * n + τ := by
  obtain ⟨a, b⟩ := abs_le.mp h
  rw [abs_le]
  constructor
  · by_cases c : n * (1 - η) - τ ≤ 0
    · have := Real.sqrt_nonneg p
      linarith
    · have : n * (1 - η) - τ ≤ Real.sqrt p := by
        apply Real.le_sqrt_of_sq_le
        have e1 : (n * (1 - η)) ^ 2 ≤ n ^ 2 * (1 - η) := by
          have : 0 ≤ n ^ 2 * ((1 - η) * η) := mul_nonneg (sq_nonneg n) (mul_nonneg (by linarith) h0)
          linarith
        have e2 : 0 ≤ τ * (n * (1 - η) - τ) := mul_nonneg ht (by linarith)
        nlinarith
      linarith
  · have : Real.sqrt p ≤ n * (1 + η) + τ := by
      apply Real.sqrt_le_iff.mpr
      refine ⟨by positivity, ?_⟩
      have e1 : n ^ 2 * (1 + η) ≤ (n * (1 + η)) ^ 2 := by
        have : 0 ≤ n ^ 2 * ((1 + η) * η) := by positivity
        linarith
      have e2 : 0 ≤ τ * (n * (1 + η)) := by positivity
      nlinarith
    linarith

/-- The size of a transform. -/
theorem fourier_size {x : ℕ → ℝ} {N : ℕ} {B : ℝ} (h : ∑ j ∈ range N, |x j| ≤ B) (k : ℕ) : ‖fourier (-1) N (fun j => (x j : ℂ)) k‖ ≤ B := by
  have := fourier_near (N := N) (x := x) (y := fun _ => 0) (e := B) (by simpa using h) k
  have z : fourier (-1) N (fun _ => ((0 : ℝ) : ℂ)) k = 0 := by
    unfold fourier
    simp
  rwa [z, sub_zero] at this

theorem shaped_size {f : ℕ → ℝ} (hA : 0 ≤ A) (h : ∀ i, i < 400 → |f i| ≤ A) {j : ℕ} (hj : j < 400) : |shaped f j| ≤ 4 * A := by
  have hm : |(∑ i ∈ range 400, f i) / 400| ≤ A := by
    rw [abs_div, abs_of_pos (by norm_num : (0 : ℝ) < 400), div_le_iff₀ (by norm_num)]
    refine (abs_sum_le_sum_abs _ _).trans (le_trans (sum_le_sum fun i hi => h i (mem_range.mp hi)) ?_)
    rw [sum_const, card_range, nsmul_eq_mul]
    push_cast
    linarith
  have hc : ∀ i, i < 400 → |centred f i| ≤ 2 * A := by
    intro i hi
    unfold centred
    refine (abs_sub _ _).trans ?_
    have := h i hi
    linarith
  unfold shaped
  rw [if_pos hj, abs_mul]
  have e1 : |centred f j - 0.97 * centred f (j - 1)| ≤ 4 * A := by
    refine (abs_sub _ _).trans ?_
    rw [abs_mul, abs_of_pos (by norm_num : (0 : ℝ) < 0.97)]
    have a := hc j hj
    have b := hc (j - 1) (by omega)
    norm_num at a b ⊢
    linarith
  calc _ ≤ 4 * A * 1 := mul_le_mul e1 (taper_abs j) (abs_nonneg _) (by positivity)
    _ = _ := by ring

theorem spectrum_size {f : ℕ → ℝ} (hA : 0 ≤ A) (h : ∀ i, i < 400 → |f i| ≤ A) (k : ℕ) :
    ‖fourier (-1) 512 (fun j => (shaped f j : ℂ)) k‖ ≤ 1600 * A := by
  refine fourier_size ?_ k
  rw [show (512 : ℕ) = 400 + 112 by norm_num, sum_range_add]
  have z : ∑ j ∈ range 112, |shaped f (400 + j)| = 0 := by
    refine sum_eq_zero fun j _ => ?_
    unfold shaped
    rw [if_neg (by omega)]
    simp
  rw [z]
  have : ∑ j ∈ range 400, |shaped f j| ≤ ∑ j ∈ range 400, 4 * A := sum_le_sum fun j hj => shaped_size hA h (mem_range.mp hj)
  rw [sum_const, card_range, nsmul_eq_mul] at this
  push_cast at this
  linarith

/-- A power: the square of a number that is within `A` of the magnitude. -/
theorem pair_power (h1 : 1 ≤ A) (h2 : A ≤ 2 ^ 31) {x y : F32} {a b : ℝ} {X : ℂ} (hx : Worth x a) (hy : Worth y b)
    (ka : |a - X.re| ≤ 16 / 25 * A) (kb : |b - X.im| ≤ 16 / 25 * A) (hX : ‖X‖ ≤ 1600 * A) :
    ∃ p, Worth (add (mul x x) (mul y y)) p ∧ 0 ≤ p ∧ p ≤ 2 ^ 90 ∧ |Real.sqrt p - ‖X‖| ≤ A := by
  have hz : ‖(⟨a, b⟩ : ℂ) - X‖ ≤ 24 / 25 * A := by
    have : (⟨a, b⟩ : ℂ) - X = ⟨a - X.re, b - X.im⟩ := by apply Complex.ext <;> simp
    rw [this]
    exact (pair_size ka kb).trans (by linarith)
  obtain ⟨n, en⟩ : ∃ n, n = ‖(⟨a, b⟩ : ℂ)‖ := ⟨_, rfl⟩
  have hn0 : 0 ≤ n := by rw [en]; positivity
  have hnX : |n - ‖X‖| ≤ 24 / 25 * A := by rw [en]; exact (abs_norm_sub_norm_le _ _).trans hz
  have hn : n ≤ 1601 * A := by
    have := (abs_le.mp hnX).2
    linarith
  have hsq : a * a + b * b = n ^ 2 := by
    rw [en, ← Complex.normSq_eq_norm_sq, Complex.normSq_mk]
  have hn2 : n ^ 2 ≤ 2 ^ 84 := by
    have : n ≤ 2 ^ 42 := hn.trans (by norm_num at h2 ⊢; linarith)
    calc n ^ 2 ≤ (2 ^ 42) ^ 2 := pow_le_pow_left₀ hn0 this 2
      _ = 2 ^ 84 := by norm_num
  have ha := mul_self_nonneg a
  have hb := mul_self_nonneg b
  have big : (2 : ℝ) ^ 84 ≤ 2 ^ 120 := by norm_num
  have t0 := tiny_pos
  have t1 : tiny ≤ 1 / 2 ^ 40 := by unfold tiny; norm_num
  obtain ⟨p, wp, p0, kp⟩ := mul_nonneg_near hx hx ha (by linarith)
  obtain ⟨q, wq, q0, kq⟩ := mul_nonneg_near hy hy hb (by linarith)
  have kpq := sum_err kp kq
  rw [hsq] at kpq
  have kpq' : |p + q - n ^ 2| ≤ n ^ 2 / 2 ^ 24 + 2 * tiny := kpq.trans (le_of_eq (by rw [← hsq]; ring))
  have hpq : p + q ≤ 2 * n ^ 2 + 2 * tiny := by
    have := (abs_le.mp kpq').2
    have : 0 ≤ n ^ 2 := sq_nonneg n
    linarith
  obtain ⟨r, wr, r0, kr⟩ := add_nonneg_near wp wq (by linarith) (by norm_num at hn2 t1 ⊢; linarith)
  have kr' : |r - n ^ 2| ≤ 1 / 2 ^ 22 * n ^ 2 + (1 / 2 ^ 10) ^ 2 := by
    refine (near_trans kr kpq').trans ?_
    have : 0 ≤ n ^ 2 := sq_nonneg n
    norm_num at t1 ⊢
    linarith
  refine ⟨r, wr, r0, ?_, ?_⟩
  · have := (abs_le.mp kr').2
    norm_num at this hn2 ⊢
    linarith
  · have k := sqrt_close hn0 (by norm_num) (by norm_num) (by norm_num) kr'
    refine (near_trans k hnX).trans ?_
    norm_num
    linarith

/-- A power at one of the ends of the spectrum. -/
theorem single_power (h1 : 1 ≤ A) (h2 : A ≤ 2 ^ 31) {x : F32} {a : ℝ} {X : ℂ} (hx : Worth x a) (h0 : X.im = 0)
    (ka : |a - X.re| ≤ 16 / 25 * A) (hX : ‖X‖ ≤ 1600 * A) :
    ∃ p, Worth (mul x x) p ∧ 0 ≤ p ∧ p ≤ 2 ^ 90 ∧ |Real.sqrt p - ‖X‖| ≤ A := by
  have eX : ‖X‖ = |X.re| := by
    have : X = ((X.re : ℝ) : ℂ) := by apply Complex.ext <;> simp [h0]
    rw [this, Complex.norm_real, Real.norm_eq_abs]
    simp
  have hn0 := abs_nonneg a
  have hnX : |(|a|) - ‖X‖| ≤ 16 / 25 * A := by
    rw [eX]
    exact (abs_abs_sub_abs_le _ _).trans ka
  have hn : |a| ≤ 1601 * A := by
    have := (abs_le.mp hnX).2
    linarith
  have hsq : a * a = |a| ^ 2 := by rw [sq_abs, sq]
  have hn2 : |a| ^ 2 ≤ 2 ^ 84 := by
    have : |a| ≤ 2 ^ 42 := hn.trans (by norm_num at h2 ⊢; linarith)
    calc |a| ^ 2 ≤ (2 ^ 42) ^ 2 := pow_le_pow_left₀ hn0 this 2
      _ = 2 ^ 84 := by norm_num
  have ha := mul_self_nonneg a
  have big : (2 : ℝ) ^ 84 ≤ 2 ^ 120 := by norm_num
  have t0 := tiny_pos
  have t1 : tiny ≤ 1 / 2 ^ 40 := by unfold tiny; norm_num
  obtain ⟨r, wr, r0, kr⟩ := mul_nonneg_near hx hx ha (by linarith)
  rw [hsq] at kr
  have kr' : |r - |a| ^ 2| ≤ 1 / 2 ^ 22 * |a| ^ 2 + (1 / 2 ^ 10) ^ 2 := by
    refine kr.trans ?_
    have : 0 ≤ |a| ^ 2 := sq_nonneg _
    norm_num at t1 ⊢
    linarith
  refine ⟨r, wr, r0, ?_, ?_⟩
  · have := (abs_le.mp kr').2
    norm_num at this hn2 ⊢
    linarith
  · have k := sqrt_close hn0 (by norm_num) (by norm_num) (by norm_num) kr'
    refine (near_trans k hnX).trans ?_
    norm_num
    linarith

theorem power_near (h1 : 1 ≤ A) (h2 : A ≤ 2 ^ 31) {f : ℕ → ℝ} (hf : ∀ i, i < 400 → |f i| ≤ A) {s : List F32} (hs : s.length = 512)
    (hp : PackedNear 512 s (fourier (-1) 512 (fun j => (shaped f j : ℂ))) (16 / 25 * A)) {k : ℕ} (hk : k ≤ 256) :
    ∃ p, Worth (power (builtWith lib bins) s k) p ∧ 0 ≤ p ∧ p ≤ 2 ^ 90 ∧ |Real.sqrt p - Real.sqrt (powerOf f k)| ≤ A := by
  have hA : 0 ≤ A := by linarith
  have hX := spectrum_size hA hf
  have e : Real.sqrt (powerOf f k) = ‖fourier (-1) 512 (fun j => (shaped f j : ℂ)) k‖ := by
    unfold powerOf
    exact Real.sqrt_sq (norm_nonneg _)
  rw [e]
  have hat : ∀ {i v}, s[i]? = some v → at_ (builtWith lib bins) s i = v := fun h => getD_of _ h
  obtain ⟨i0, i1⟩ := fourier_edge (shaped f)
  unfold power
  by_cases c0 : k = 0
  · rw [if_pos c0]
    obtain ⟨v, q, g1, g2, g3⟩ := hp.1
    rw [hat g1, c0]
    exact single_power h1 h2 g2 i0 g3 (hX 0)
  · rw [if_neg c0, hs]
    by_cases c1 : k = 512 / 2
    · rw [if_pos c1]
      obtain ⟨v, q, g1, g2, g3⟩ := hp.2.1
      rw [hat g1, c1]
      exact single_power h1 h2 g2 i1 g3 (hX _)
    · rw [if_neg c1]
      obtain ⟨⟨v, q, g1, g2, g3⟩, v', q', g1', g2', g3'⟩ := hp.2.2 k (by omega) (by omega)
      rw [hat g1, hat g1']
      exact pair_power h1 h2 g2 g2' g3 g3' (hX k)

/-! ## Energies -/

theorem energy_sum {W P : ℕ → F32} {w p : ℕ → ℝ} : ∀ n, n ≤ 256 →
    (∀ j, j < n → Worth (W j) (w j) ∧ 0 ≤ w j ∧ w j ≤ 1 ∧ Worth (P j) (p j) ∧ 0 ≤ p j ∧ p j ≤ 2 ^ 90) →
    ∃ r, Worth (((List.range n).map fun j => mul (W j) (P j)).foldl add (fit _ 0)) r ∧ 0 ≤ r ∧
      |r - ∑ j ∈ range n, w j * p j| ≤ (3 * n) / 2 ^ 24 * (∑ j ∈ range n, w j * p j) + 4 * n * tiny ∧
      0 ≤ ∑ j ∈ range n, w j * p j ∧ ∑ j ∈ range n, w j * p j ≤ n * 2 ^ 90
  | 0, _, _ => ⟨0, ⟨0, fit_is (f := binary32) rep_zero, by simp⟩, le_rfl, by simp, by simp, by simp⟩
  | n + 1, hn, h => by
    obtain ⟨r, wr, r0, kr, s0, s1⟩ := energy_sum n (by omega) (fun i hi => h i (by omega))
    obtain ⟨g1, g2, g3, g4, g5, g6⟩ := h n (by omega)
    have hn' : (n : ℝ) ≤ 255 := by
      have : n ≤ 255 := by omega
      exact_mod_cast this
    have hn0 : (0 : ℝ) ≤ n := by positivity
    have t0 := tiny_pos
    have t1 : tiny ≤ 1 / 2 ^ 40 := by unfold tiny; norm_num
    have hwp : 0 ≤ w n * p n := mul_nonneg g2 g5
    have hwp1 : w n * p n ≤ 2 ^ 90 := by
      calc w n * p n ≤ 1 * 2 ^ 90 := mul_le_mul g3 g6 g5 (by norm_num)
        _ = 2 ^ 90 := by norm_num
    obtain ⟨q, wq, q0, kq⟩ := mul_nonneg_near g1 g4 hwp (hwp1.trans (by norm_num))
    obtain ⟨S, eS⟩ : ∃ S, S = ∑ j ∈ range n, w j * p j := ⟨_, rfl⟩
    rw [← eS] at kr s0 s1
    rw [sum_range_succ, ← eS]
    have c1 : (3 * (n : ℝ)) / 2 ^ 24 * S ≤ 1 / 2 ^ 10 * S := by
      refine mul_le_mul_of_nonneg_right ?_ s0
      rw [div_le_iff₀ (by norm_num)]
      norm_num
      linarith
    have c2 : 4 * (n : ℝ) * tiny ≤ 1020 * tiny := mul_le_mul_of_nonneg_right (by linarith) t0.le
    have hr : r ≤ 2 * S + 1020 * tiny := by
      have := (abs_le.mp kr).2
      linarith
    have hq : q ≤ 2 * (w n * p n) + tiny := by
      have := (abs_le.mp kq).2
      linarith
    have hs1 : S ≤ 255 * 2 ^ 90 := s1.trans (mul_le_mul_of_nonneg_right hn' (by norm_num))
    obtain ⟨t, wt, t0', kt⟩ := add_nonneg_near wr wq (by linarith) (by norm_num at hs1 hwp1 t1 ⊢; linarith)
    refine ⟨t, ?_, t0', ?_, by linarith, ?_⟩
    · rw [List.range_succ, List.map_append, List.foldl_append]
      exact wt
    · refine (near_trans kt (sum_err kr kq)).trans ?_
      push_cast
      have c3 : 0 ≤ (3 * (n : ℝ)) / 2 ^ 24 * (w n * p n) := by positivity
      have e : 3 * ((n : ℝ) + 1) / 2 ^ 24 * (S + w n * p n) = 3 * (n : ℝ) / 2 ^ 24 * S + 3 * (n : ℝ) / 2 ^ 24 * (w n * p n) +
        3 / 2 ^ 24 * (S + w n * p n) := by ring
      rw [e]
      norm_num at hr hq c1 c3 ⊢
      linarith
    · push_cast
      linarith

/-- The logarithms of two energies with the floor. -/
theorem log_floor {e E : ℝ} (h : |e - E| ≤ 768 / 2 ^ 24 * E + 1024 * tiny) :
    |Real.log (max (1 / 2 ^ 23) e) - Real.log (max (1 / 2 ^ 23) E)| ≤ 800 / 2 ^ 24 := by
  obtain ⟨a, ea⟩ : ∃ a, a = max (1 / 2 ^ 23) e := ⟨_, rfl⟩
  obtain ⟨b, eb⟩ : ∃ b, b = max (1 / 2 ^ 23) E := ⟨_, rfl⟩
  have a0 : 1 / 2 ^ 23 ≤ a := ea ▸ le_max_left _ _
  have b0 : 1 / 2 ^ 23 ≤ b := eb ▸ le_max_left _ _
  have bE : E ≤ b := eb ▸ le_max_right _ _
  have t1 : tiny ≤ 1 / 2 ^ 100 := by unfold tiny; norm_num
  have hab : |a - b| ≤ 770 / 2 ^ 24 * b := by
    have : |a - b| ≤ |e - E| := by
      rw [ea, eb]
      exact abs_max_sub_max_le_max _ _ _ _ |>.trans (by simp)
    refine this.trans (h.trans ?_)
    norm_num at t1 b0 ⊢
    linarith
  have ap : 0 < a := lt_of_lt_of_le (by positivity) a0
  have bp : 0 < b := lt_of_lt_of_le (by positivity) b0
  rw [← ea, ← eb]
  obtain ⟨l, r⟩ := abs_le.mp hab
  rw [abs_le]
  constructor
  · have := Real.log_le_sub_one_of_pos (show 0 < b / a by positivity)
    rw [Real.log_div bp.ne' ap.ne'] at this
    have h2 : b / a ≤ 1 + 800 / 2 ^ 24 := by
      rw [div_le_iff₀ ap]
      norm_num at l r ⊢
      linarith
    linarith
  · have := Real.log_le_sub_one_of_pos (show 0 < a / b by positivity)
    rw [Real.log_div ap.ne' bp.ne'] at this
    have h2 : a / b ≤ 1 + 800 / 2 ^ 24 := by
      rw [div_le_iff₀ bp]
      norm_num at l r ⊢
      linarith
    linarith

end Verif.Ieee
