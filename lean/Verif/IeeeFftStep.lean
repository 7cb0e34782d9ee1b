import Verif.IeeeFftBase

/-!
# The steps of the FFT on complex numbers
-/

namespace Verif.Ieee

open Verif Verif.Srfft Verif.Ieee.Spec

/-- `x` and `y` are the parts of a complex number within `b / 2^24 * M` of `z`, which is at most `M` large. -/
structure Cn (M : ℝ) (b : ℕ) (z : ℂ) (x y : F32) : Prop where
  size : ‖z‖ ≤ M
  near : ∃ v : ℂ, Worth x v.re ∧ Worth y v.im ∧ ‖v - z‖ ≤ b / 2 ^ 24 * M

/-- The sizes for which the estimates hold. -/
structure Fair (M : ℝ) (b : ℕ) : Prop where
  low : 1 / 2 ^ 60 ≤ M
  high : M ≤ 2 ^ 108
  few : b ≤ 2 ^ 18

theorem Fair.pos {M : ℝ} {b : ℕ} (h : Fair M b) : 0 < M := lt_of_lt_of_le (by positivity) h.low

theorem Cn.mono {M N : ℝ} {b c : ℕ} {z : ℂ} {x y : F32} (h : Cn M b z x y) (h1 : M ≤ N) (h2 : b ≤ c) : Cn N c z x y := by
  obtain ⟨v, w1, w2, e⟩ := h.near
  have hM : 0 ≤ M := (norm_nonneg _).trans h.size
  refine ⟨h.size.trans h1, v, w1, w2, e.trans (mul_le_mul ?_ h1 hM (by positivity))⟩
  exact div_le_div_of_nonneg_right (by exact_mod_cast h2) (by positivity)

/-- The computed number is not much larger. -/
theorem cap {M : ℝ} {b : ℕ} {z v : ℂ} (hf : Fair M b) (h : ‖z‖ ≤ M) (e : ‖v - z‖ ≤ b / 2 ^ 24 * M) : ‖v‖ ≤ 65 / 64 * M := by
  have hM := hf.pos
  have h1 : (b : ℝ) / 2 ^ 24 ≤ 1 / 64 := by
    have : (b : ℝ) ≤ 2 ^ 18 := by exact_mod_cast hf.few
    rw [div_le_iff₀ (by positivity)]
    linarith
  have h2 : (b : ℝ) / 2 ^ 24 * M ≤ 1 / 64 * M := mul_le_mul_of_nonneg_right h1 hM.le
  have h3 : ‖v‖ ≤ ‖v - z‖ + ‖z‖ := by
    have := norm_add_le (v - z) z
    rwa [sub_add_cancel] at this
  linarith

theorem Fair.scale {M : ℝ} {b : ℕ} (h : Fair M b) {n : ℝ} (h1 : 1 ≤ n) (h2 : n ≤ 2 ^ 10) : 1 / 2 ^ 100 ≤ n * M ∧ n * M ≤ 2 ^ 120 := by
  have hM := h.pos
  have := h.low
  have := h.high
  constructor
  · calc (1 : ℝ) / 2 ^ 100 ≤ 1 * (1 / 2 ^ 60) := by norm_num
      _ ≤ n * M := mul_le_mul h1 h.low (by positivity) (by linarith)
  · calc n * M ≤ 2 ^ 10 * 2 ^ 108 := mul_le_mul h2 h.high hM.le (by norm_num)
      _ ≤ 2 ^ 120 := by norm_num

/-- Two rounded parts. -/
theorem cn_parts {M E : ℝ} {b d : ℕ} {z w : ℂ} {x y : F32} {r s : ℝ} (hz : ‖z‖ ≤ M) (hx : Worth x r) (hy : Worth y s)
    (h1 : |r - w.re| ≤ E) (h2 : |s - w.im| ≤ E) (hE : E + E ≤ d / 2 ^ 24 * M) (hw : ‖w - z‖ ≤ b / 2 ^ 24 * M) :
    Cn M (b + d) z x y := by
  refine ⟨hz, ⟨r, s⟩, hx, hy, ?_⟩
  have e : (⟨r, s⟩ : ℂ) - z = (⟨r, s⟩ - w) + (w - z) := by ring
  rw [e]
  refine (norm_add_le _ _).trans ?_
  have : ‖(⟨r, s⟩ : ℂ) - w‖ ≤ E + E := norm_le_parts (by simpa using h1) (by simpa using h2)
  push_cast
  rw [add_div, add_mul]
  linarith

section
variable {M : ℝ} {b : ℕ} {z w : ℂ} {x y x' y' : F32}

theorem cn_sum {δ : ℂ} (hε : ‖δ‖ = 1) (hf : Fair M b) (h : Cn M b z x y) (h' : Cn M b w x' y') {X Y : F32}
    (hX : ∀ {v v' : ℂ}, Worth x v.re → Worth y v.im → Worth x' v'.re → Worth y' v'.im → ‖v‖ ≤ 65 / 64 * M → ‖v'‖ ≤ 65 / 64 * M →
      (∃ t, Worth X t ∧ |t - (v + δ * v').re| ≤ 3 * M / 2 ^ 24) ∧ (∃ t, Worth Y t ∧ |t - (v + δ * v').im| ≤ 3 * M / 2 ^ 24)) :
    Cn (2 * M) (b + 3) (z + δ * w) X Y := by
  obtain ⟨v, w1, w2, e⟩ := h.near
  obtain ⟨v', w1', w2', e'⟩ := h'.near
  obtain ⟨⟨r, hr, kr⟩, s, hs, ks⟩ := hX w1 w2 w1' w2' (cap hf h.size e) (cap hf h'.size e')
  have hM := hf.pos
  refine cn_parts (w := v + δ * v') (E := 3 * M / 2 ^ 24) ?_ hr hs kr ks ?_ ?_
  · refine (norm_add_le _ _).trans ?_
    rw [norm_mul, hε, one_mul]
    have := h.size
    have := h'.size
    linarith
  · push_cast
    linarith
  · have e1 : v + δ * v' - (z + δ * w) = (v - z) + δ * (v' - w) := by ring
    rw [e1]
    refine (norm_add_le _ _).trans ?_
    rw [norm_mul, hε, one_mul]
    linarith

theorem part_le {M : ℝ} {v : ℂ} (h : ‖v‖ ≤ M) : |v.re| ≤ M ∧ |v.im| ≤ M :=
  ⟨(Complex.abs_re_le_norm v).trans h, (Complex.abs_im_le_norm v).trans h⟩

theorem add3 (hf : Fair M b) {r s : ℝ} (hx : Worth x r) (hy : Worth y s) (h1 : |r| ≤ 65 / 64 * M) (h2 : |s| ≤ 65 / 64 * M) :
    ∃ t, Worth (add x y) t ∧ |t - (r + s)| ≤ 3 * M / 2 ^ 24 := by
  have := hf.pos
  exact add_worth hx hy ((sum_le h1 h2).trans (by linarith)) (hf.scale (by norm_num) (by norm_num)).1
    (hf.scale (by norm_num) (by norm_num)).2

theorem sub3 (hf : Fair M b) {r s : ℝ} (hx : Worth x r) (hy : Worth y s) (h1 : |r| ≤ 65 / 64 * M) (h2 : |s| ≤ 65 / 64 * M) :
    ∃ t, Worth (sub x y) t ∧ |t - (r - s)| ≤ 3 * M / 2 ^ 24 := by
  have := hf.pos
  exact sub_worth hx hy ((diff_le h1 h2).trans (by linarith)) (hf.scale (by norm_num) (by norm_num)).1
    (hf.scale (by norm_num) (by norm_num)).2

theorem cn_add (hf : Fair M b) (h : Cn M b z x y) (h' : Cn M b w x' y') :
    Cn (2 * M) (b + 3) (z + w) (add x x') (add y y') := by
  have := cn_sum (δ := 1) (by simp) hf h h' (X := add x x') (Y := add y y') (fun {v v'} a1 a2 b1 b2 c1 c2 => by
    rw [one_mul, Complex.add_re, Complex.add_im]
    exact ⟨add3 hf a1 b1 (part_le c1).1 (part_le c2).1, add3 hf a2 b2 (part_le c1).2 (part_le c2).2⟩)
  rwa [one_mul] at this

theorem cn_sub (hf : Fair M b) (h : Cn M b z x y) (h' : Cn M b w x' y') :
    Cn (2 * M) (b + 3) (z - w) (sub x x') (sub y y') := by
  have := cn_sum (δ := -1) (by simp) hf h h' (X := sub x x') (Y := sub y y') (fun {v v'} a1 a2 b1 b2 c1 c2 => by
    rw [neg_one_mul, ← sub_eq_add_neg, Complex.sub_re, Complex.sub_im]
    exact ⟨sub3 hf a1 b1 (part_le c1).1 (part_le c2).1, sub3 hf a2 b2 (part_le c1).2 (part_le c2).2⟩)
  rwa [neg_one_mul, ← sub_eq_add_neg] at this

theorem cn_subI (hf : Fair M b) (h : Cn M b z x y) (h' : Cn M b w x' y') :
    Cn (2 * M) (b + 3) (z - Complex.I * w) (add x y') (sub y x') := by
  have := cn_sum (δ := -Complex.I) (by simp) hf h h' (X := add x y') (Y := sub y x') (fun {v v'} a1 a2 b1 b2 c1 c2 => by
    have e1 : (v + -Complex.I * v').re = v.re + v'.im := by simp
    have e2 : (v + -Complex.I * v').im = v.im - v'.re := by simp [sub_eq_add_neg]
    rw [e1, e2]
    exact ⟨add3 hf a1 b2 (part_le c1).1 (part_le c2).2, sub3 hf a2 b1 (part_le c1).2 (part_le c2).1⟩)
  rwa [neg_mul, ← sub_eq_add_neg] at this

theorem cn_addI (hf : Fair M b) (h : Cn M b z x y) (h' : Cn M b w x' y') :
    Cn (2 * M) (b + 3) (z + Complex.I * w) (sub x y') (add y x') := by
  exact cn_sum (δ := Complex.I) (by simp) hf h h' (X := sub x y') (Y := add y x') (fun {v v'} a1 a2 b1 b2 c1 c2 => by
    have e1 : (v + Complex.I * v').re = v.re - v'.im := by simp [sub_eq_add_neg]
    have e2 : (v + Complex.I * v').im = v.im + v'.re := by simp
    rw [e1, e2]
    exact ⟨sub3 hf a1 b2 (part_le c1).1 (part_le c2).2, add3 hf a2 b1 (part_le c1).2 (part_le c2).1⟩)

/-- A turn by a number of modulus one. -/
theorem cn_turned {ρ : ℂ} (hρ : ‖ρ‖ = 1) (hf : Fair M b) (h : Cn M b z x y) {X Y : F32}
    (hX : ∀ {v : ℂ}, Worth x v.re → Worth y v.im → ‖v‖ ≤ 65 / 64 * M →
      (∃ t, Worth X t ∧ |t - (v * ρ).re| ≤ 61 * M / 2 ^ 24) ∧ (∃ t, Worth Y t ∧ |t - (v * ρ).im| ≤ 61 * M / 2 ^ 24)) :
    Cn M (b + 125) (z * ρ) X Y := by
  obtain ⟨v, w1, w2, e⟩ := h.near
  obtain ⟨⟨r, hr, kr⟩, s, hs, ks⟩ := hX w1 w2 (cap hf h.size e)
  have hM := hf.pos
  refine cn_parts (w := v * ρ) (E := 61 * M / 2 ^ 24) ?_ hr hs kr ks ?_ ?_
  · rw [norm_mul, hρ, mul_one]
    exact h.size
  · push_cast
    linarith
  · rw [← sub_mul, norm_mul, hρ, mul_one]
    exact e

theorem cn_turn {cc sp sm : F32} {c s : ℝ} (hf : Fair M b) (h : Cn M b z x y) (hcs : c ^ 2 + s ^ 2 = 1)
    (h1 : ∃ r, Worth cc r ∧ |r - c| ≤ 8 / 2 ^ 24) (h2 : ∃ r, Worth sp r ∧ |r - -(s + c)| ≤ 20 / 2 ^ 24)
    (h3 : ∃ r, Worth sm r ∧ |r - (s - c)| ≤ 20 / 2 ^ 24) :
    Cn M (b + 125) (z * ⟨c, -s⟩) (add (mul sm y) (mul cc (add x y))) (add (mul sp x) (mul cc (add x y))) := by
  obtain ⟨c', wc, kc⟩ := h1
  obtain ⟨p', wp, kp⟩ := h2
  obtain ⟨m', wm, km⟩ := h3
  have hM := hf.pos
  have c1 : |c| ≤ 1 := by
    rw [← sq_le_one_iff_abs_le_one]
    nlinarith [sq_nonneg s]
  have s1 : |s| ≤ 1 := by
    rw [← sq_le_one_iff_abs_le_one]
    nlinarith [sq_nonneg c]
  refine cn_turned (ρ := ⟨c, -s⟩) ?_ hf h fun {v} w1 w2 hv => ?_
  · have : ‖(⟨c, -s⟩ : ℂ)‖ ^ 2 = 1 := by
      rw [← Complex.normSq_eq_norm_sq, Complex.normSq_mk]
      linarith
    exact (pow_eq_one_iff_of_nonneg (norm_nonneg _) two_ne_zero).mp this
  · obtain ⟨v1, v2⟩ := part_le hv
    have l1 : 1 / 2 ^ 60 ≤ 65 / 64 * M := by have := hf.low; linarith
    have l2 : 65 / 64 * M ≤ 2 ^ 110 := by
      have := hf.high
      calc 65 / 64 * M ≤ 2 * 2 ^ 108 := by linarith
        _ ≤ _ := by norm_num
    have k1 : |s - c| ≤ 2 := (diff_le s1 c1).trans (by norm_num)
    have k2 : |-(s + c)| ≤ 2 := by rw [abs_neg]; exact (sum_le s1 c1).trans (by norm_num)
    constructor
    · obtain ⟨t, ht, k⟩ := turn_part wc kc c1 wm km k1 w1 w2 w2 v1 v2 v2 l1 l2
      refine ⟨t, ht, ?_⟩
      have e : (v * ⟨c, -s⟩ : ℂ).re = (s - c) * v.im + c * (v.re + v.im) := by
        rw [Complex.mul_re]
        ring
      rw [e]
      exact k.trans (by linarith)
    · obtain ⟨t, ht, k⟩ := turn_part wc kc c1 wp kp k2 w1 w2 w1 v1 v2 v1 l1 l2
      refine ⟨t, ht, ?_⟩
      have e : (v * ⟨c, -s⟩ : ℂ).im = -(s + c) * v.re + c * (v.re + v.im) := by
        rw [Complex.mul_im]
        ring
      rw [e]
      exact k.trans (by linarith)

theorem sq_part {q a : F32} {σ σ' ρ t m : ℝ} (h1 : Worth q σ') (h2 : |σ' - σ| ≤ 2 / 2 ^ 24) (hσ : |σ| ≤ 1) (h3 : Worth a t)
    (h4 : |t - ρ| ≤ 3 * m / 2 ^ 24) (hρ : |ρ| ≤ 3 * m) (m1 : 1 / 2 ^ 60 ≤ m) (m2 : m ≤ 2 ^ 110) :
    ∃ r, Worth (mul q a) r ∧ |r - σ * ρ| ≤ 61 * m / 2 ^ 24 := by
  have hm : 0 < m := lt_of_lt_of_le (by positivity) m1
  have ht : |t| ≤ 4 * m := (near_le h4 hρ).trans (by linarith)
  have hσ' : |σ'| ≤ 2 := (near_le h2 hσ).trans (by norm_num)
  obtain ⟨r, w, k⟩ := mul_worth h1 h3 (m := 8 * m) ((mul_le' hσ' ht).trans (by linarith)) (by
    calc (1 : ℝ) / 2 ^ 100 ≤ 1 / 2 ^ 60 := by norm_num
      _ ≤ 8 * m := by linarith) (by
    calc 8 * m ≤ 8 * 2 ^ 110 := by linarith
      _ ≤ 2 ^ 120 := by norm_num)
  refine ⟨r, w, (near_trans k (prod_err h2 h4 hσ ht)).trans ?_⟩
  linarith

theorem cn_turn8 {q : F32} {σ : ℝ} (hf : Fair M b) (h : Cn M b z x y) (h1 : ∃ r, Worth q r ∧ |r - σ| ≤ 2 / 2 ^ 24)
    (hσ : σ ^ 2 = 1 / 2) :
    Cn M (b + 125) (z * ⟨σ, -σ⟩) (mul q (add x y)) (mul q (sub y x)) ∧
    Cn M (b + 125) (z * ⟨-σ, -σ⟩) (mul q (sub y x)) (mul (neg q) (add x y)) := by
  obtain ⟨q', wq, kq⟩ := h1
  have hM := hf.pos
  have s1 : |σ| ≤ 1 := by
    rw [← sq_le_one_iff_abs_le_one, hσ]
    norm_num
  have kn : |-q' - -σ| ≤ 2 / 2 ^ 24 := by
    rw [← abs_neg, show -(-q' - -σ) = q' - σ by ring]
    exact kq
  have l2 : M ≤ 2 ^ 110 := hf.high.trans (by norm_num)
  have nrm : ∀ {c s : ℝ}, c ^ 2 = 1 / 2 → s ^ 2 = 1 / 2 → ‖(⟨c, s⟩ : ℂ)‖ = 1 := by
    intro c s h1 h2
    have : ‖(⟨c, s⟩ : ℂ)‖ ^ 2 = 1 := by
      rw [← Complex.normSq_eq_norm_sq, Complex.normSq_mk]
      linarith
    exact (pow_eq_one_iff_of_nonneg (norm_nonneg _) two_ne_zero).mp this
  have sum : ∀ {v : ℂ}, Worth x v.re → Worth y v.im → ‖v‖ ≤ 65 / 64 * M →
      (∃ t, Worth (mul q (add x y)) t ∧ |t - σ * (v.re + v.im)| ≤ 61 * M / 2 ^ 24) ∧
      (∃ t, Worth (mul q (sub y x)) t ∧ |t - σ * (v.im - v.re)| ≤ 61 * M / 2 ^ 24) ∧
      (∃ t, Worth (mul (neg q) (add x y)) t ∧ |t - -σ * (v.re + v.im)| ≤ 61 * M / 2 ^ 24) := by
    intro v w1 w2 hv
    obtain ⟨v1, v2⟩ := part_le hv
    obtain ⟨t, ht, kt⟩ := add3 hf w1 w2 v1 v2
    obtain ⟨d, hd, kd⟩ := sub3 hf w2 w1 v2 v1
    have e1 : |v.re + v.im| ≤ 3 * M := (sum_le v1 v2).trans (by linarith)
    have e2 : |v.im - v.re| ≤ 3 * M := (diff_le v2 v1).trans (by linarith)
    exact ⟨sq_part wq kq s1 ht kt e1 hf.low l2, sq_part wq kq s1 hd kd e2 hf.low l2,
      sq_part (neg_worth wq) kn (by rw [abs_neg]; exact s1) ht kt e1 hf.low l2⟩
  constructor
  · refine cn_turned (nrm hσ (by rw [neg_sq]; exact hσ)) hf h fun {v} w1 w2 hv => ?_
    obtain ⟨a1, a2, -⟩ := sum w1 w2 hv
    have e1 : (v * ⟨σ, -σ⟩ : ℂ).re = σ * (v.re + v.im) := by rw [Complex.mul_re]; ring
    have e2 : (v * ⟨σ, -σ⟩ : ℂ).im = σ * (v.im - v.re) := by rw [Complex.mul_im]; ring
    rw [e1, e2]
    exact ⟨a1, a2⟩
  · refine cn_turned (nrm (by rw [neg_sq]; exact hσ) (by rw [neg_sq]; exact hσ)) hf h fun {v} w1 w2 hv => ?_
    obtain ⟨-, a2, a3⟩ := sum w1 w2 hv
    have e1 : (v * ⟨-σ, -σ⟩ : ℂ).re = σ * (v.im - v.re) := by rw [Complex.mul_re]; ring
    have e2 : (v * ⟨-σ, -σ⟩ : ℂ).im = -σ * (v.re + v.im) := by rw [Complex.mul_im]; ring
    rw [e1, e2]
    exact ⟨a2, a3⟩

end

end Verif.Ieee
