import Verif.IeeeCmvnLemmas

/-!
# Frames for which the errors add up
-/

namespace Verif.Ieee

open Verif Verif.Ieee.Spec Verif.Cmvn Verif.Srfft

/-- Rounding of a number between 2^13 and 2^14 to a multiple of 2^-10. -/
theorem fit_grid {W : ℕ} {q : ℚ} (h1 : 8388608 < W) (h2 : W + 1 < 16777216) (h : |q * 1024 - W| < 1 / 2) :
    Is (fit binary32 q) (W / 1024) := by
  have hW1 : (8388609 : ℚ) ≤ W := by exact_mod_cast h1
  have hW2 : (W : ℚ) ≤ 16777214 := by exact_mod_cast (by omega : W ≤ 16777214)
  obtain ⟨k1, k2⟩ := abs_lt.mp h
  have hq1 : 8192 ≤ q := by linarith
  have hq2 : q < 16384 := by linarith
  have hq0 : q ≠ 0 := by linarith
  have hi : ilog q = 13 := by
    obtain ⟨l1, l2⟩ := ilog_spec hq0
    rw [abs_of_pos (by linarith)] at l1 l2
    rcases lt_trichotomy (ilog q) 13 with hl | hl | hl
    · have := pow2_le (show ilog q + 1 ≤ 13 by omega)
      rw [show pow2 13 = 8192 by rw [pow2_eq]; norm_num] at this
      linarith
    · exact hl
    · have := pow2_le (show 14 ≤ ilog q by omega)
      rw [show pow2 14 = 16384 by rw [pow2_eq]; norm_num] at this
      linarith
  have hu : Verif.Ieee.unit binary32 q = -10 := by
    unfold Verif.Ieee.unit
    rw [hi]
    decide
  have hp : pow2 (-10) = 1 / 1024 := by rw [pow2_eq]; norm_num
  have hr : round binary32 q = W / 1024 := by
    unfold round
    rw [if_neg hq0, hu, hp, div_div_eq_mul_div, div_one]
    have hn : near (q * 1024) = (W : ℤ) := by
      have h3 := near_err (q * 1024)
      obtain ⟨m1, m2⟩ := abs_le.mp h3
      have h4 : (near (q * 1024) : ℚ) - W < 1 := by linarith
      have h5 : -1 < (near (q * 1024) : ℚ) - W := by linarith
      have h6 : near (q * 1024) - W < 1 := by exact_mod_cast h4
      have h7 : -1 < near (q * 1024) - (W : ℤ) := by exact_mod_cast h5
      omega
    rw [hn]
    push_cast
    ring
  have hrep : Rep binary32 ((W : ℚ) / 1024) := by
    have := rep_scale (f := binary32) (n := W) (k := -10) (by show W < 2 ^ 24; omega) (by decide) (by decide)
    rwa [hp, mul_one_div] at this
  rcases fit_cases (f := binary32) q with ⟨h, e⟩ | ⟨-, e⟩ | ⟨-, e⟩
  · rw [e]
    exact ⟨hrep, by simp [hr]⟩
  · have : pow2 20 ≤ pow2 binary32.top := pow2_le (by decide)
    rw [show pow2 20 = 1048576 by rw [pow2_eq]; norm_num] at this
    rw [hr] at e
    linarith
  · have : pow2 20 ≤ pow2 binary32.top := pow2_le (by decide)
    rw [show pow2 20 = 1048576 by rw [pow2_eq]; norm_num] at this
    rw [hr] at e
    linarith

/-- The frames, in multiples of 2^-20: 600 times 14, then 600 times a little more, then 600 times half as much more. -/
def wave (t : ℕ) : ℕ := if t / 600 % 3 = 0 then 14680064 else if t / 600 % 3 = 1 then 14680678 else 14680371

/-- The sum the machine arrives at, in multiples of 2^-10. -/
def reached (t : ℕ) : ℕ := if t < 600 then 14336 * (t + 1) else 8601600 + (600 * (t / 1800) + min (t % 1800 - 599) 600)

theorem wave_range (t : ℕ) : 14680064 ≤ wave t ∧ wave t ≤ 14680678 := by
  unfold wave
  split
  · omega
  · split <;> omega

theorem wave_at (a : ℕ) {b : ℕ} (h : b < 1800) : (b < 600 → wave (1800 * a + b) = 14680064) ∧
    (600 ≤ b → b < 1200 → wave (1800 * a + b) = 14680678) ∧ (1200 ≤ b → wave (1800 * a + b) = 14680371) := by
  have e : (1800 * a + b) / 600 % 3 = b / 600 := by omega
  unfold wave
  rw [e]
  refine ⟨fun h1 => ?_, fun h1 h2 => ?_, fun h1 => ?_⟩
  · rw [if_pos (by omega)]
  · rw [if_neg (by omega), if_pos (by omega)]
  · rw [if_neg (by omega), if_neg (by omega)]

theorem reached_at (a : ℕ) {b : ℕ} (h : b < 1800) (h' : 599 ≤ 1800 * a + b) :
    (b < 600 → reached (1800 * a + b) = 8601600 + 600 * a) ∧
    (600 ≤ b → b < 1200 → reached (1800 * a + b) = 8601600 + 600 * a + (b - 599)) ∧
    (1200 ≤ b → reached (1800 * a + b) = 8601600 + 600 * a + 600) := by
  have e1 : (1800 * a + b) / 1800 = a := by omega
  have e2 : (1800 * a + b) % 1800 = b := by omega
  unfold reached
  rw [e1, e2]
  refine ⟨fun h1 => ?_, fun h1 h2 => ?_, fun h1 => ?_⟩
  · split <;> omega
  · rw [if_neg (by omega)]; omega
  · rw [if_neg (by omega)]; omega

theorem reached_next {t : ℕ} (h : 600 ≤ t) :
    1024 * reached t ≤ 1024 * reached (t - 1) + wave t - wave (t - 600) + 410 ∧
      1024 * reached (t - 1) + wave t - wave (t - 600) ≤ 1024 * reached t + 410 := by
  obtain ⟨a, b, e, hb⟩ : ∃ a b, t = 1800 * a + b ∧ b < 1800 := ⟨t / 1800, t % 1800, by omega, Nat.mod_lt _ (by norm_num)⟩
  subst e
  obtain ⟨w1, w2, w3⟩ := wave_at a hb
  obtain ⟨r1, r2, r3⟩ := reached_at a hb (by omega)
  by_cases h1 : b < 600
  · obtain ⟨-, -, v3⟩ := wave_at (a - 1) (b := b + 1200) (by omega)
    rw [show 1800 * a + b - 600 = 1800 * (a - 1) + (b + 1200) by omega, w1 h1, v3 (by omega), r1 h1]
    by_cases h0 : b = 0
    · obtain ⟨-, -, q3⟩ := reached_at (a - 1) (b := 1799) (by omega) (by omega)
      rw [show 1800 * a + b - 1 = 1800 * (a - 1) + 1799 by omega, q3 (by omega)]
      omega
    · obtain ⟨q1, -, -⟩ := reached_at a (b := b - 1) (by omega) (by omega)
      rw [show 1800 * a + b - 1 = 1800 * a + (b - 1) by omega, q1 (by omega)]
      omega
  · rw [show 1800 * a + b - 600 = 1800 * a + (b - 600) by omega, show 1800 * a + b - 1 = 1800 * a + (b - 1) by omega]
    obtain ⟨q1, q2, q3⟩ := reached_at a (b := b - 1) (by omega) (by omega)
    obtain ⟨v1, v2, v3⟩ := wave_at a (b := b - 600) (by omega)
    by_cases h2 : b < 1200
    · rw [w2 (by omega) h2, v1 (by omega), r2 (by omega) h2]
      by_cases h3 : b = 600
      · rw [q1 (by omega)]; omega
      · rw [q2 (by omega) (by omega)]; omega
    · rw [w3 (by omega), v2 (by omega) (by omega), r3 (by omega)]
      by_cases h3 : b = 1200
      · rw [q2 (by omega) (by omega)]; omega
      · rw [q3 (by omega)]; omega

theorem reached_low {t : ℕ} (h : 599 ≤ t) : 8601600 ≤ reached t := by
  unfold reached
  split <;> omega

theorem reached_high {t : ℕ} (h : t < 23400600) : reached t ≤ 16402200 ∧ reached t ≤ 28672 * slideOwn t := by
  unfold reached slideOwn
  split
  · omega
  · have : t / 1800 ≤ 13000 := by omega
    omega

theorem reached_end (k : ℕ) : reached (1800 * k + 599) = 8601600 + 600 * k := by
  unfold reached
  by_cases h : k = 0
  · subst h; rfl
  · rw [if_neg (by omega), show (1800 * k + 599) / 1800 = k by omega, show (1800 * k + 599) % 1800 = 599 by omega]
    omega

/-- The frames as rationals. -/
def tide (t _i : ℕ) : ℚ := wave t / 1048576

/-- The frames as `float`s. -/
def tideRaw (L : ℕ) : List (List F32) := (List.range L).map fun t => List.replicate 40 (fit binary32 (wave t / 1048576))

theorem tide_is (t : ℕ) : Is (fit binary32 (wave t / 1048576)) (wave t / 1048576) := by
  have := rep_scale (f := binary32) (n := wave t) (k := -20) (by show wave t < 2 ^ 24; have := wave_range t; omega) (by decide)
    (by decide)
  rw [show pow2 (-20) = 1 / 1048576 by rw [pow2_eq]; norm_num, mul_one_div] at this
  exact fit_is this

theorem tide_frames (L : ℕ) : Frames (tideRaw L) tide (14 + 1 / 1024) where
  width x hx := by
    obtain ⟨t, -, rfl⟩ := List.mem_map.mp hx
    exact List.length_replicate
  value t i ht hi := by
    have ht' : t < L := by simpa [tideRaw] using ht
    refine ⟨List.replicate 40 (fit binary32 (wave t / 1048576)), fit binary32 (wave t / 1048576), ?_, ?_, tide_is t⟩
    · simp [tideRaw, ht']
    · rw [List.getElem?_replicate, if_pos hi]
  small t i _ _ := by
    have h : (wave t : ℚ) ≤ 14680678 := by exact_mod_cast (wave_range t).2
    unfold tide
    rw [abs_of_nonneg (by positivity), div_le_iff₀ (by norm_num)]
    linarith

theorem Frames.wider {raw : List (List F32)} {X : ℕ → ℕ → ℚ} {M M' : ℚ} (h : Frames raw X M) (hM : M ≤ M') : Frames raw X M' :=
  ⟨h.width, h.value, fun t i ht hi => (h.small t i ht hi).trans hM⟩

/-- The sums of the machine go where `reached` says. -/
theorem tide_next {L : ℕ} (hL : L ≤ 23400600) {t i : ℕ} (ht : t < L) (hi : i < 40) {C : ℕ → F32}
    (h : 0 < t → Is (C i) (reached (t - 1) / 1024)) :
    Is (nextStats cmvn t C (cell (tideRaw L) t) (cell (tideRaw L) (t - 600)) i) (reached t / 1024) := by
  have hlen : (tideRaw L).length = L := by simp [tideRaw]
  have hcell : ∀ j, j < L → Is (cell (tideRaw L) j i) ((wave j : ℚ) / 1048576) :=
    fun j hj => cell_is (tide_frames L) (by rw [hlen]; exact hj) hi
  have rep : ∀ n : ℕ, n < 2 ^ 53 → Rep binary64 ((n : ℚ) / 1048576) := by
    intro n hn
    have := rep_scale (f := binary64) (n := n) (k := -20) hn (by decide) (by decide)
    rwa [show pow2 (-20) = 1 / 1048576 by rw [pow2_eq]; norm_num, mul_one_div] at this
  obtain ⟨w1, w2⟩ := wave_range t
  unfold nextStats
  rw [if_neg (by omega)]
  by_cases h6 : 600 ≤ t
  · rw [if_pos h6]
    obtain ⟨u1, u2⟩ := wave_range (t - 600)
    obtain ⟨p1, -⟩ := reached_high (t := t - 1) (by omega)
    have p0 := reached_low (t := t - 1) (by omega)
    obtain ⟨r1, -⟩ := reached_high (t := t) (by omega)
    have r0 := reached_low (t := t) (by omega)
    obtain ⟨n1, n2⟩ := reached_next h6
    have e1 : Is (plusD cmvn (cmvn.ofNat 1) (start cmvn t C i) (cell (tideRaw L) t i))
        (((1024 * reached (t - 1) + wave t : ℕ) : ℚ) / 1048576) := by
      rw [plusD_one (start_pos (by omega) (h (by omega))) (hcell t ht), show (reached (t - 1) : ℚ) / 1024 + (wave t : ℚ) / 1048576 =
        ((1024 * reached (t - 1) + wave t : ℕ) : ℚ) / 1048576 by push_cast; ring]
      exact fit_is (rep _ (by omega))
    have e2 : Is (plusD cmvn cmvn.negOne (plusD cmvn (cmvn.ofNat 1) (start cmvn t C i) (cell (tideRaw L) t i))
        (cell (tideRaw L) (t - 600) i)) (((1024 * reached (t - 1) + wave t - wave (t - 600) : ℕ) : ℚ) / 1048576) := by
      rw [plusD_minus e1 (hcell (t - 600) (by omega)), ← sub_div, ← Nat.cast_sub (by omega)]
      exact fit_is (rep _ (by omega))
    have e3 : cmvn.toF (plusD cmvn cmvn.negOne (plusD cmvn (cmvn.ofNat 1) (start cmvn t C i) (cell (tideRaw L) t i))
        (cell (tideRaw L) (t - 600) i)) = fit binary32 (((1024 * reached (t - 1) + wave t - wave (t - 600) : ℕ) : ℚ) / 1048576) :=
      single_is e2
    rw [e3]
    refine fit_grid (by omega) (by omega) ?_
    have m1 : (1024 : ℚ) * reached t ≤ ((1024 * reached (t - 1) + wave t - wave (t - 600) : ℕ) : ℚ) + 410 := by exact_mod_cast n1
    have m2 : ((1024 * reached (t - 1) + wave t - wave (t - 600) : ℕ) : ℚ) ≤ 1024 * reached t + 410 := by exact_mod_cast n2
    generalize ((1024 * reached (t - 1) + wave t - wave (t - 600) : ℕ) : ℚ) = A at *
    rw [abs_lt]
    constructor <;> linarith
  · rw [if_neg h6]
    have hb : Is (start cmvn t C i) ((14 * t : ℕ) : ℚ) := by
      by_cases h0 : t = 0
      · subst h0
        simpa using start_zero (C := C) i
      · have := start_pos (t := t) (C := C) (by omega) (h (by omega))
        rwa [show (reached (t - 1) : ℚ) / 1024 = ((14 * t : ℕ) : ℚ) by
          unfold reached
          rw [if_pos (by omega), show t - 1 + 1 = t by omega]
          push_cast
          ring] at this
    have hw : wave t = 14680064 := by unfold wave; rw [if_pos (by omega)]
    have e1 : Is (plusD cmvn (cmvn.ofNat 1) (start cmvn t C i) (cell (tideRaw L) t i)) ((14 * t + 14 : ℕ) : ℚ) := by
      rw [plusD_one hb (hcell t ht), hw, show ((14 * t : ℕ) : ℚ) + ((14680064 : ℕ) : ℚ) / 1048576 = ((14 * t + 14 : ℕ) : ℚ) by
        push_cast; ring]
      exact fit_is (rep_nat64 (by omega))
    have e3 : cmvn.toF (plusD cmvn (cmvn.ofNat 1) (start cmvn t C i) (cell (tideRaw L) t i)) = fit binary32 ((14 * t + 14 : ℕ) : ℚ) :=
      single_is e1
    rw [e3, show (reached t : ℚ) / 1024 = ((14 * t + 14 : ℕ) : ℚ) by
      unfold reached
      rw [if_pos (by omega)]
      push_cast
      ring]
    exact fit_is (rep_small (by omega))

/-- The mean of the last 600 frames. -/
theorem tide_mean (g : ℕ → ℚ) (k i : ℕ) : slideMean tide g (1800 * k + 599) i = 14 := by
  unfold slideMean
  have h1 : slideOwn (1800 * k + 599) = 600 := by unfold slideOwn; omega
  have h2 : slideExtra (1800 * k + 599) = 0 := by unfold slideExtra; omega
  rw [h1, h2]
  have h3 : slideSum tide (1800 * k + 599) i = ∑ j ∈ Finset.Ico (1800 * k) (1800 * k + 600), (14 : ℚ) := by
    unfold slideSum
    rw [show 1800 * k + 599 + 1 - 600 = 1800 * k by omega, show 1800 * k + 599 + 1 = 1800 * k + 600 by omega]
    refine Finset.sum_congr rfl fun j hj => ?_
    have := Finset.mem_Ico.mp hj
    unfold tide wave
    rw [if_pos (by omega)]
    norm_num
  rw [h3, Finset.sum_const, Nat.card_Ico]
  norm_num

end Verif.Ieee
