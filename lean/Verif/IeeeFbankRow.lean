import Verif.IeeeFbankMel
import Verif.FbankSpec
import Verif.PcmSpec

/-!
# Lemmas about a row of features on the machine
-/

namespace Verif.Ieee

open Verif Verif.Srfft Verif.Ieee.Spec Verif.Fbank Verif.Fbank.Spec

/-- The object that the constructor makes, for given filters. -/
def builtWith (lib : Lib) (bins : List (ℕ × List F32)) : Fbank.Ops F32 where
  zero := (fbank lib).zero
  add := (fbank lib).add
  sub := (fbank lib).sub
  mul := (fbank lib).mul
  div := (fbank lib).div
  ofInt := (fbank lib).ofInt
  preemph := (fbank lib).preemph
  lt := (fbank lib).lt
  nonneg := (fbank lib).nonneg
  eps := (fbank lib).eps
  log := (fbank lib).log
  window := vec 400 (fun i => (fbank lib).hamm ((fbank lib).mul ((fbank lib).hammAngle 399) ((fbank lib).ofInt i)))
  bins := bins
  fft := fun w b => compute (fftOps lib) (made (fftOps lib) 8) w w.length true b b.length

theorem make_built {lib : Lib} {bins : List (ℕ × List F32)} (hb : melInit (fbank lib) 512 = .ok bins) :
    make (fbank lib) = .ok (builtWith lib bins) := by
  unfold make
  rw [show roundUp frameLength = .ok 512 from by decide +kernel, ok_bind, hb, ok_bind,
    Srfft.new_pow (k := 8) (fbank lib).fft (by omega) rfl, ok_bind, hammingInit_ok, ok_bind]
  rfl

/-! ## Sums -/

theorem rep_sum {n a : ℕ} (hn : n < 2 ^ 9) (ha : a ≤ 119) : Rep binary32 ((n : ℚ) * 2 ^ a) := by
  have e : (2 : ℚ) ^ a = pow2 a := by rw [pow2_nat]; push_cast; rfl
  rw [e]
  refine ⟨⟨n, a, ?_, le_trans (show binary32.low ≤ 0 by decide) (by positivity), by push_cast; rfl⟩, ?_⟩
  · rw [abs_of_nonneg (by positivity)]
    have : (n : ℤ) < 2 ^ 9 := by exact_mod_cast hn
    exact lt_trans this (by decide)
  · rw [abs_of_nonneg (mul_nonneg (by positivity) (pow2_pos a).le)]
    refine lt_of_lt_of_le ?_ (pow2_le (show (9 : ℤ) + a ≤ binary32.top by rw [top32]; omega))
    rw [pow2_add]
    have : ((n : ℕ) : ℚ) < pow2 9 := by
      rw [pow2_eq]
      have : ((n : ℕ) : ℚ) < ((2 ^ 9 : ℕ) : ℚ) := by exact_mod_cast hn
      norm_num at this ⊢
      exact this
    exact mul_lt_mul_of_pos_right this (pow2_pos _)

theorem sum_mag {a : ℕ} (ha : a ≤ 119) : ∀ (l : List F32) (n : ℕ) (acc : F32) (q : ℚ), n + l.length < 2 ^ 9 → Is acc q →
    |q| ≤ n * 2 ^ a → (∀ v ∈ l, Mag a v) → ∃ r, Is (l.foldl add acc) r ∧ |r| ≤ ((n + l.length : ℕ) : ℚ) * 2 ^ a
  | [], n, acc, q, _, h1, h2, _ => ⟨q, h1, by simpa using h2⟩
  | v :: l, n, acc, q, hn, h1, h2, h3 => by
    obtain ⟨p, ep, hp⟩ := h3 v List.mem_cons_self
    rw [List.length_cons] at hn ⊢
    obtain ⟨r, er, hr⟩ := fit_le (f := binary32) (q := q + p) (rep_sum (n := n + 1) (by omega) ha) (by
      have := abs_add_le q p
      push_cast
      linarith)
    rw [List.foldl_cons, add_is h1 ep]
    have := sum_mag ha l (n + 1) _ r (by omega) er hr (fun v hv => h3 v (List.mem_cons_of_mem _ hv))
    rwa [show n + 1 + l.length = n + (l.length + 1) by omega] at this

theorem sum_pos {a : ℕ} (ha : a ≤ 119) : ∀ (l : List F32) (n : ℕ) (acc : F32) (q : ℚ), n + l.length < 2 ^ 9 → Is acc q →
    0 ≤ q → q ≤ n * 2 ^ a → (∀ v ∈ l, Pos a v) →
    ∃ r, Is (l.foldl add acc) r ∧ 0 ≤ r ∧ r ≤ ((n + l.length : ℕ) : ℚ) * 2 ^ a
  | [], n, acc, q, _, h1, h0, h2, _ => ⟨q, h1, h0, by simpa using h2⟩
  | v :: l, n, acc, q, hn, h1, h0, h2, h3 => by
    obtain ⟨p, ep, p0, hp⟩ := h3 v List.mem_cons_self
    rw [List.length_cons] at hn ⊢
    obtain ⟨r, er, r0, hr⟩ := fit_between (f := binary32) (q := q + p) rep_zero (rep_sum (n := n + 1) (by omega) ha)
      (by linarith) (by push_cast; linarith)
    rw [List.foldl_cons, add_is h1 ep]
    have := sum_pos ha l (n + 1) _ r (by omega) er r0 hr (fun v hv => h3 v (List.mem_cons_of_mem _ hv))
    rwa [show n + 1 + l.length = n + (l.length + 1) by omega] at this

/-! ## A frame -/

variable {lib : Lib} {bins : List (ℕ × List F32)}

theorem zero_is (lib : Lib) : Is (fbank lib).zero 0 := fit_is (f := binary32) rep_zero

theorem zero_mag (lib : Lib) (a : ℕ) : Mag a (fbank lib).zero := ⟨0, zero_is lib, by rw [abs_zero]; positivity⟩

theorem at_mag {a : ℕ} {x : List F32} (h : ∀ v ∈ x, Mag a v) (i : ℕ) : Mag a (at_ (builtWith lib bins) x i) := by
  unfold at_
  rw [List.getD_eq_getElem?_getD]
  cases e : x[i]? with
  | none => exact zero_mag lib a
  | some v => exact h v (List.mem_of_getElem? e)

theorem window_mag (hl : LibLaws lib) : ∀ v ∈ (builtWith lib bins).window, Mag 1 v := by
  intro v hv
  obtain ⟨i, hi, rfl⟩ := mem_vec.mp hv
  have h1 : Mag 3 ((fbank lib).hammAngle 399) := by
    refine mag_single (by omega) ?_
    have := mag_div (f := binary64) (n := 399) (by decide) mag_twoPi' (by decide) (rep64 (n := 399) (by decide))
    unfold ofNat at this
    exact_mod_cast this
  have h2 : Mag 9 ((fbank lib).ofInt i) := by
    refine ⟨i, int_is lib (by omega), ?_⟩
    rw [abs_of_nonneg (by positivity)]
    have : (i : ℚ) < 400 := by exact_mod_cast hi
    norm_num
    linarith
  have h3 : Mag 12 ((fbank lib).mul ((fbank lib).hammAngle 399) ((fbank lib).ofInt i)) := mag_mul (by decide) h1 h2
  refine mag_single (by omega) (mag_sub (a := 0) (by decide) ?_ (mag_mul (a := 0) (b := 0) (by decide) ?_ (mag_cos hl h3)))
  · exact fit_mag (by decide) (by rw [abs_of_nonneg (by norm_num)]; norm_num)
  · exact fit_mag (by decide) (by rw [abs_of_nonneg (by norm_num)]; norm_num)

theorem mean_mag {x : List F32} (hx : x.length = 400) (hm : ∀ v ∈ x, Mag 31 v) :
    Mag 31 ((fbank lib).div (x.foldl (fbank lib).add (fbank lib).zero) ((fbank lib).ofInt x.length)) := by
  obtain ⟨r, er, hr⟩ := sum_mag (a := 31) (by omega) x 0 (fbank lib).zero 0 (by omega) (zero_is lib) (by simp) hm
  rw [hx] at hr ⊢
  have e : (fbank lib).div (x.foldl (fbank lib).add (fbank lib).zero) ((fbank lib).ofInt (400 : ℕ)) = fit binary32 (r / (400 : ℕ)) :=
    div_is er (int_is lib (n := 400) (by decide)) (by norm_num)
  rw [e]
  refine fit_mag (by decide) ?_
  rw [abs_div, abs_of_pos (show (0 : ℚ) < (400 : ℕ) by norm_num), div_le_iff₀ (by norm_num)]
  push_cast at hr ⊢
  linarith

theorem preemph_mag {x y : F32} (hx : Mag 32 x) (hy : Mag 32 y) : Mag 33 ((fbank lib).preemph x y) := by
  refine mag_single (by omega) (mag_sub (a := 32) (by decide) (mag_double hx) ?_)
  have h : Mag 0 (fit binary64 (97 / 100)) := fit_mag (by decide) (by rw [abs_of_nonneg (by norm_num)]; norm_num)
  exact mag_mul (a := 0) (b := 32) (by decide) h (mag_double hy)

theorem windowed_mag (hl : LibLaws lib) {x : List F32} (hx : x.length = 400) (hm : ∀ v ∈ x, Mag 31 v) :
    ∀ v ∈ windowed (builtWith lib bins) x, Mag 34 v := by
  intro v hv
  unfold windowed at hv
  obtain ⟨i, -, rfl⟩ := List.mem_map.mp hv
  have hs : ∀ j, Mag 32 ((builtWith lib bins).sub (at_ (builtWith lib bins) x j) ((builtWith lib bins).div
      (x.foldl (builtWith lib bins).add (builtWith lib bins).zero) ((builtWith lib bins).ofInt x.length))) :=
    fun j => mag_sub (a := 31) (by decide) (at_mag hm j) (mean_mag (lib := lib) hx hm)
  exact mag_mul (a := 33) (b := 1) (by decide) (preemph_mag (lib := lib) (hs i) (hs (i - 1))) (at_mag (window_mag hl) i)

theorem spectrum_mag (hl : LibLaws lib) {x : List F32} (hx : x.length = 400) (hm : ∀ v ∈ x, Mag 31 v) :
    ∃ s, Fbank.Spec.spectrum (builtWith lib bins) x = .ok s ∧ s.length = 512 ∧ ∀ v ∈ s, Mag 56 v := by
  obtain ⟨r, er, hr⟩ := fft_mag hl (x := windowed (builtWith lib bins) x ++ List.replicate 112 (builtWith lib bins).zero)
    (b := List.replicate 512 (builtWith lib bins).zero) (by
      rw [ar_all]
      refine ⟨?_, fun v hv => ?_⟩
      · rw [List.length_append, List.length_replicate]
        unfold windowed
        rw [List.length_map, List.length_range, hx]
      · rcases List.mem_append.mp hv with hv | hv
        · exact windowed_mag hl hx hm v hv
        · rw [List.eq_of_mem_replicate hv]
          exact zero_mag lib 34) List.length_replicate
  rw [ar_all] at hr
  refine ⟨r.1, ?_, hr.1, hr.2⟩
  unfold Fbank.Spec.spectrum
  show Except.map Prod.fst (compute (fftOps lib) (made (fftOps lib) 8) _ _ true _ _) = _
  rw [er]
  rfl

/-! ## Energies -/

theorem square_pos {x : F32} (h : Mag 56 x) : Pos 112 (mul x x) := by
  obtain ⟨q, e, hq⟩ := h
  rw [mul_is e e]
  refine fit_pos (by omega) (mul_self_nonneg q) ?_
  rw [← abs_mul_abs_self]
  calc |q| * |q| ≤ 2 ^ 56 * 2 ^ 56 := mul_le_mul hq hq (abs_nonneg _) (by positivity)
    _ = 2 ^ 112 := by norm_num

theorem Pos.mono {a b : ℕ} {x : F32} (h : a ≤ b) (hx : Pos a x) : Pos b x := by
  obtain ⟨q, e, h0, hq⟩ := hx
  exact ⟨q, e, h0, hq.trans (pow_le_pow_right₀ (by norm_num) h)⟩

theorem pos_add {a : ℕ} (ha : a + 1 ≤ 127) {x y : F32} (hx : Pos a x) (hy : Pos a y) : Pos (a + 1) (add x y) := by
  obtain ⟨p, e1, p0, p1⟩ := hx
  obtain ⟨q, e2, q0, q1⟩ := hy
  rw [add_is e1 e2]
  refine fit_pos ha (by linarith) ?_
  rw [pow_succ]
  linarith

theorem pos_mul {a b : ℕ} (ha : a + b ≤ 127) {x y : F32} (hx : Pos a x) (hy : Pos b y) : Pos (a + b) (mul x y) := by
  obtain ⟨p, e1, p0, p1⟩ := hx
  obtain ⟨q, e2, q0, q1⟩ := hy
  rw [mul_is e1 e2]
  refine fit_pos ha (mul_nonneg p0 q0) ?_
  rw [pow_add]
  exact mul_le_mul p1 q1 q0 (by positivity)

theorem power_pos {s : List F32} (h : ∀ v ∈ s, Mag 56 v) (k : ℕ) : Pos 113 (power (builtWith lib bins) s k) := by
  unfold power
  split_ifs
  · exact (square_pos (at_mag h _)).mono (by omega)
  · exact (square_pos (at_mag h _)).mono (by omega)
  · exact pos_add (a := 112) (by omega) (square_pos (at_mag h _)) (square_pos (at_mag h _))

theorem energy_pos {s : List F32} (h : ∀ v ∈ s, Mag 56 v) {bin : ℕ × List F32} (hb : bin.1 + bin.2.length ≤ 256)
    (hw : ∀ w ∈ bin.2, Pos 0 w) : ∃ q, Is (energy (builtWith lib bins) s bin) q ∧ 0 ≤ q := by
  unfold energy
  obtain ⟨r, er, r0, -⟩ := sum_pos (a := 113) (by omega)
    ((List.range bin.2.length).map fun j => mul (at_ (builtWith lib bins) bin.2 j) (power (builtWith lib bins) s (bin.1 + j)))
    0 (fbank lib).zero 0 (by rw [List.length_map, List.length_range]; omega) (zero_is lib) (le_refl _) (by simp) (by
      intro v hv
      obtain ⟨j, -, rfl⟩ := List.mem_map.mp hv
      refine pos_mul (a := 0) (b := 113) (by omega) ?_ (power_pos h _)
      unfold at_
      rw [List.getD_eq_getElem?_getD]
      cases e : bin.2[j]? with
      | none => exact ⟨0, zero_is lib, le_refl _, by norm_num⟩
      | some v => exact hw v (List.mem_of_getElem? e))
  exact ⟨r, er, r0⟩

theorem eps_is (lib : Lib) : Is (fbank lib).eps (1 / 2 ^ 23) := by
  have := rep_scale (f := binary32) (n := 1) (k := -23) (by decide) (by decide) (by decide)
  rw [show ((1 : ℕ) : ℚ) * pow2 (-23) = 1 / 2 ^ 23 by rw [pow2_eq]; norm_num] at this
  exact fit_is this

theorem nonneg_is {x : F32} {q : ℚ} (h : Is x q) (h0 : 0 ≤ q) : (fbank lib).nonneg x = true := by
  have e : (fbank lib).nonneg x = le zeroD (double x) := by simp only [fbank]
  have hz : Is zeroD 0 := fit_is (f := binary64) rep_zero
  rw [e, le_is hz (double_is h), decide_eq_true_eq]
  exact h0

theorem floor_is {e : F32} (h : ∃ q, Is e q ∧ 0 ≤ q) :
    ∃ q, Is (if (fbank lib).lt e (fbank lib).eps = true then (fbank lib).eps else e) q ∧ 1 / 2 ^ 23 ≤ q := by
  obtain ⟨q, eq, -⟩ := h
  have hlt : (fbank lib).lt e (fbank lib).eps = decide (q < 1 / 2 ^ 23) := lt_is eq (eps_is lib)
  rw [hlt]
  by_cases hq : q < 1 / 2 ^ 23
  · rw [if_pos (by simpa using hq)]
    exact ⟨_, eps_is lib, le_refl _⟩
  · rw [if_neg (by simpa using hq)]
    exact ⟨q, eq, not_lt.mp hq⟩

/-- The features of a frame of samples of at most 2^31: forty numbers. -/
theorem row_between (hl : LibLaws lib) (hlen : bins.length = 40)
    (hbins : ∀ b ∈ bins, b.1 + b.2.length ≤ 256 ∧ ∀ w ∈ b.2, Pos 0 w) {x : List F32} (hx : x.length = 400)
    (hm : ∀ v ∈ x, Mag 31 v) :
    ∃ r, row (builtWith lib bins) x = .ok r ∧ r.length = 40 ∧ ∀ v ∈ r, Between (-16) 89 v := by
  obtain ⟨s, es, -, hs⟩ := spectrum_mag (bins := bins) hl hx hm
  have hfl : ∀ b ∈ bins, ∃ q, Is (if (fbank lib).lt (energy (builtWith lib bins) s b) (fbank lib).eps = true then (fbank lib).eps
      else energy (builtWith lib bins) s b) q ∧ 1 / 2 ^ 23 ≤ q := fun b hb =>
    floor_is (energy_pos hs (hbins b hb).1 (hbins b hb).2)
  have hlog : loggable (builtWith lib bins) s = true := by
    unfold loggable
    rw [List.all_eq_true]
    intro b hb
    obtain ⟨q, eq, hq⟩ := hfl b hb
    have h := nonneg_is (lib := lib) eq (le_trans (by positivity) hq)
    have e1 : (builtWith lib bins).nonneg = (fbank lib).nonneg := by simp only [builtWith]
    have e2 : (builtWith lib bins).lt = (fbank lib).lt := by simp only [builtWith]
    have e3 : (builtWith lib bins).eps = (fbank lib).eps := by simp only [builtWith]
    rw [e1, e2, e3]
    exact h
  refine ⟨bins.map (feature (builtWith lib bins) s), ?_, by rw [List.length_map, hlen], fun v hv => ?_⟩
  · unfold row
    rw [es, ok_bind, if_pos hlog]
    rfl
  · obtain ⟨b, hb, rfl⟩ := List.mem_map.mp hv
    obtain ⟨q, eq, hq⟩ := hfl b hb
    exact hl.log eq hq

end Verif.Ieee
