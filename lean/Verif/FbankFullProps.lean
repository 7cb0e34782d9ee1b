import Verif.FbankInit
import Verif.FbankProps
import Verif.FbankReal
import Mathlib.Analysis.SpecialFunctions.Trigonometric.Bounds
import Mathlib.Algebra.BigOperators.Intervals

/-!
# Properties C27, C61, C62 and C63: the feature extraction as it is constructed
-/

namespace Verif.Fbank

open Finset
open Srfft (vec vec_length vec_get vec_congr elem fourier)

/-! ## C27 for the constructed object -/

/-- **C27** without assumptions about tables and FFT: whatever the arithmetic, for every object the constructor makes. -/
theorem C27_constructed_partial {F : Type} {a : Arith F} {o : Ops F} (ho : make a = .ok o)
    (cs : List (Junk F × List F)) (hcs : ∀ c ∈ cs, c.2 ≠ [] ∧ c.2.length < 536870500)
    (x : List F) (hx : x = (cs.map Prod.snd).flatten) :
    feed o [] cs = (do
      let rows ← (Spec.frames x).mapM (Spec.row o)
      .ok (rows, x.drop (160 * (Spec.frames x).length))) :=
  C27_chunk_independence_partial o (make_ok ho).1 (make_ok ho).2 cs hcs x hx

/-- The constructor can succeed (C61 says so for exact arithmetic). -/
example : ∃ o, make realArith = .ok o := by
  obtain ⟨bins, hb, -, -⟩ := bins_real
  exact ⟨_, make_real hb⟩

/-! ## C61 -/

/-- The mel scale. -/
noncomputable def mel (f : ℝ) : ℝ := 1127 * Real.log (1 + f / 700)

/-- Corner `b` of the filters: 42 equidistant points on the mel scale from 20 Hz to 8000 Hz. -/
noncomputable def corner (b : ℕ) : ℝ := mel 20 + b * (mel 8000 - mel 20) / 41

/-- FFT bin `i` of 512 at 16 kHz on the mel scale. -/
noncomputable def place (i : ℕ) : ℝ := mel (16000 * i / 512)

/-- Filter `b` at bin `i`: a triangle that rises from corner `b` to corner `b + 1` and falls to corner `b + 2`. -/
noncomputable def triangle (b i : ℕ) : ℝ :=
  max 0 (min ((place i - corner b) / (corner (b + 1) - corner b)) ((corner (b + 2) - place i) / (corner (b + 2) - corner (b + 1))))

theorem corner_eq (b : ℕ) : corner b = bound b := by
  unfold corner bound gap mel melOf
  ring

theorem place_eq (i : ℕ) : place i = binMel i := by
  unfold place binMel mel melOf
  congr 4
  ring

theorem triangle_eq (b i : ℕ) : triangle b i = weight b i := by
  unfold triangle weight
  rw [corner_eq, corner_eq, corner_eq, place_eq, bound_succ (b + 1), bound_succ b]
  rw [show bound b + gap - bound b = gap by ring, show bound b + gap + gap - (bound b + gap) = gap by ring]

theorem weight_outside {b f l : ℕ} (hb : b < 40)
    (h3 : ∀ i, i < 256 → (f ≤ i ∧ i ≤ l ↔ bound b < binMel i ∧ binMel i < bound (b + 2))) {i : ℕ} (hi : i ≤ 256)
    (hout : ¬ (f ≤ i ∧ i ≤ l) ∨ i = 256) : weight b i = 0 := by
  by_cases h256 : i = 256
  · subst h256
    apply weight_zero
    rintro ⟨-, g⟩
    have e1 : binMel 256 = bound 41 := by
      unfold binMel bound gap
      norm_num
      ring
    have e2 : bound 41 = bound (b + 2) + (39 - b) * gap := by
      unfold bound
      push_cast
      ring
    have : (b : ℝ) ≤ 39 := by exact_mod_cast (by omega : b ≤ 39)
    have hg := gap_pos
    have : 0 ≤ (39 - (b : ℝ)) * gap := mul_nonneg (by linarith) (le_of_lt hg)
    linarith
  · apply weight_zero
    intro g
    have := (h3 i (by omega)).mpr g
    omega

/-- C61: in exact arithmetic the constructor succeeds, and makes 40 filters, each of at least two weights inside bins 0 to
255.  The stored weights are the positive values of the triangle; the triangle is zero at all other bins, the bin at 8000 Hz
included, which the loop does not visit. -/
theorem C61_filters : ∃ o, make realArith = .ok o ∧ o.bins.length = 40 ∧
    ∀ b, b < 40 → ∃ off ws, o.bins[b]? = some (off, ws) ∧ 2 ≤ ws.length ∧ off + ws.length ≤ 256 ∧
      (∀ j, j < ws.length → ws[j]? = some (triangle b (off + j)) ∧ 0 < triangle b (off + j)) ∧
      (∀ i, i ≤ 256 → i < off ∨ off + ws.length ≤ i → triangle b i = 0) := by
  obtain ⟨bins, hb, hl, h⟩ := bins_real
  refine ⟨realFbank bins, make_real hb, hl, fun b hb => ?_⟩
  obtain ⟨f, l, h1, h2, h3, h4⟩ := h b hb
  refine ⟨f, _, h4, ?_, ?_, ?_, ?_⟩
  · rw [vec_length]; omega
  · rw [vec_length]; omega
  · intro j hj
    rw [vec_length] at hj
    rw [vec_get _ hj, triangle_eq]
    have := (h3 (f + j) (by omega)).mp ⟨by omega, by omega⟩
    exact ⟨rfl, weight_pos this.1 this.2⟩
  · intro i hi hout
    rw [vec_length] at hout
    rw [triangle_eq]
    exact weight_outside hb h3 hi (by omega)

/-- C61: between the first and the last centre the weights of a bin add up to one. -/
theorem C61_partition (i : ℕ) (h1 : corner 1 ≤ place i) (h2 : place i ≤ corner 40) :
    ∑ b ∈ range 40, triangle b i = 1 := by
  have hg := gap_pos
  obtain ⟨x, hx⟩ : ∃ x : ℝ, x = (place i - corner 0) / gap := ⟨_, rfl⟩
  have hc : ∀ b : ℕ, corner b = corner 0 + b * gap := by
    intro b
    rw [corner_eq, corner_eq]
    unfold bound
    push_cast
    ring
  have ht : ∀ b : ℕ, triangle b i = max 0 (min (x - b) (b + 2 - x)) := by
    intro b
    unfold triangle
    rw [hc b, hc (b + 1), hc (b + 2), hx]
    push_cast
    rw [show corner 0 + (b + 1) * gap - (corner 0 + b * gap) = gap by ring,
      show corner 0 + (b + 2) * gap - (corner 0 + (b + 1) * gap) = gap by ring]
    congr 2
    · field_simp
      ring
    · field_simp
      ring
  have hx1 : 1 ≤ x := by
    rw [hx, le_div_iff₀ hg]
    rw [hc 1] at h1
    push_cast at h1
    linarith
  have hx2 : x ≤ 40 := by
    rw [hx, div_le_iff₀ hg]
    rw [hc 40] at h2
    push_cast at h2
    linarith
  obtain ⟨c, hc1, hc2, hc3⟩ : ∃ c : ℕ, c < 39 ∧ (c : ℝ) + 1 ≤ x ∧ x ≤ c + 2 := by
    by_cases h : x < 40
    · refine ⟨⌊x⌋₊ - 1, ?_, ?_, ?_⟩
      · have : ⌊x⌋₊ < 40 := (Nat.floor_lt (by linarith)).mpr (by exact_mod_cast h)
        have : 1 ≤ ⌊x⌋₊ := Nat.one_le_floor_iff x |>.mpr hx1
        omega
      · have h1 : 1 ≤ ⌊x⌋₊ := Nat.one_le_floor_iff x |>.mpr hx1
        have := Nat.floor_le (show 0 ≤ x by linarith)
        rw [Nat.cast_sub h1]
        push_cast
        linarith
      · have h1 : 1 ≤ ⌊x⌋₊ := Nat.one_le_floor_iff x |>.mpr hx1
        have := Nat.lt_floor_add_one x
        rw [Nat.cast_sub h1]
        push_cast
        linarith
    · exact ⟨38, by omega, by push_cast; linarith, by push_cast; linarith⟩
  have hsum : ∀ b ∈ range 40, b ∉ ({c, c + 1} : Finset ℕ) → triangle b i = 0 := by
    intro b _ hb
    rw [ht]
    apply max_eq_left
    simp only [Finset.mem_insert, Finset.mem_singleton, not_or] at hb
    rcases Nat.lt_or_gt_of_ne hb.1 with h | h
    · apply min_le_of_right_le
      have : (b : ℝ) + 1 ≤ c := by exact_mod_cast h
      linarith
    · apply min_le_of_left_le
      have : (c : ℝ) + 2 ≤ b := by exact_mod_cast (by omega : c + 2 ≤ b)
      linarith
  rw [← Finset.sum_subset (s₁ := {c, c + 1}) (by
    intro b hb
    simp only [Finset.mem_insert, Finset.mem_singleton] at hb
    exact Finset.mem_range.mpr (by omega)) hsum, Finset.sum_pair (by omega), ht, ht]
  push_cast
  rw [min_eq_right (by linarith), min_eq_left (by linarith), max_eq_right (by linarith), max_eq_right (by linarith)]
  ring

/-- Bin 100 (3125 Hz) lies between the first and the last centre. -/
example : corner 1 ≤ place 100 ∧ place 100 ≤ corner 40 := by
  rw [corner_eq, corner_eq, place_eq]
  exact ⟨le_of_lt (bound_lt_bin (by omega) (by decide +kernel)), le_of_lt (bin_lt_bound (by omega) (by decide +kernel))⟩

/-! ## C62 -/

/-- The Hamming window of 400 points. -/
noncomputable def hamming (i : ℕ) : ℝ := 0.54 - 0.46 * Real.cos (2 * Real.pi * i / 399)

theorem hamming_symmetric (i : ℕ) (h : i ≤ 399) : hamming (399 - i) = hamming i := by
  unfold hamming
  rw [Nat.cast_sub h]
  congr 2
  rw [show 2 * Real.pi * ((399 : ℕ) - (i : ℝ)) / 399 = 2 * Real.pi - 2 * Real.pi * i / 399 by push_cast; ring,
    Real.cos_two_pi_sub]

/-- C62: the window has 400 values between 0.08 and 1, each within `10^-12` of the Hamming window (the program uses a
constant for twice pi), in exact arithmetic; so it is symmetric up to twice that. -/
theorem C62_hamming : ∃ o, make realArith = .ok o ∧ o.window.length = 400 ∧
    ∀ i, i < 400 → ∃ v, o.window[i]? = some v ∧ 0.08 ≤ v ∧ v ≤ 1 ∧ |v - hamming i| ≤ 1 / 10 ^ 12 ∧
      ∃ w, o.window[399 - i]? = some w ∧ |v - w| ≤ 2 / 10 ^ 12 := by
  obtain ⟨bins, hb, -, -⟩ := bins_real
  refine ⟨realFbank bins, make_real hb, vec_length _ _, ?_⟩
  have near : ∀ i : ℕ, i < 400 → |(0.54 - 0.46 * Real.cos (6.28318530718 / 399 * i)) - hamming i| ≤ 1 / 10 ^ 12 := by
    intro i hi
    unfold hamming
    have h1 := Real.abs_cos_sub_cos_le (6.28318530718 / 399 * i) (2 * Real.pi * i / 399)
    have h2 : (i : ℝ) ≤ 399 := by exact_mod_cast (by omega : i ≤ 399)
    have h3 : (0 : ℝ) ≤ i := Nat.cast_nonneg i
    have h4 := Real.pi_gt_d20
    have h5 := Real.pi_lt_d20
    have h6 : |6.28318530718 / 399 * (i : ℝ) - 2 * Real.pi * i / 399| ≤ 1 / 10 ^ 12 := by
      rw [show 6.28318530718 / 399 * (i : ℝ) - 2 * Real.pi * i / 399 = (6.28318530718 - 2 * Real.pi) * (i / 399) by ring, abs_mul]
      have a1 : |6.28318530718 - 2 * Real.pi| ≤ 1 / 10 ^ 12 := by
        rw [abs_le]
        constructor
        · norm_num at h4 h5 ⊢
          linarith
        · norm_num at h4 h5 ⊢
          linarith
      have a2 : |(i : ℝ) / 399| ≤ 1 := by
        rw [abs_of_nonneg (by positivity)]
        rw [div_le_one (by norm_num)]
        exact h2
      calc |6.28318530718 - 2 * Real.pi| * |(i : ℝ) / 399| ≤ (1 / 10 ^ 12) * 1 :=
            mul_le_mul a1 a2 (abs_nonneg _) (by positivity)
        _ = 1 / 10 ^ 12 := by ring
    rw [show 0.54 - 0.46 * Real.cos (6.28318530718 / 399 * i) - (0.54 - 0.46 * Real.cos (2 * Real.pi * i / 399)) =
      (-0.46) * (Real.cos (6.28318530718 / 399 * i) - Real.cos (2 * Real.pi * i / 399)) by ring, abs_mul,
      show |(-0.46 : ℝ)| = 0.46 by norm_num [abs_of_nonneg, abs_of_neg]]
    have := abs_nonneg (Real.cos (6.28318530718 / 399 * i) - Real.cos (2 * Real.pi * i / 399))
    linarith
  intro i hi
  refine ⟨_, vec_get _ hi, ?_, ?_, near i hi, _, vec_get _ (by omega), ?_⟩
  · have := Real.cos_le_one (6.28318530718 / 399 * i)
    linarith
  · have := Real.neg_one_le_cos (6.28318530718 / 399 * i)
    linarith
  · have h1 := abs_le.mp (near i hi)
    have h2 := abs_le.mp (near (399 - i) (by omega))
    rw [hamming_symmetric i (by omega)] at h2
    rw [abs_le]
    have e : (2 : ℝ) / 10 ^ 12 = 1 / 10 ^ 12 + 1 / 10 ^ 12 := by norm_num
    rw [e]
    constructor <;> linarith

/-! ## C63 -/

/-- A frame without its mean. -/
noncomputable def centred (f : ℕ → ℝ) (j : ℕ) : ℝ := f j - (∑ i ∈ range 400, f i) / 400

/-- The taper of the program. -/
noncomputable def taper (i : ℕ) : ℝ := 0.54 - 0.46 * Real.cos (6.28318530718 / 399 * i)

/-- A frame after removal of the mean, pre-emphasis and windowing, padded with zeros. -/
noncomputable def shaped (f : ℕ → ℝ) (j : ℕ) : ℝ :=
  if j < 400 then (centred f j - 0.97 * centred f (j - 1)) * taper j else 0

/-- The power spectrum of a frame. -/
noncomputable def powerOf (f : ℕ → ℝ) (k : ℕ) : ℝ := ‖fourier (-1) 512 (fun j => (shaped f j : ℂ)) k‖ ^ 2

/-- Feature `b` of a frame: the logarithm of the energy passed by filter `b`, floored. -/
noncomputable def logMel (f : ℕ → ℝ) (b : ℕ) : ℝ :=
  Real.log (max (1 / 2 ^ 23) (∑ k ∈ range 257, triangle b k * powerOf f k))

theorem foldl_sum (g : ℕ → ℝ) (n : ℕ) : ((List.range n).map g).foldl (fun x y => x + y) 0 = ∑ i ∈ range n, g i := by
  induction n with
  | zero => rfl
  | succ n ih =>
    rw [List.range_succ, List.map_append, List.foldl_append, ih, Finset.sum_range_succ]
    rfl

theorem elem_vec {n : ℕ} {f : ℕ → ℝ} (h : ∀ j, n ≤ j → f j = 0) : elem (vec n f) = f := by
  funext j
  unfold elem
  rw [List.getD_eq_getElem?_getD]
  by_cases hj : j < n
  · rw [vec_get _ hj]; rfl
  · rw [List.getElem?_eq_none (by rw [vec_length]; omega), h j (by omega)]
    rfl

theorem windowed_real (bins : List (ℕ × List ℝ)) {x : List ℝ} (hx : x.length = 400) :
    Spec.windowed (realFbank bins) x ++ List.replicate 112 (0 : ℝ) = vec 512 (shaped (elem x)) := by
  have hmean : x.foldl (fun a b => a + b) 0 = ∑ i ∈ range 400, elem x i := by
    conv_lhs => rw [Srfft.eq_elem x, hx]
    exact foldl_sum _ _
  apply Srfft.eq_vec
  · unfold Spec.windowed
    simp only [List.length_append, List.length_map, List.length_range, List.length_replicate]
    omega
  · intro i hi
    have hl : (Spec.windowed (realFbank bins) x).length = 400 := by
      unfold Spec.windowed
      simp only [List.length_map, List.length_range]
      exact hx
    unfold shaped
    by_cases h : i < 400
    · rw [List.getElem?_append_left (by omega), if_pos h]
      unfold Spec.windowed
      simp only
      rw [List.getElem?_map, List.getElem?_range (by omega)]
      have e : Spec.at_ (realFbank bins) (realFbank bins).window i = taper i := by
        unfold Spec.at_
        rw [List.getD_eq_getElem?_getD, show (realFbank bins).window[i]? = _ from vec_get _ h]
        rfl
      have ec : ∀ j, (realFbank bins).sub (Spec.at_ (realFbank bins) x j) ((realFbank bins).div
          (List.foldl (realFbank bins).add (realFbank bins).zero x) ((realFbank bins).ofInt x.length)) = centred (elem x) j := by
        intro j
        unfold centred
        rw [← hmean]
        show elem x j - x.foldl (fun a b => a + b) 0 / (((x.length : ℕ) : ℤ) : ℝ) = _
        rw [hx]
        norm_num
      simp only [Option.map_some]
      rw [ec, ec, e]
      rfl
    · rw [List.getElem?_append_right (by omega), if_neg h, hl, List.getElem?_replicate, if_pos (by omega)]

theorem power_real (bins : List (ℕ × List ℝ)) {s : List ℝ} {X : ℕ → ℂ} (hl : s.length = 512) (hs : Srfft.Packed 512 s X)
    (h0 : (X 0).im = 0) (h256 : (X 256).im = 0) (k : ℕ) (hk : k ≤ 256) : Spec.power (realFbank bins) s k = ‖X k‖ ^ 2 := by
  have at_some : ∀ {i : ℕ} {v : ℝ}, s[i]? = some v → Spec.at_ (realFbank bins) s i = v := by
    intro i v h
    unfold Spec.at_
    rw [List.getD_eq_getElem?_getD, h]
    rfl
  rw [← Complex.normSq_eq_norm_sq, Complex.normSq_apply]
  unfold Spec.power
  by_cases hk0 : k = 0
  · subst hk0
    rw [if_pos rfl, at_some hs.1, h0]
    show _ * _ = _
    ring
  · rw [if_neg hk0, hl]
    by_cases hk1 : k = 256
    · subst hk1
      rw [if_pos (by norm_num), at_some hs.2.1, h256]
      show _ * _ = _
      norm_num
    · rw [if_neg (by omega)]
      obtain ⟨e1, e2⟩ := hs.2.2 k (by omega) (by omega)
      rw [at_some e1, at_some e2]
      rfl

theorem fourier_edge (x : ℕ → ℝ) : (fourier (-1) 512 (fun j => (x j : ℂ)) 0).im = 0 ∧
    (fourier (-1) 512 (fun j => (x j : ℂ)) 256).im = 0 := by
  unfold fourier
  constructor
  · rw [Complex.im_sum]
    apply Finset.sum_eq_zero
    intro j _
    norm_num
  · rw [Complex.im_sum]
    apply Finset.sum_eq_zero
    intro j _
    have e : ((-1 : ℝ) : ℂ) * (2 * (Real.pi : ℂ) * j * (256 : ℕ) / (512 : ℕ)) * Complex.I = ((j : ℤ) : ℂ) * (-(Real.pi * Complex.I)) := by
      push_cast
      ring
    rw [e, Complex.exp_int_mul, Complex.exp_neg, Complex.exp_pi_mul_I]
    have : ((-1 : ℂ)⁻¹) ^ (j : ℤ) = (((-1 : ℝ) ^ j : ℝ) : ℂ) := by
      push_cast
      rw [zpow_natCast]
      norm_num
    rw [this, ← Complex.ofReal_mul, Complex.ofReal_im]

theorem floor_real (bins : List (ℕ × List ℝ)) (e : ℝ) :
    (if (realFbank bins).lt e (realFbank bins).eps then (realFbank bins).eps else e) = max (1 / 2 ^ 23) e := by
  have hl : (realFbank bins).lt e (realFbank bins).eps = true ↔ e < 1 / 2 ^ 23 := by
    show decide _ = true ↔ _
    rw [decide_eq_true_eq]
    rfl
  by_cases h : e < 1 / 2 ^ 23
  · rw [if_pos (hl.mpr h), max_eq_left (le_of_lt h)]
    rfl
  · rw [if_neg (fun g => h (hl.mp g)), max_eq_right (not_lt.mp h)]

theorem row_real {bins : List (ℕ × List ℝ)} (hb : melInit realArith 512 = .ok bins) {x : List ℝ} (hx : x.length = 400) :
    Spec.row (realFbank bins) x = .ok ((List.range 40).map (logMel (elem x))) := by
  obtain ⟨bins', hb', hlen, hbins⟩ := bins_real
  rw [hb] at hb'
  cases hb'
  -- the spectrum
  obtain ⟨t, ht, hf⟩ := Srfft.C48_forward (k := 9) (by omega)
  rw [Srfft.new_pow (k := 8) Srfft.realOps (by omega) rfl] at ht
  cases ht
  obtain ⟨B, eB, hB⟩ : ∃ B : List ℝ, B = List.replicate 512 0 ∧ B.length = 512 := ⟨_, rfl, List.length_replicate⟩
  obtain ⟨w, ew, hw⟩ : ∃ w, w = vec 512 (shaped (elem x)) ∧ w.length = 512 := ⟨_, rfl, vec_length _ _⟩
  obtain ⟨s, buf, e1, hp, hl, -, -, -⟩ := hf w B 512 (by rw [hw]; norm_num) (by rw [hB]; norm_num) (by norm_num)
  have hspec : Spec.spectrum (realFbank bins) x = .ok s := by
    unfold Spec.spectrum
    have e2 : (realFbank bins).fft w B = .ok (s, buf) := by
      rw [← e1]
      show Srfft.compute Srfft.realOps (Srfft.made Srfft.realOps 8) w w.length true B B.length = _
      rw [hw, hB]
      rfl
    rw [show (realFbank bins).zero = 0 from rfl, windowed_real bins hx, ← eB, ← ew, e2]
    rfl
  rw [hw] at hl
  have hX : elem w = shaped (elem x) := by
    rw [ew]
    apply elem_vec
    intro j hj
    unfold shaped
    rw [if_neg (by omega)]
  rw [hX] at hp
  norm_num at hp
  obtain ⟨h0, h256⟩ := fourier_edge (shaped (elem x))
  have hpow : ∀ k, k ≤ 256 → Spec.power (realFbank bins) s k = powerOf (elem x) k := by
    intro k hk
    unfold powerOf
    exact power_real bins hl hp h0 h256 k hk
  -- the energies
  have hen : ∀ b, b < 40 → ∃ bin, bins[b]? = some bin ∧
      Spec.energy (realFbank bins) s bin = ∑ k ∈ range 257, triangle b k * powerOf (elem x) k := by
    intro b hb
    obtain ⟨f, l, h1, h2, h3, h4⟩ := hbins b hb
    refine ⟨_, h4, ?_⟩
    unfold Spec.energy
    simp only
    rw [vec_length]
    have e : ((List.range (l + 1 - f)).map fun j => (realFbank bins).mul (Spec.at_ (realFbank bins) (vec (l + 1 - f)
        (fun k => weight b (f + k))) j) (Spec.power (realFbank bins) s (f + j))) =
        (List.range (l + 1 - f)).map fun j => weight b (f + j) * powerOf (elem x) (f + j) := by
      apply List.map_congr_left
      intro j hj
      have hj := List.mem_range.mp hj
      rw [hpow (f + j) (by omega)]
      show Spec.at_ _ _ _ * _ = _
      unfold Spec.at_
      rw [List.getD_eq_getElem?_getD, vec_get _ hj]
      rfl
    rw [e]
    refine (foldl_sum _ _).trans ?_
    rw [← Finset.sum_Ico_eq_sum_range (fun k => weight b k * powerOf (elem x) k) f (l + 1)]
    rw [Finset.sum_congr rfl (fun k _ => by rw [← triangle_eq b k])]
    apply Finset.sum_subset
    · intro k hk
      have := Finset.mem_Ico.mp hk
      exact Finset.mem_range.mpr (by omega)
    · intro k hk hn
      have hk := Finset.mem_range.mp hk
      rw [Finset.mem_Ico] at hn
      rw [triangle_eq, weight_outside hb h3 (by omega) (by omega), zero_mul]
  have hfeat : ∀ b, b < 40 → ∃ bin, bins[b]? = some bin ∧ Spec.feature (realFbank bins) s bin = logMel (elem x) b ∧
      (realFbank bins).nonneg (if (realFbank bins).lt (Spec.energy (realFbank bins) s bin) (realFbank bins).eps then
        (realFbank bins).eps else Spec.energy (realFbank bins) s bin) = true := by
    intro b hb
    obtain ⟨bin, e1, e2⟩ := hen b hb
    have hfl : (if (realFbank bins).lt (Spec.energy (realFbank bins) s bin) (realFbank bins).eps then
        (realFbank bins).eps else Spec.energy (realFbank bins) s bin) =
        max (1 / 2 ^ 23) (∑ k ∈ range 257, triangle b k * powerOf (elem x) k) := by
      rw [e2]
      exact floor_real bins _
    refine ⟨bin, e1, ?_, ?_⟩
    · unfold Spec.feature logMel
      simp only
      rw [hfl]
      rfl
    · rw [hfl]
      apply decide_eq_true
      exact le_max_of_le_left (by positivity)
  have hbinsl : (realFbank bins).bins = bins := rfl
  unfold Spec.row
  rw [hspec, ok_bind, if_pos]
  · apply congrArg Except.ok
    rw [hbinsl]
    apply List.ext_getElem?
    intro b
    by_cases hb : b < 40
    · obtain ⟨bin, e1, e2, -⟩ := hfeat b hb
      rw [List.getElem?_map, List.getElem?_map, e1, List.getElem?_range hb]
      exact congrArg some e2
    · rw [List.getElem?_eq_none (by rw [List.length_map]; omega), List.getElem?_eq_none (by rw [List.length_map, List.length_range]; omega)]
  · unfold Spec.loggable
    rw [List.all_eq_true, hbinsl]
    intro bin hbin
    obtain ⟨b, hb, e⟩ := List.getElem_of_mem hbin
    obtain ⟨bin', e1, -, e3⟩ := hfeat b (by omega)
    rw [List.getElem?_eq_getElem hb, e] at e1
    cases e1
    exact e3

/-- C63: in exact arithmetic the feature extraction never fails, and computes the log mel features: however a signal is cut
into pieces, row `i` consists of the 40 features of the samples `160 i` to `160 i + 399`, each the logarithm of the floored
energy that its triangle filter passes of the power spectrum of the frame, after removal of the mean, pre-emphasis and
windowing. -/
theorem C63_log_mel : ∃ o, make realArith = .ok o ∧
    ∀ (cs : List (Junk ℝ × List ℝ)), (∀ c ∈ cs, c.2 ≠ [] ∧ c.2.length < 536870500) →
      ∀ x, x = (cs.map Prod.snd).flatten →
      ∃ rows rest, feed o [] cs = .ok (rows, rest) ∧
        rows.length = (if x.length < 400 then 0 else (x.length - 400) / 160 + 1) ∧
        ∀ i, i < rows.length → ∃ row, rows[i]? = some row ∧ row.length = 40 ∧
          ∀ b, b < 40 → row[b]? = some (logMel (fun j => x.getD (160 * i + j) 0) b) := by
  obtain ⟨bins, hb, -, -⟩ := bins_real
  refine ⟨realFbank bins, make_real hb, fun cs hcs x hx => ?_⟩
  subst hx
  obtain ⟨hT, hS⟩ := make_ok (make_real hb)
  obtain ⟨hfl, hfr⟩ := C27_frames (cs.map Prod.snd).flatten
  have hrow : ∀ f ∈ Spec.frames (cs.map Prod.snd).flatten, Spec.row (realFbank bins) f = .ok ((List.range 40).map (logMel (elem f))) := by
    intro f hf
    apply row_real hb
    obtain ⟨i, hi, e⟩ := List.getElem_of_mem hf
    obtain ⟨f', e1, e2, -⟩ := hfr i hi
    rw [List.getElem?_eq_getElem hi, e] at e1
    cases e1
    exact e2
  obtain ⟨rest, e, -⟩ := C27_rows (realFbank bins) hT hS cs hcs (fun f => (List.range 40).map (logMel (elem f))) hrow
  refine ⟨_, rest, e, by rw [List.length_map, hfl], ?_⟩
  intro i hi
  rw [List.length_map] at hi
  obtain ⟨f, e1, e2, e3⟩ := hfr i hi
  refine ⟨_, by rw [List.getElem?_map, e1]; rfl, by rw [List.length_map, List.length_range], ?_⟩
  intro b hb
  rw [List.getElem?_map, List.getElem?_range hb]
  apply congrArg some
  have hel : ∀ j, j < 400 → elem f j = (cs.map Prod.snd).flatten.getD (160 * i + j) 0 := by
    intro j hj
    unfold elem
    rw [List.getD_eq_getElem?_getD, List.getD_eq_getElem?_getD, e3 j hj]
  have hsh : shaped (elem f) = shaped (fun j => (cs.map Prod.snd).flatten.getD (160 * i + j) 0) := by
    have hc : ∀ j, j < 400 → centred (elem f) j = centred (fun j => (cs.map Prod.snd).flatten.getD (160 * i + j) 0) j := by
      intro j hj
      unfold centred
      rw [hel j hj, Finset.sum_congr rfl (fun k hk => hel k (Finset.mem_range.mp hk))]
    funext j
    unfold shaped
    by_cases h : j < 400
    · rw [if_pos h, if_pos h, hc j h, hc (j - 1) (by omega)]
    · rw [if_neg h, if_neg h]
  unfold logMel powerOf
  rw [hsh]

/-- Two pieces with one frame in total. -/
example : ∃ cs : List (Junk ℝ × List ℝ), (∀ c ∈ cs, c.2 ≠ [] ∧ c.2.length < 536870500) ∧
    ((cs.map Prod.snd).flatten).length = 401 := by
  obtain ⟨l, hl⟩ : ∃ l : List ℝ, l.length = 400 := ⟨List.replicate 400 1, List.length_replicate⟩
  obtain ⟨w, hw⟩ : ∃ w : List ℝ, w.length = 512 := ⟨List.replicate 512 7, List.length_replicate⟩
  refine ⟨[(⟨w, w, hw, hw⟩, l), (⟨w, w, hw, hw⟩, [3])], ?_, ?_⟩
  · intro c hc
    rcases List.mem_cons.mp hc with rfl | hc
    · refine ⟨fun h => ?_, by show l.length < _; omega⟩
      have h : l = [] := h
      rw [h] at hl
      cases hl
    · rcases List.mem_cons.mp hc with rfl | hc
      · exact ⟨by simp, by simp⟩
      · cases hc
  · show (l ++ ([3] ++ [])).length = 401
    rw [List.length_append, hl]
    rfl

/-- A constant frame has the floor as every feature. -/
example (c : ℝ) (b : ℕ) : logMel (fun _ => c) b = Real.log (1 / 2 ^ 23) := by
  have h1 : centred (fun _ => c) = fun _ => 0 := by
    funext j
    unfold centred
    rw [Finset.sum_const, Finset.card_range]
    norm_num
  have h2 : shaped (fun _ => c) = fun _ => 0 := by
    funext j
    unfold shaped
    rw [h1]
    simp
  have h3 : powerOf (fun _ => c) = fun _ => 0 := by
    funext k
    unfold powerOf fourier
    rw [h2]
    simp
  unfold logMel
  rw [h3]
  simp

end Verif.Fbank
