import Verif.FbankInitLemmas
import Verif.SrfftProps
import Mathlib.Analysis.SpecialFunctions.Log.Basic
import Mathlib.Analysis.Real.Pi.Bounds
import Mathlib.Tactic.Positivity
import Mathlib.Tactic.Linarith
import Mathlib.Tactic.FieldSimp
import Mathlib.Tactic.NormNum

/-!
# The tables in exact arithmetic
-/

namespace Verif.Fbank

open Srfft (vec vec_length vec_get vec_congr)

open Classical in
/-- Exact arithmetic, with the literals of `src/fbank.cc` and `src/fbank.h`. -/
noncomputable def realArith : Arith ℝ where
  zero := 0
  add := fun x y => x + y
  sub := fun x y => x - y
  mul := fun x y => x * y
  div := fun x y => x / y
  ofInt := fun n => (n : ℝ)
  preemph := fun x y => x - 0.97 * y
  lt := fun x y => decide (x < y)
  le := fun x y => decide (x ≤ y)
  nonneg := fun x => decide (0 ≤ x)
  eps := 1 / 2 ^ 23
  log := Real.log
  melScale := fun f => 1127 * Real.log (1 + f / 700)
  hammAngle := fun n => 6.28318530718 / n
  hamm := fun x => 0.54 - 0.46 * Real.cos x
  fft := Srfft.realOps

/-! ## The mel scale -/

/-- The mel scale. -/
noncomputable def melOf (f : ℝ) : ℝ := 1127 * Real.log (1 + f / 700)

/-- Distance of the centres of the filters. -/
noncomputable def gap : ℝ := (melOf 8000 - melOf 20) / 41

/-- The boundaries of the filters. -/
noncomputable def bound (b : ℕ) : ℝ := melOf 20 + b * gap

/-- The frequency of an FFT bin on the mel scale. -/
noncomputable def binMel (i : ℕ) : ℝ := melOf (31.25 * i)

theorem melOf_lt {f g : ℝ} (h0 : 0 ≤ f) (h : f < g) : melOf f < melOf g := by
  unfold melOf
  have : Real.log (1 + f / 700) < Real.log (1 + g / 700) := Real.log_lt_log (by positivity) (by linarith [div_lt_div_of_pos_right h (show (0 : ℝ) < 700 by norm_num)])
  linarith

theorem gap_pos : 0 < gap := by
  unfold gap
  have := melOf_lt (f := 20) (g := 8000) (by norm_num) (by norm_num)
  linarith

theorem binMel_lt {i j : ℕ} (h : i < j) : binMel i < binMel j := by
  unfold binMel
  apply melOf_lt (by positivity)
  have : (i : ℝ) < j := by exact_mod_cast h
  linarith

theorem binMel_le {i j : ℕ} (h : i ≤ j) : binMel i ≤ binMel j := by
  rcases Nat.lt_or_eq_of_le h with h | rfl
  · exact le_of_lt (binMel_lt h)
  · exact le_refl _

/-- Boundaries and bins compared by integers: `720^(41-b) 8700^b` against `(700 + 31.25 i)^41`, scaled by 4. -/
theorem bound_log (b : ℕ) (hb : b ≤ 41) :
    41 * bound b = 1127 * Real.log (((2880 ^ (41 - b) * 34800 ^ b : ℕ) : ℝ) / 2800 ^ 41) := by
  unfold bound gap melOf
  have e1 : (1 : ℝ) + 20 / 700 = 2880 / 2800 := by norm_num
  have e2 : (1 : ℝ) + 8000 / 700 = 34800 / 2800 := by norm_num
  rw [e1, e2]
  have h : ((2880 ^ (41 - b) * 34800 ^ b : ℕ) : ℝ) / 2800 ^ 41 = (2880 / 2800) ^ (41 - b) * (34800 / 2800) ^ b := by
    rw [div_pow, div_pow, div_mul_div_comm, ← pow_add, show 41 - b + b = 41 by omega]
    push_cast
    rfl
  rw [h, Real.log_mul (by positivity) (by positivity), Real.log_pow, Real.log_pow, Nat.cast_sub hb]
  push_cast
  ring

theorem binMel_log (i : ℕ) : 41 * binMel i = 1127 * Real.log ((((2800 + 125 * i) ^ 41 : ℕ) : ℝ) / 2800 ^ 41) := by
  unfold binMel melOf
  have e1 : (1 : ℝ) + 31.25 * i / 700 = ((2800 + 125 * i : ℕ) : ℝ) / 2800 := by
    push_cast
    field_simp
    ring
  rw [e1]
  have h : (((2800 + 125 * i) ^ 41 : ℕ) : ℝ) / 2800 ^ 41 = (((2800 + 125 * i : ℕ) : ℝ) / 2800) ^ 41 := by
    rw [div_pow]
    push_cast
    rfl
  rw [h, Real.log_pow]
  push_cast
  ring

theorem bound_lt_bin {b i : ℕ} (hb : b ≤ 41) (h : 2880 ^ (41 - b) * 34800 ^ b < (2800 + 125 * i) ^ 41) : bound b < binMel i := by
  have h1 := bound_log b hb
  have h2 := binMel_log i
  have h3 : Real.log (((2880 ^ (41 - b) * 34800 ^ b : ℕ) : ℝ) / 2800 ^ 41) < Real.log ((((2800 + 125 * i) ^ 41 : ℕ) : ℝ) / 2800 ^ 41) := by
    apply Real.log_lt_log
    · positivity
    · apply div_lt_div_of_pos_right _ (by positivity)
      exact_mod_cast h
  linarith

theorem bin_lt_bound {b i : ℕ} (hb : b ≤ 41) (h : (2800 + 125 * i) ^ 41 < 2880 ^ (41 - b) * 34800 ^ b) : binMel i < bound b := by
  have h1 := bound_log b hb
  have h2 := binMel_log i
  have h3 : Real.log ((((2800 + 125 * i) ^ 41 : ℕ) : ℝ) / 2800 ^ 41) < Real.log (((2880 ^ (41 - b) * 34800 ^ b : ℕ) : ℝ) / 2800 ^ 41) := by
    apply Real.log_lt_log
    · positivity
    · apply div_lt_div_of_pos_right _ (by positivity)
      exact_mod_cast h
  linarith

/-- For every filter the first bin inside it. -/
def firstBin : List ℕ := [1, 3, 4, 6, 7, 9, 11, 13, 16, 18, 20, 23, 26, 29, 32, 35, 39, 43, 47, 51, 56, 61, 66, 71, 77, 83, 90,
  97, 104, 112, 121, 130, 139, 149, 160, 171, 184, 196, 210, 225]

theorem firstBin_ok : ∀ b < 40, 2880 ^ (41 - b) * 34800 ^ b < (2800 + 125 * firstBin.getD b 0) ^ 41 ∧
    (2800 + 125 * (firstBin.getD b 0 + 1)) ^ 41 < 2880 ^ (41 - (b + 2)) * 34800 ^ (b + 2) ∧ firstBin.getD b 0 + 1 < 256 := by
  decide +kernel

/-- Every filter has two neighbouring bins inside it. -/
theorem two_inside {b : ℕ} (hb : b < 40) : ∃ i, i + 1 < 256 ∧ bound b < binMel i ∧ binMel (i + 1) < bound (b + 2) := by
  obtain ⟨h1, h2, h3⟩ := firstBin_ok b hb
  exact ⟨_, h3, bound_lt_bin (by omega) h1, bin_lt_bound (by omega) h2⟩

/-! ## The filters -/

/-- The weight of filter `b` at bin `i`: a triangle over the mel scale with corners at three consecutive boundaries. -/
noncomputable def weight (b i : ℕ) : ℝ :=
  max 0 (min ((binMel i - bound b) / gap) ((bound (b + 2) - binMel i) / gap))

theorem bound_succ (b : ℕ) : bound (b + 1) = bound b + gap := by
  unfold bound
  push_cast
  ring

theorem edge_real (b : ℕ) (n : ℤ) (h : n = b) :
    realArith.add (melOf 20) (realArith.mul (realArith.ofInt n) gap) = bound b := by
  subst h
  unfold realArith bound
  simp

theorem inside_iff (b i : ℕ) : inside realArith 31.25 (bound b) (bound (b + 2)) i = true ↔
    bound b < binMel i ∧ binMel i < bound (b + 2) := by
  unfold inside
  rw [Bool.and_eq_true]
  unfold realArith binMel melOf
  simp

theorem melAt_real (i : ℕ) : melAt realArith 31.25 i = binMel i := by
  unfold melAt realArith binMel melOf
  simp

theorem weight_real (b i : ℕ) (h1 : bound b < binMel i) (h2 : binMel i < bound (b + 2)) :
    binWeight realArith (bound b) (bound (b + 1)) (bound (b + 2)) (binMel i) = weight b i := by
  have hg := gap_pos
  have e1 := bound_succ b
  have e2 := bound_succ (b + 1)
  have e3 : binWeight realArith (bound b) (bound (b + 1)) (bound (b + 2)) (binMel i) =
      if binMel i ≤ bound (b + 1) then (binMel i - bound b) / gap else (bound (b + 2) - binMel i) / gap := by
    unfold binWeight realArith
    simp only [decide_eq_true_eq]
    rw [show bound (b + 1) - bound b = gap by linarith, show bound (b + 2) - bound (b + 1) = gap by
      rw [e2]; ring]
  have p1 : 0 < (binMel i - bound b) / gap := div_pos (by linarith) hg
  have p2 : 0 < (bound (b + 2) - binMel i) / gap := div_pos (by linarith) hg
  have e4 : bound (b + 2) = bound (b + 1) + gap := e2
  rw [e3]
  unfold weight
  rw [max_eq_right (le_min (le_of_lt p1) (le_of_lt p2))]
  split_ifs with h
  · rw [min_eq_left]
    exact div_le_div_of_nonneg_right (by linarith) (le_of_lt hg)
  · rw [min_eq_right]
    exact div_le_div_of_nonneg_right (by linarith) (le_of_lt hg)

theorem weight_pos {b i : ℕ} (h1 : bound b < binMel i) (h2 : binMel i < bound (b + 2)) : 0 < weight b i := by
  unfold weight
  have p1 : 0 < (binMel i - bound b) / gap := div_pos (by linarith) gap_pos
  have p2 : 0 < (bound (b + 2) - binMel i) / gap := div_pos (by linarith) gap_pos
  exact lt_max_of_lt_right (lt_min p1 p2)

theorem weight_zero {b i : ℕ} (h : ¬ (bound b < binMel i ∧ binMel i < bound (b + 2))) : weight b i = 0 := by
  unfold weight
  apply max_eq_left
  by_cases h1 : bound b < binMel i
  · exact min_le_of_right_le (div_nonpos_of_nonpos_of_nonneg (by have := not_and.mp h h1; linarith) (le_of_lt gap_pos))
  · exact min_le_of_left_le (div_nonpos_of_nonpos_of_nonneg (by linarith) (le_of_lt gap_pos))

theorem melFilter_real {b : ℕ} (hb : b < 40) :
    ∃ f l : ℕ, f < l ∧ l < 256 ∧ (∀ i, i < 256 → (f ≤ i ∧ i ≤ l ↔ bound b < binMel i ∧ binMel i < bound (b + 2))) ∧
      melFilter realArith 256 31.25 (melOf 20) gap b = .ok (f, vec (l + 1 - f) (fun k => weight b (f + k))) := by
  have e0 := edge_real b b rfl
  have e1 := edge_real (b + 1) (b + 1) (by push_cast; rfl)
  have e2 := edge_real (b + 2) (b + 2) (by push_cast; rfl)
  have key := melFilter_ok realArith (num := 256) (by decide) 31.25 (melOf 20) gap b rfl rfl
  rw [e0, e1, e2] at key
  rcases key with ⟨f, l, h1, h2, h3, h4, h5, h6⟩ | ⟨h, -⟩
  · rw [inside_iff] at h3 h4
    have hall : ∀ i, i < 256 → (f ≤ i ∧ i ≤ l ↔ bound b < binMel i ∧ binMel i < bound (b + 2)) := by
      intro i hi
      constructor
      · rintro ⟨g1, g2⟩
        exact ⟨lt_of_lt_of_le h3.1 (binMel_le g1), lt_of_le_of_lt (binMel_le g2) h4.2⟩
      · intro g
        exact h5 i hi ((inside_iff b i).mpr g)
    refine ⟨f, l, h1, h2, hall, ?_⟩
    rw [h6]
    congr 2
    apply vec_congr
    intro k hk
    have := (hall (f + k) (by omega)).mp ⟨by omega, by omega⟩
    rw [if_pos ((inside_iff b _).mpr this), melAt_real, weight_real b _ this.1 this.2]
  · exfalso
    obtain ⟨i, hi, g1, g2⟩ := two_inside hb
    have hlt := binMel_lt (show i < i + 1 by omega)
    have := h i (i + 1) (by omega) hi ((inside_iff b _).mpr ⟨g1, by linarith⟩) ((inside_iff b _).mpr ⟨by linarith, g2⟩)
    omega

theorem melInit_real : melInit realArith 512 = (List.range 40).mapM (melFilter realArith 256 31.25 (melOf 20) gap) := by
  unfold melInit
  rw [decide_eq_true (by decide), cassert_true, ok_bind]
  simp only
  rw [vecInit_ok (by decide) (by decide), ok_bind, show ((512 : Int).tdiv 2).toNat = 256 by decide]
  have e1 : realArith.div (realArith.ofInt 16000) (realArith.ofInt 512) = 31.25 := by unfold realArith; norm_num
  have e2 : realArith.melScale (realArith.ofInt 20) = melOf 20 := by unfold realArith melOf; simp
  have e3 : realArith.melScale (realArith.ofInt 8000) = melOf 8000 := by unfold realArith melOf; simp
  have e4 : realArith.div (realArith.sub (melOf 8000) (melOf 20)) (realArith.ofInt (fbankDim + 1)) = gap := by
    unfold realArith gap; norm_num
  rw [e1, e2, e3, e4]

/-- The filters, in the order of their indices. -/
theorem bins_real : ∃ bins, melInit realArith 512 = .ok bins ∧ bins.length = 40 ∧
    ∀ b, b < 40 → ∃ f l : ℕ, f < l ∧ l < 256 ∧
      (∀ i, i < 256 → (f ≤ i ∧ i ≤ l ↔ bound b < binMel i ∧ binMel i < bound (b + 2))) ∧
      bins[b]? = some (f, vec (l + 1 - f) (fun k => weight b (f + k))) := by
  have hg : ∀ b : ℕ, ∃ r, b < 40 → melFilter realArith 256 31.25 (melOf 20) gap b = .ok r := by
    intro b
    by_cases hb : b < 40
    · obtain ⟨f, l, -, -, -, e⟩ := melFilter_real hb
      exact ⟨_, fun _ => e⟩
    · exact ⟨(0, []), fun h => absurd h hb⟩
  choose g hg using hg
  refine ⟨(List.range 40).map g, ?_, by rw [List.length_map, List.length_range], ?_⟩
  · rw [melInit_real]
    exact mapM_ok _ _ _ (fun b hb => hg b (List.mem_range.mp hb))
  · intro b hb
    obtain ⟨f, l, h1, h2, h3, e⟩ := melFilter_real hb
    refine ⟨f, l, h1, h2, h3, ?_⟩
    rw [List.getElem?_map, List.getElem?_range hb]
    rw [hg b hb] at e
    exact congrArg some (Except.ok.inj e)

/-- The object in exact arithmetic, for given filters. -/
noncomputable def realFbank (bins : List (ℕ × List ℝ)) : Ops ℝ where
  zero := 0
  add := fun x y => x + y
  sub := fun x y => x - y
  mul := fun x y => x * y
  div := fun x y => x / y
  ofInt := fun n => (n : ℝ)
  preemph := fun x y => x - 0.97 * y
  lt := realArith.lt
  nonneg := realArith.nonneg
  eps := 1 / 2 ^ 23
  log := Real.log
  window := vec 400 (fun i => 0.54 - 0.46 * Real.cos (6.28318530718 / 399 * i))
  bins := bins
  fft := fun w b => Srfft.compute Srfft.realOps (Srfft.made Srfft.realOps 8) w w.length true b b.length

/-- The constructor in exact arithmetic. -/
theorem make_real {bins : List (ℕ × List ℝ)} (hb : melInit realArith 512 = .ok bins) :
    make realArith = .ok (realFbank bins) := by
  have hw : hammingInit realArith = .ok (vec 400 (fun i => 0.54 - 0.46 * Real.cos (6.28318530718 / 399 * i))) := by
    rw [hammingInit_ok]
    rfl
  unfold make
  rw [show roundUp frameLength = .ok 512 from by decide +kernel, ok_bind, hb, ok_bind,
    Srfft.new_pow (k := 8) realArith.fft (by omega) rfl, ok_bind, hw, ok_bind]
  rfl

end Verif.Fbank
