import Verif.MatrixRandModel
import Verif.MatrixMoreProps
import Verif.IeeeFbankMel

/-!
# Property C117: random values are between 0 and 1, on the IEEE machine
-/

namespace Verif.Ieee

open Verif _root_.Verif.Mat Verif.Ieee.Spec

variable {f : Format} [Good f]

theorem is_fit {q v : ℚ} (h : Is (fit f q) v) : v = round f q := by
  obtain ⟨_, h⟩ := h
  unfold fit at h
  split at h
  · injection h with h
    exact h.symm
  · cases h

/-- The quotient of two whole numbers up to `RAND_MAX` is between 0 and 1 after all roundings. -/
theorem ofRand_unit (hf : 31 < f.top) {r : ℕ} (hr : r ≤ 2147483647) : ∃ q, Is (ofRand f r) q ∧ 0 ≤ q ∧ q ≤ 1 := by
  have h0 : Rep f (0 : ℚ) := rep_zero
  have h1 : Rep f (1 : ℚ) := by
    have := rep_pow (f := f) (a := 0) (by have := Good.top (f := f); omega)
    simpa using this
  have hp : Rep f ((2 : ℚ) ^ 31) := rep_pow (by exact_mod_cast hf)
  have hr' : (r : ℚ) ≤ 2147483647 := by exact_mod_cast hr
  obtain ⟨p, ep, p0, -⟩ := fit_between (f := f) h0 hp (q := (r : ℚ)) (by positivity) (by linarith [hr', show (2147483647 : ℚ) ≤ 2 ^ 31 by norm_num])
  obtain ⟨P, eP, P1, -⟩ := fit_between (f := f) h1 hp (q := ((2147483647 : ℕ) : ℚ)) (by norm_num) (by norm_num)
  have hle : p ≤ P := by
    rw [is_fit ep, is_fit eP]
    exact round_mono f Good.prec (by push_cast; exact hr')
  unfold ofRand ofNat
  rw [div_is ep eP (by linarith)]
  exact fit_between h0 h1 (div_nonneg p0 (by linarith)) ((div_le_one (by linarith)).mpr hle)

/-- C117, `SetRand` on the machine, for `float` and `double`: whatever numbers the generator gives (from 0 to `RAND_MAX`),
all elements of the matrix become finite numbers from 0 to 1; nothing else changes. -/
theorem C117_unit (hf : 31 < f.top) (draws : ℕ → ℕ) (hd : ∀ k, draws k ≤ 2147483647) {v : View} {a : Addr}
    (h : Heap (Fl f)) (k : ℕ) (p : Proper v a) (hw : _root_.Verif.Mat.Spec.Writable h v a) :
    ∃ h' k', setRand (fun k => ofRand f (draws k)) v (h, k) = .ok (h', k') ∧ _root_.Verif.Mat.Spec.Kept h h' v a ∧
      ∀ i j, _root_.Verif.Mat.Spec.Inside v i j → ∃ x q, peek h' (_root_.Verif.Mat.Spec.place v a i j) = some (some x) ∧ Is x q ∧ 0 ≤ q ∧ q ≤ 1 := by
  obtain ⟨h', e, hh, hk⟩ := C117_set_rand (fun k => ofRand f (draws k)) h k p hw
  refine ⟨h', _, e, hk, fun i j g => ?_⟩
  obtain ⟨q, h1, h2, h3⟩ := ofRand_unit hf (hd (k + (i * v.cols + j).toNat))
  exact ⟨_, q, hh i j g, h1, h2, h3⟩

/-- The end of the range is reached: the largest number of the generator gives 1. -/
theorem C117_unit_one (hf : 31 < f.top) : Is (ofRand f 2147483647) 1 := by
  have h1 : Rep f (1 : ℚ) := by
    have := rep_pow (f := f) (a := 0) (by have := Good.top (f := f); omega)
    simpa using this
  have hp : Rep f ((2 : ℚ) ^ 31) := rep_pow (by exact_mod_cast hf)
  obtain ⟨P, eP, P1, -⟩ := fit_between (f := f) h1 hp (q := ((2147483647 : ℕ) : ℚ)) (by norm_num) (by norm_num)
  unfold ofRand ofNat
  rw [div_is eP eP (by linarith), div_self (by linarith)]
  exact fit_is h1

/-- C117, in `float` the number is the quotient `r / RAND_MAX` up to `1 / 2^22`. -/
theorem C117_unit_near {r : ℕ} (hr : r ≤ 2147483647) :
    ∃ q : ℚ, Is (ofRand binary32 r) q ∧ |(q : ℝ) - r / 2147483647| ≤ 1 / 2 ^ 22 := by
  have hr' : (r : ℚ) ≤ 2147483647 := by exact_mod_cast hr
  have hr0 : (0 : ℝ) ≤ r := by positivity
  have hr1 : (r : ℝ) ≤ 2147483647 := by exact_mod_cast hr
  obtain ⟨p, ep, hp⟩ := fit_near (q := (r : ℚ)) (r := (r : ℝ)) (e := 0) (k := 31) (by norm_num)
    (by rw [abs_of_nonneg (by positivity)]; linarith [show (2147483647 : ℚ) ≤ 2 ^ 31 by norm_num]) (by simp)
  obtain ⟨P, eP, hP⟩ := fit_near (q := ((2147483647 : ℕ) : ℚ)) (r := (2147483647 : ℝ)) (e := 0) (k := 31) (by norm_num)
    (by rw [abs_of_nonneg (by positivity)]; norm_num) (by simp)
  have hp' := abs_le.mp hp
  have hP' := abs_le.mp hP
  norm_num at hp' hP'
  have hP0 : (2147483519 : ℝ) ≤ P := by linarith
  have hPq : P ≠ 0 := by
    rintro rfl
    norm_num at hP0
  have hd : |((p / P : ℚ) : ℝ) - r / 2147483647| ≤ 1 / 2 ^ 22 - 1 / 2 ^ 24 := by
    push_cast
    rw [div_sub_div _ _ (by linarith) (by norm_num), abs_div, abs_of_pos (by nlinarith : (0 : ℝ) < P * 2147483647),
      div_le_iff₀ (by nlinarith)]
    have hu : (p : ℝ) * 2147483647 - P * r = (p - r) * 2147483647 - (P - 2147483647) * r := by ring
    rw [hu, abs_le]
    constructor <;> nlinarith
  obtain ⟨q', e', hq'⟩ := fit_near (q := p / P) (k := 0) (by norm_num) (by
    have hPp : (0 : ℚ) < P := by
      have : (0 : ℝ) < P := by linarith
      exact_mod_cast this
    have h1 : p ≤ P := by
      rw [is_fit ep, is_fit eP]
      exact round_mono binary32 Good.prec (by push_cast; exact hr')
    have h0 : 0 ≤ p := by
      rw [is_fit ep, ← round_zero binary32]
      exact round_mono binary32 Good.prec (by positivity)
    rw [abs_of_nonneg (div_nonneg h0 hPp.le), pow_zero]
    exact (div_le_one hPp).mpr h1) hd
  refine ⟨q', ?_, ?_⟩
  · unfold ofRand ofNat
    rw [div_is ep eP hPq]
    exact e'
  · calc _ ≤ _ := hq'
      _ ≤ _ := by norm_num

-- a half, nearly
example : ∃ q : ℚ, Is (ofRand binary32 1073741824) q ∧ |(q : ℝ) - 1073741824 / 2147483647| ≤ 1 / 2 ^ 22 := by
  exact_mod_cast C117_unit_near (r := 1073741824) (by decide)

-- one row of three, `float`
example (draws : ℕ → ℕ) (hd : ∀ k, draws k ≤ 2147483647) :
    ∃ h' k', setRand (fun k => ofRand binary32 (draws k)) ⟨some ⟨0, 0⟩, 1, 3, 4⟩
      ([some (List.replicate 4 none)], 5) = .ok (h', k') := by
  obtain ⟨h', k', e, -⟩ := C117_unit (f := binary32) (by decide) draws hd (v := ⟨some ⟨0, 0⟩, 1, 3, 4⟩) (a := ⟨0, 0⟩)
    [some (List.replicate 4 none)] 5 ⟨rfl, by decide, by decide, by decide, by decide⟩ (by
      rintro i j ⟨h1, h2, h3, h4⟩
      simp only at h2 h4
      have : i = 0 := by omega
      subst this
      have : j = 0 ∨ j = 1 ∨ j = 2 := by omega
      rcases this with rfl | rfl | rfl <;> rfl)
  exact ⟨h', k', e⟩

end Verif.Ieee
