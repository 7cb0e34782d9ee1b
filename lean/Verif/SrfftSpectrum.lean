import Verif.SrfftReal
import Mathlib.RingTheory.RootsOfUnity.Complex

/-!
# Spectra of real signals
-/

namespace Verif.Srfft

open Complex Finset

/-! ## Inversion -/

theorem root_pow (m a : ℕ) : root m a = root m 1 ^ a := by
  induction a with
  | zero => rw [root_zero, pow_zero]
  | succ a ih => rw [root_add, ih, pow_succ]

theorem root_primitive {m : ℕ} (hm : m ≠ 0) : IsPrimitiveRoot (root m 1) m := by
  have h := (Complex.isPrimitiveRoot_exp m hm).inv
  have e : (Complex.exp (2 * Real.pi * I / m))⁻¹ = root m 1 := by
    unfold root
    rw [← Complex.exp_neg]
    congr 1
    push_cast
    ring
  rwa [e] at h

theorem root_ne_zero (m a : ℕ) : root m a ≠ 0 := Complex.exp_ne_zero _

theorem conj_root (m a : ℕ) : (starRingEnd ℂ) (root m a) = (root m a)⁻¹ :=
  (inv_eq_of_mul_eq_one_right (root_conj m a)).symm

theorem orthogonal {m j p : ℕ} (hj : j < m) (hp : p < m) :
    ∑ k ∈ range m, root m (j * k) * (starRingEnd ℂ) (root m (k * p)) = if j = p then (m : ℂ) else 0 := by
  have hm : m ≠ 0 := by omega
  have term : ∀ k, root m (j * k) * (starRingEnd ℂ) (root m (k * p)) = (root m j * (root m p)⁻¹) ^ k := by
    intro k
    rw [conj_root, mul_pow, inv_pow, root_pow m (j * k), root_pow m (k * p), root_pow m j, root_pow m p, ← pow_mul,
      ← pow_mul, Nat.mul_comm k p]
  rw [Finset.sum_congr rfl (fun k _ => term k)]
  split_ifs with h
  · subst h
    rw [mul_inv_cancel₀ (root_ne_zero m j)]
    simp
  · have hne : root m j * (root m p)⁻¹ ≠ 1 := by
      intro e
      have e2 : root m j = root m p := by
        rw [← mul_one (root m p), ← e]
        field_simp [root_ne_zero m p]
      rw [root_pow m j, root_pow m p] at e2
      exact h ((root_primitive hm).pow_inj hj hp e2)
    have hpow : (root m j * (root m p)⁻¹) ^ m = 1 := by
      rw [mul_pow, inv_pow, root_pow m j, root_pow m p, ← pow_mul, ← pow_mul, Nat.mul_comm j, Nat.mul_comm p, pow_mul, pow_mul,
        (root_primitive hm).pow_eq_one, one_pow, one_pow]
      simp
    rw [geom_sum_eq hne, hpow]
    simp

theorem inversion {m : ℕ} (f : ℕ → ℂ) {p : ℕ} (hp : p < m) : idft m (dft m f) p = m * f p := by
  unfold idft dft
  have : ∀ k ∈ range m, (∑ j ∈ range m, f j * root m (j * k)) * (starRingEnd ℂ) (root m (k * p)) =
      ∑ j ∈ range m, f j * (root m (j * k) * (starRingEnd ℂ) (root m (k * p))) := by
    intro k _
    rw [Finset.sum_mul]
    apply Finset.sum_congr rfl
    intro j _
    ring
  rw [Finset.sum_congr rfl this, Finset.sum_comm]
  have h2 : ∀ j ∈ range m, ∑ k ∈ range m, f j * (root m (j * k) * (starRingEnd ℂ) (root m (k * p))) =
      if j = p then f p * m else 0 := by
    intro j hj
    rw [← Finset.mul_sum, orthogonal (Finset.mem_range.mp hj) hp]
    split_ifs with h
    · rw [h]
    · rw [mul_zero]
  rw [Finset.sum_congr rfl h2, Finset.sum_ite_eq' (range m) p, if_pos (Finset.mem_range.mpr hp), mul_comm]

/-! ## Real signals -/

theorem sum_even_odd (n : ℕ) (g : ℕ → ℂ) : ∑ p ∈ range (2 * n), g p = ∑ j ∈ range n, (g (2 * j) + g (2 * j + 1)) := by
  induction n with
  | zero => simp
  | succ n ih =>
    rw [show 2 * (n + 1) = 2 * n + 1 + 1 by ring, Finset.sum_range_succ, Finset.sum_range_succ, Finset.sum_range_succ, ih]
    ring

/-- The spectrum of the elements with even index. -/
noncomputable def evens (n : ℕ) (Z : ℕ → ℂ) (k : ℕ) : ℂ := dft n (fun j => ((Z j).re : ℂ)) k

/-- The spectrum of the elements with odd index. -/
noncomputable def odds (n : ℕ) (Z : ℕ → ℂ) (k : ℕ) : ℂ := dft n (fun j => ((Z j).im : ℂ)) k

theorem dft_inter {n : ℕ} (Z : ℕ → ℂ) (k : ℕ) :
    dft (2 * n) (fun p => (inter Z p : ℂ)) k = evens n Z k + root (2 * n) k * odds n Z k := by
  unfold evens odds dft
  rw [sum_even_odd, Finset.sum_add_distrib, Finset.mul_sum]
  congr 1
  · apply Finset.sum_congr rfl
    intro j _
    simp only
    rw [inter_re, Nat.mul_assoc, root_scale two_ne_zero]
  · apply Finset.sum_congr rfl
    intro j _
    simp only
    rw [inter_im, show (2 * j + 1) * k = 2 * (j * k) + k by ring, root_add, root_scale two_ne_zero]
    ring

theorem dft_parts (n : ℕ) (Z : ℕ → ℂ) (k : ℕ) : dft n Z k = evens n Z k + I * odds n Z k := by
  unfold evens odds dft
  rw [Finset.mul_sum, ← Finset.sum_add_distrib]
  apply Finset.sum_congr rfl
  intro j _
  conv_lhs => rw [← Complex.re_add_im (Z j)]
  ring

theorem dft_real_conj {n k : ℕ} (hn : n ≠ 0) (hk : k ≤ n) (f : ℕ → ℝ) :
    (starRingEnd ℂ) (dft n (fun j => (f j : ℂ)) (n - k)) = dft n (fun j => (f j : ℂ)) k := by
  unfold dft
  rw [map_sum]
  apply Finset.sum_congr rfl
  intro j _
  rw [map_mul, Complex.conj_ofReal]
  congr 1
  have h1 : root n (j * (n - k)) * root n (j * k) = 1 := by
    rw [← root_add, ← Nat.mul_add, Nat.sub_add_cancel hk, Nat.mul_comm, root_full hn]
  rw [conj_root]
  exact inv_eq_of_mul_eq_one_right h1

theorem dft_period {n : ℕ} (hn : n ≠ 0) (f : ℕ → ℂ) : dft n f n = dft n f 0 := by
  unfold dft
  apply Finset.sum_congr rfl
  intro j _
  rw [Nat.mul_comm j n, root_full hn, Nat.mul_zero, root_zero]

theorem dft_real_zero (n : ℕ) (f : ℕ → ℝ) : ∃ a : ℝ, dft n (fun j => (f j : ℂ)) 0 = a := by
  refine ⟨∑ j ∈ range n, f j, ?_⟩
  unfold dft
  push_cast
  apply Finset.sum_congr rfl
  intro j _
  rw [Nat.mul_zero, root_zero, mul_one]

theorem Ck_dft {n k : ℕ} (hn : n ≠ 0) (hk : k ≤ n) (Z : ℕ → ℂ) : Ck n (dft n Z) k = evens n Z k := by
  have h1 : (starRingEnd ℂ) (dft n Z (n - k)) = evens n Z k - I * odds n Z k := by
    rw [dft_parts, map_add, map_mul, Complex.conj_I]
    unfold evens odds
    rw [dft_real_conj hn hk, dft_real_conj hn hk]
    ring
  unfold Ck
  rw [h1, dft_parts]
  ring

theorem Dk_dft {n k : ℕ} (hn : n ≠ 0) (hk : k ≤ n) (Z : ℕ → ℂ) : Dk n (dft n Z) k = odds n Z k := by
  have h1 : (starRingEnd ℂ) (dft n Z (n - k)) = evens n Z k - I * odds n Z k := by
    rw [dft_parts, map_add, map_mul, Complex.conj_I]
    unfold evens odds
    rw [dft_real_conj hn hk, dft_real_conj hn hk]
    ring
  unfold Dk
  rw [h1, dft_parts]
  linear_combination (-(odds n Z k)) * Complex.I_mul_I

/-- The forward result: element `k` of the spectrum in places `2 k` and `2 k + 1`, and the two real ones together. -/
theorem mid_forward {n : ℕ} (hn : n ≠ 0) (Z B : ℕ → ℂ) (hB : ∀ i, i < n → B i = dft n Z i) (k : ℕ) (hk : k < n) :
    mid true n B k = if k = 0 then
        ⟨(dft (2 * n) (fun p => (inter Z p : ℂ)) 0).re, (dft (2 * n) (fun p => (inter Z p : ℂ)) n).re⟩
      else dft (2 * n) (fun p => (inter Z p : ℂ)) k := by
  unfold mid
  by_cases h0 : k = 0
  · rw [if_pos h0, if_pos h0, if_pos rfl]
    obtain ⟨a, ha⟩ := dft_real_zero n (fun j => (Z j).re)
    obtain ⟨b, hb⟩ := dft_real_zero n (fun j => (Z j).im)
    have hE : evens n Z 0 = a := ha
    have hO : odds n Z 0 = b := hb
    have hE' : evens n Z n = a := by rw [← hE]; exact dft_period hn _
    have hO' : odds n Z n = b := by rw [← hO]; exact dft_period hn _
    rw [hB 0 (by omega), dft_inter, dft_inter, dft_parts, root_zero, root_half hn, hE, hO, hE', hO']
    apply Complex.ext
    · simp
    · simp
      ring
  · rw [if_neg h0, if_pos hk, if_neg h0]
    have e1 : Ck n B k = Ck n (dft n Z) k := by unfold Ck; rw [hB k hk, hB (n - k) (by omega)]
    have e2 : Dk n B k = Dk n (dft n Z) k := by unfold Dk; rw [hB k hk, hB (n - k) (by omega)]
    rw [e1, e2, Ck_dft hn (by omega), Dk_dft hn (by omega), dft_inter]
    rfl

/-! ## Hermitian spectra -/

/-- The signal of a spectrum. -/
theorem idft_even_odd {n : ℕ} (hn : n ≠ 0) (S : ℕ → ℂ) (j : ℕ) :
    idft (2 * n) S (2 * j) = idft n (fun k => S k + S (k + n)) j ∧
    idft (2 * n) S (2 * j + 1) = idft n (fun k => (S k - S (k + n)) * (starRingEnd ℂ) (root (2 * n) k)) j := by
  unfold idft
  constructor
  · rw [two_mul n, Finset.sum_range_add, ← Finset.sum_add_distrib, ← two_mul n]
    apply Finset.sum_congr rfl
    intro k _
    rw [show k * (2 * j) = 2 * (k * j) by ring, root_scale two_ne_zero,
      show (n + k) * (2 * j) = 2 * (k * j) + 2 * (n * j) by ring, root_add, root_scale two_ne_zero,
      root_scale two_ne_zero, root_full hn, Nat.add_comm n k, mul_one]
    ring
  · rw [two_mul n, Finset.sum_range_add, ← Finset.sum_add_distrib, ← two_mul n]
    apply Finset.sum_congr rfl
    intro k _
    rw [show k * (2 * j + 1) = 2 * (k * j) + k by ring, root_add, root_scale two_ne_zero,
      show (n + k) * (2 * j + 1) = 2 * (k * j) + k + (2 * (n * j) + n) by ring, root_add, root_add, root_add,
      root_scale two_ne_zero, root_scale two_ne_zero, root_full hn, root_half hn, Nat.add_comm n k, map_mul, map_mul, map_mul,
      one_mul, map_neg, map_one]
    ring

/-- It is real. -/
theorem idft_real {m : ℕ} (hm : m ≠ 0) (S : ℕ → ℂ) (h0 : (S 0).im = 0)
    (hS : ∀ k, 0 < k → k < m → S (m - k) = (starRingEnd ℂ) (S k)) (p : ℕ) : (idft m S p).im = 0 := by
  have key : (starRingEnd ℂ) (idft m S p) = idft m S p := by
    unfold idft
    rw [map_sum]
    obtain ⟨m', rfl⟩ : ∃ m', m = m' + 1 := ⟨m - 1, by omega⟩
    rw [Finset.sum_range_succ', Finset.sum_range_succ']
    congr 1
    · rw [← Finset.sum_range_reflect]
      apply Finset.sum_congr rfl
      intro k hk
      have hk := Finset.mem_range.mp hk
      have e1 : m' - 1 - k + 1 = m' + 1 - (k + 1) := by omega
      rw [e1, map_mul, Complex.conj_conj, hS (k + 1) (by omega) (by omega), Complex.conj_conj]
      congr 1
      have h1 : root (m' + 1) ((k + 1) * p) * root (m' + 1) ((m' + 1 - (k + 1)) * p) = 1 := by
        rw [← root_add, ← Nat.add_mul, show k + 1 + (m' + 1 - (k + 1)) = m' + 1 by omega, root_full (by omega)]
      rw [conj_root]
      exact (inv_eq_of_mul_eq_one_right h1).symm
    · rw [Nat.zero_mul, root_zero, map_one, mul_one, Complex.conj_eq_iff_im.mpr h0]
  exact Complex.conj_eq_iff_im.mp key

/-- The backward result. -/
theorem mid_backward {n : ℕ} (hn : n ≠ 0) (A S : ℕ → ℂ) (h0 : S 0 = ((A 0).re : ℂ)) (hN : S n = ((A 0).im : ℂ))
    (hk : ∀ k, 0 < k → k < n → S k = A k) (hS : ∀ k, 0 < k → k < 2 * n → S (2 * n - k) = (starRingEnd ℂ) (S k)) (j : ℕ) :
    2 * idft n (mid false n A) j = ⟨(idft (2 * n) S (2 * j)).re, (idft (2 * n) S (2 * j + 1)).re⟩ := by
  have r0 : (S 0).im = 0 := by rw [h0]; simp
  have e : (⟨(idft (2 * n) S (2 * j)).re, (idft (2 * n) S (2 * j + 1)).re⟩ : ℂ) =
      idft (2 * n) S (2 * j) + I * idft (2 * n) S (2 * j + 1) := by
    have i1 := idft_real (m := 2 * n) (by omega) S r0 hS (2 * j)
    have i2 := idft_real (m := 2 * n) (by omega) S r0 hS (2 * j + 1)
    apply Complex.ext <;> simp [i1, i2]
  rw [e, (idft_even_odd hn S j).1, (idft_even_odd hn S j).2]
  unfold idft
  rw [Finset.mul_sum, Finset.mul_sum, ← Finset.sum_add_distrib]
  apply Finset.sum_congr rfl
  intro k hk'
  have hkn := Finset.mem_range.mp hk'
  have val : 2 * mid false n A k = (S k + S (k + n)) + I * ((S k - S (k + n)) * (starRingEnd ℂ) (root (2 * n) k)) := by
    unfold mid
    by_cases hk0 : k = 0
    · subst hk0
      rw [if_pos rfl, Nat.zero_add, h0, hN, root_zero]
      apply Complex.ext
      · simp
        ring
      · simp
        ring
    · rw [if_neg hk0, if_pos hkn]
      have e1 : S (k + n) = (starRingEnd ℂ) (A (n - k)) := by
        rw [← hk (n - k) (by omega) (by omega), ← hS (n - k) (by omega) (by omega)]
        congr 1
        omega
      rw [e1, hk k (by omega) hkn]
      unfold Ck Dk factor
      simp only [Bool.false_eq_true, if_false]
      ring
  linear_combination (starRingEnd ℂ) (root n (k * j)) * val

end Verif.Srfft
