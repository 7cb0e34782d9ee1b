import Verif.IeeeFftMiddle
import Verif.IeeeFbankProps
import Verif.SrfftProps

/-!
# The FFT in machine numbers (C103)
-/

namespace Verif.Ieee

open Verif Verif.Srfft Verif.Ieee.Spec Complex

/-- An array of `float`s as a function. -/
theorem eq_getD {F : Type} (l : List F) (d : F) : l = vec l.length (fun i => l.getD i d) :=
  eq_vec rfl (fun i hi => by
    rw [List.getD_eq_getElem?_getD, List.getElem?_eq_getElem hi]
    rfl)

theorem getD_of {F : Type} {l : List F} {i : ℕ} {v : F} (d : F) (h : l[i]? = some v) : l.getD i d = v := by
  rw [List.getD_eq_getElem?_getD, h]
  rfl

/-- Two numbers up to `A` are the parts of a complex number up to 3/2 `A`. -/
theorem pair_size {a b A : ℝ} (h1 : |a| ≤ A) (h2 : |b| ≤ A) : ‖(⟨a, b⟩ : ℂ)‖ ≤ 3 / 2 * A := by
  have hA : 0 ≤ A := (abs_nonneg a).trans h1
  refine abs_le_of_sq_le_sq' ?_ (by positivity) |>.2
  rw [← Complex.normSq_eq_norm_sq, Complex.normSq_mk]
  have e1 := sq_le_sq' (abs_le.mp h1).1 (abs_le.mp h1).2
  have e2 := sq_le_sq' (abs_le.mp h2).1 (abs_le.mp h2).2
  nlinarith [sq_nonneg A]

/-- C103: the accuracy of the FFT.  In IEEE 754 arithmetic, on a machine whose `cos` and `sin` are right up to 2^-24, for
every power of two `N = 2 ^ k` from 4 to 32768 the object can be made, and for every signal of `N` numbers not above `A` in
magnitude the transform comes to its end, and each number of the packed spectrum is within `N * A * (99 * k + 8 * N) / 2 ^ 24`
of the number that the Fourier transform of the signal has there.  No sum overflows, nothing becomes infinite or `NaN`. -/
theorem C103_accurate {lib : Lib} (hl : TrigLaws lib) {k : ℕ} (hk : 2 ≤ k) (hk15 : k ≤ 15) :
    ∃ t, new (fftOps lib) (2 ^ k) = .ok t ∧
      ∀ (A : ℝ), 1 / 2 ^ 60 ≤ A → A ≤ 2 ^ 59 →
      ∀ (data buffer : List F32) (bufSize : Int), 2 ^ k ≤ data.length → 2 ^ (k - 1) ≤ buffer.length → 2 ^ (k - 1) ≤ bufSize →
      ∀ x : ℕ → ℝ, (∀ i, i < 2 ^ k → |x i| ≤ A ∧ NearAt data i (x i) 0) →
        ∃ out buf, compute (fftOps lib) t data (2 ^ k) true buffer bufSize = .ok (out, buf) ∧ out.length = data.length ∧
          PackedNear (2 ^ k) out (fourier (-1) (2 ^ k) (fun j => (x j : ℂ))) (2 ^ k * A * (99 * k + 8 * 2 ^ k) / 2 ^ 24) := by
  obtain ⟨j, rfl⟩ : ∃ j, k = j + 1 := ⟨k - 1, by omega⟩
  have hpI : (2 : Int) ^ (j + 1) = ((2 ^ j : ℕ) : Int) * 2 := by
    push_cast
    rw [pow_succ]
  refine ⟨made (fftOps lib) j, new_pow _ (by omega) (by rw [hpI, Int.mul_tdiv_cancel _ (by omega)]), ?_⟩
  intro A a1 a2 data buffer bufSize hd hbl hbs x hx
  rw [Nat.add_sub_cancel] at hbl hbs
  have hbs' : ((2 ^ j : ℕ) : Int) ≤ bufSize := by push_cast; exact hbs
  have hp : 2 ^ (j + 1) = 2 * 2 ^ j := Nat.pow_succ'
  have hA : 0 < A := lt_of_lt_of_le (by positivity) a1
  have hS : Sized (3 / 2 * A) := ⟨by linarith, by linarith⟩
  have hin : ∀ i, i < 2 ^ j → Cn (3 / 2 * A) 0 (pairs x i) (data.getD (2 * i) .nan) (data.getD (2 * i + 1) .nan) := by
    intro i hi
    obtain ⟨s1, v1, q1, g1, w1, k1⟩ := hx (2 * i) (by omega)
    obtain ⟨s2, v2, q2, g2, w2, k2⟩ := hx (2 * i + 1) (by omega)
    rw [getD_of _ g1, getD_of _ g2]
    have e1 : q1 = x (2 * i) := by
      have := abs_nonpos_iff.mp k1
      linarith
    have e2 : q2 = x (2 * i + 1) := by
      have := abs_nonpos_iff.mp k2
      linarith
    subst e1 e2
    exact ⟨pair_size s1 s2, pairs x i, w1, w2, by simp⟩
  obtain ⟨V, buf, e1, h1⟩ := complexFFT_near hl hS (k := j) (b := 0) (L := data.length) (by omega) (by omega) (by omega)
    (V := fun i => data.getD i .nan) (Z := pairs x) hin (size := 2 ^ (j + 1)) hpI (buffer := buffer) hbs' hbl
  rw [← eq_getD] at e1
  have hpos : 1 ≤ 2 ^ j := Nat.one_le_two_pow
  have t1 : (1 : ℝ) ≤ 2 ^ j := one_le_pow₀ (by norm_num)
  have t2 : (2 : ℝ) ^ j ≤ 2 ^ 14 := pow_le_pow_right₀ (by norm_num) (by omega)
  have m1 : 1 / 2 ^ 60 ≤ 3 / 2 * A * 2 ^ j := by nlinarith
  have m2 : 3 / 2 * A * 2 ^ j ≤ 2 ^ 108 := by
    calc 3 / 2 * A * 2 ^ j ≤ 2 ^ 60 * 2 ^ 14 := mul_le_mul (by linarith) t2 (by positivity) (by positivity)
      _ ≤ 2 ^ 108 := by norm_num
  obtain ⟨V', e2, h2, z1, z2⟩ := middle_near hl (k := j) (L := data.length) (by omega) (by omega) (b := 0 + 66 * j) (by omega) m1 m2
    (by omega) h1
  refine ⟨vec data.length V', buf, ?_, vec_length _ _, ?_⟩
  · unfold compute
    rw [if_pos rfl, e1, ok_bind]
    simp only
    rw [e2, ok_bind]
  have val := mid_forward (n := 2 ^ j) (by positivity) (pairs x) (fun i => dft (2 ^ j) (pairs x) i) (fun i _ => rfl)
  simp only [inter_pairs] at val
  have hE : (((0 + 66 * j : ℕ) : ℝ) + 10 * ((2 ^ j : ℕ) : ℝ) + 28) / 2 ^ 24 * (2 * (3 / 2 * A * 2 ^ j)) ≤
      2 ^ (j + 1) * A * (99 * ((j + 1 : ℕ) : ℝ) + 8 * 2 ^ (j + 1)) / 2 ^ 24 := by
    push_cast
    have e2 : (2 : ℝ) ^ (j + 1) = 2 ^ j * 2 := pow_succ _ _
    rw [e2]
    have : 0 ≤ 2 ^ j * A * (114 + 2 * 2 ^ j) / 2 ^ 24 := by positivity
    exact le_of_sub_nonneg (le_of_le_of_eq this (by ring))
  have v0 := val 0 (by positivity)
  rw [if_pos rfl] at v0
  rw [v0] at z1 z2
  refine ⟨?_, ?_, ?_⟩
  · obtain ⟨r, wr, kr⟩ := z1
    refine ⟨V' 0, r, vec_get _ (by omega), wr, ?_⟩
    rw [fourier_dft, hp]
    exact kr.trans hE
  · obtain ⟨r, wr, kr⟩ := z2
    refine ⟨V' 1, r, vec_get _ (by omega), wr, ?_⟩
    rw [fourier_dft, hp, show 2 * 2 ^ j / 2 = 2 ^ j by omega]
    exact kr.trans hE
  · intro q hq0 hq
    rw [hp, show 2 * 2 ^ j / 2 = 2 ^ j by omega] at hq
    obtain ⟨v, w1, w2, e⟩ := (h2 q hq0 hq).near
    rw [val q hq, if_neg (by omega), ← hp, ← fourier_dft] at e
    obtain ⟨d1, d2⟩ := part_le e
    rw [Complex.sub_re] at d1
    rw [Complex.sub_im] at d2
    have hE' := hE
    push_cast at hE' d1 d2
    exact ⟨⟨_, _, vec_get _ (by omega), w1, d1.trans (by push_cast; exact hE')⟩,
      ⟨_, _, vec_get _ (by omega), w2, d2.trans (by push_cast; exact hE')⟩⟩

/-- C103, for the FFT of `Fbank` (512 points): each number of the spectrum of 512 numbers up to `A` is right up to 0.153 `A`. -/
theorem C103_fbank {lib : Lib} (hl : TrigLaws lib) :
    ∃ t, new (fftOps lib) 512 = .ok t ∧
      ∀ (A : ℝ), 1 / 2 ^ 60 ≤ A → A ≤ 2 ^ 59 →
      ∀ (data buffer : List F32) (bufSize : Int), 512 ≤ data.length → 256 ≤ buffer.length → 256 ≤ bufSize →
      ∀ x : ℕ → ℝ, (∀ i, i < 512 → |x i| ≤ A ∧ NearAt data i (x i) 0) →
        ∃ out buf, compute (fftOps lib) t data 512 true buffer bufSize = .ok (out, buf) ∧ out.length = data.length ∧
          PackedNear 512 out (fourier (-1) 512 (fun j => (x j : ℂ))) (153 / 1000 * A) := by
  obtain ⟨t, e, h⟩ := C103_accurate hl (k := 9) (by norm_num) (by norm_num)
  refine ⟨t, e, fun A a1 a2 data buffer bufSize hd hb hs x hx => ?_⟩
  obtain ⟨out, buf, e1, e2, f1, f2, f3⟩ := h A a1 a2 data buffer bufSize hd hb hs x hx
  have hE : (2 : ℝ) ^ 9 * A * (99 * (9 : ℕ) + 8 * 2 ^ 9) / 2 ^ 24 ≤ 153 / 1000 * A := by
    have : 0 < A := lt_of_lt_of_le (by positivity) a1
    push_cast
    linarith
  have up : ∀ {l i r}, NearAt l i r ((2 : ℝ) ^ 9 * A * (99 * (9 : ℕ) + 8 * 2 ^ 9) / 2 ^ 24) → NearAt l i r (153 / 1000 * A) :=
    fun ⟨v, q, h1, h2, h3⟩ => ⟨v, q, h1, h2, h3.trans hE⟩
  exact ⟨out, buf, e1, e2, up f1, up f2, fun k h0 h1 => ⟨up (f3 k h0 h1).1, up (f3 k h0 h1).2⟩⟩

/-! ## A library -/

/-- A library that works out the real functions up to 2^-30. -/
theorem someLib_trig : TrigLaws someLib := by
  have key : ∀ {u : ℝ → ℝ} {x : F32} {q : ℚ}, (∀ r, |u r| ≤ 1) → Is x q →
      ∃ c, Is (lift binary64 u x) c ∧ |(c : ℝ) - u q| ≤ 1 / 2 ^ 24 := by
    intro u x q hu h
    have k0 := cut_err (u q)
    obtain ⟨c, ec, kc⟩ := fit_double (q := cut (u q)) (m := 2) ((near_le k0 (hu q)).trans (by norm_num)) (by norm_num) (by norm_num)
    rw [lift_is h]
    exact ⟨c, ec, (near_trans kc k0).trans (by norm_num)⟩
  exact ⟨fun h _ => key (fun r => Real.abs_cos_le_one r) h, fun h _ => key (fun r => Real.abs_sin_le_one r) h⟩

/-- The ramp -256, -255, … 255 of 512 points: a concrete signal of `float`s, whose spectrum the FFT gives up to 40. -/
example : ∃ t out buf, new (fftOps someLib) 512 = .ok t ∧
    compute (fftOps someLib) t ((List.range 512).map fun i : ℕ => fit binary32 ((((i : ℤ) - 256 : ℤ)) : ℚ)) 512 true
      (List.replicate 256 .nan) 256 = .ok (out, buf) ∧
    PackedNear 512 out (fourier (-1) 512 (fun j => (((j : ℝ) - 256 : ℝ) : ℂ))) 40 := by
  obtain ⟨t, e, h⟩ := C103_fbank someLib_trig
  obtain ⟨out, buf, e1, -, f1, f2, f3⟩ := h 256 (by norm_num) (by norm_num)
    ((List.range 512).map fun i : ℕ => fit binary32 ((((i : ℤ) - 256 : ℤ)) : ℚ)) (List.replicate 256 .nan) 256 (by rw [List.length_map, List.length_range]) (by rw [List.length_replicate]) le_rfl
    (fun j => (j : ℝ) - 256) (by
      intro i hi
      have hi' : (i : ℝ) < 512 := by exact_mod_cast hi
      have h0 : (0 : ℝ) ≤ i := Nat.cast_nonneg i
      refine ⟨by rw [abs_le]; constructor <;> linarith, fit binary32 ((((i : ℤ) - 256 : ℤ)) : ℚ), (i : ℝ) - 256, ?_, ?_, by simp⟩
      · simp [hi]
      · refine ⟨(((i : ℤ) - 256 : ℤ) : ℚ), ?_, by push_cast; ring⟩
        rcases Int.le_total 256 (i : ℤ) with c | c
        · obtain ⟨n, hn⟩ := Int.eq_ofNat_of_zero_le (a := (i : ℤ) - 256) (by omega)
          rw [hn]
          have := fit_is (rep_small (n := n) (by omega))
          simpa using this
        · obtain ⟨n, hn⟩ := Int.eq_ofNat_of_zero_le (a := 256 - (i : ℤ)) (by omega)
          rw [show (i : ℤ) - 256 = -(n : ℤ) by omega]
          have := fit_is (rep_minus (rep_small (n := n) (by omega)))
          simpa using this)
  have up : ∀ {l i r}, NearAt l i r (153 / 1000 * 256) → NearAt l i r 40 :=
    fun ⟨v, q, h1, h2, h3⟩ => ⟨v, q, h1, h2, h3.trans (by norm_num)⟩
  exact ⟨t, out, buf, e, e1, up f1, up f2, fun k h0 h1 => ⟨up (f3 k h0 h1).1, up (f3 k h0 h1).2⟩⟩

end Verif.Ieee
