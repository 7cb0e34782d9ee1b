import Verif.SrfftModel
import Verif.SrfftLemmas
import Verif.SrfftSpectrum

/-!
# Properties of the fast Fourier transform
-/

namespace Verif.Srfft

variable {F : Type}

/-! ## C49 -/

/-- `j` has the `l` bits of `i` in reverse order. -/
def Reversed (l i j : Nat) : Prop := j < 2 ^ l ∧ ∀ b, b < l → j.testBit b = i.testBit (l - 1 - b)

/-- C49: whatever object the constructor makes, its number of points is a power of two and the permutation moves the
element at `i` to the place whose index has the bits of `i` in reverse order.  Applied twice it changes nothing. -/
theorem C49_bit_reversal (o : Ops F) {points : Int} {t : State F} (ht : new o points = .ok t) (x : List F)
    (hx : x.length = t.n) :
    t.n = 2 ^ t.logn ∧
    ∃ y, bitReverse t.seed t.logn x = .ok y ∧ y.length = x.length ∧
      (∀ i j, i < x.length → Reversed t.logn i j → y[j]? = x[i]?) ∧
      bitReverse t.seed t.logn y = .ok x := by
  obtain ⟨k, hk, -, rfl⟩ := new_inv o ht
  refine ⟨rfl, ?_⟩
  have hx' : x.length = 2 ^ k := hx
  have hex : x = vec (2 ^ k) (fun i => if h : i < x.length then x[i] else x[0]'(by rw [hx']; exact Nat.pow_pos (by omega))) := by
    apply eq_vec hx'
    intro i hi
    rw [dif_pos (by omega), List.getElem?_eq_getElem]
  generalize (fun i => if h : i < x.length then x[i] else x[0]'(by rw [hx']; exact Nat.pow_pos (by omega))) = G at hex
  refine ⟨vec (2 ^ k) (fun i => G (rev k i)), ?_, ?_, ?_, ?_⟩
  · rw [hex]
    exact bitReverse_ok k G
  · rw [vec_length, hx']
  · intro i j hi hj
    have hj : Reversed k i j := hj
    rw [vec_get _ hj.1, hex, vec_get _ (by omega)]
    have e := rev_unique hj.1 hj.2
    show some (G (rev k j)) = some (G i)
    rw [e, rev_rev k i (by omega)]
  · show bitReverse (vec (2 ^ (k - k / 2)) (fun i => some (rev (k - k / 2) i))) k _ = _
    rw [bitReverse_ok k (fun i => G (rev k i))]
    congr 1
    rw [hex]
    apply vec_congr
    intro i hi
    show G (rev k (rev k i)) = G i
    rw [rev_rev k i hi]

/-- Exactly these numbers of points are accepted: `2^k` with `k` at least 2, and `2^k + 1`, which is taken for `2^k`. -/
theorem C49_sizes (o : Ops F) (points : Int) :
    (∃ t, new o points = .ok t) ↔ ∃ k, 2 ≤ k ∧ (points = 2 ^ k ∨ points = 2 ^ k + 1) := by
  constructor
  · rintro ⟨t, ht⟩
    obtain ⟨k, hk, e, -⟩ := new_inv o ht
    refine ⟨k + 1, by omega, ?_⟩
    rw [Int.natCast_pow] at e
    rw [Int.pow_succ]
    have hpos : (0 : Int) < 2 ^ k := Int.pow_pos (by omega)
    simp only [Int.cast_ofNat_Int] at e
    have h0 : 0 ≤ points := by
      by_cases h0 : 0 ≤ points
      · exact h0
      · have h1 : points.tdiv 2 = -((-points).tdiv 2) := by rw [Int.neg_tdiv, Int.neg_neg]
        rw [Int.tdiv_eq_ediv_of_nonneg (show 0 ≤ -points by omega)] at h1
        omega
    rw [Int.tdiv_eq_ediv_of_nonneg h0] at e
    omega
  · rintro ⟨k, hk, h⟩
    obtain ⟨j, rfl⟩ : ∃ j, k = j + 1 := ⟨k - 1, by omega⟩
    refine ⟨_, new_pow o (k := j) (by omega) ?_⟩
    rw [Int.natCast_pow]
    rw [Int.pow_succ] at h
    have hpos : (0 : Int) < 2 ^ j := Int.pow_pos (by omega)
    simp only [Int.cast_ofNat_Int]
    rw [Int.tdiv_eq_ediv_of_nonneg (by omega)]
    omega

/-- Any arithmetic will do for the permutation. -/
def unitOps : Ops Nat :=
  ⟨fun _ => 0, fun a _ => a, fun a _ => a, fun a _ => a, id, id, id, id, 0, fun _ _ => 0, fun _ _ => 0, id, id⟩

/-- Eight points, so that an odd number of bits is reversed; and 16, an even number. -/
example : (new unitOps 16 >>= fun t => bitReverse t.seed t.logn [0, 1, 2, 3, 4, 5, 6, 7]) =
    .ok [0, 4, 2, 6, 1, 5, 3, 7] := by decide +kernel

example : (new unitOps 32 >>= fun t => bitReverse t.seed t.logn (List.range 16)) =
    .ok [0, 8, 4, 12, 2, 10, 6, 14, 1, 9, 5, 13, 3, 11, 7, 15] := by decide +kernel

example : Reversed 4 3 12 := ⟨by decide, by decide⟩

/-! ## C48

In exact arithmetic (`realOps`). -/

open Complex Finset

/-- The Fourier transform of `x`, of length `N`, at frequency `k`; `sign` is -1 for the transform and 1 for the inverse
(without its factor `1 / N`). -/
noncomputable def fourier (sign : ℝ) (N : ℕ) (x : ℕ → ℂ) (k : ℕ) : ℂ :=
  ∑ j ∈ range N, x j * Complex.exp (sign * (2 * Real.pi * j * k / N) * I)

theorem fourier_dft (N : ℕ) (x : ℕ → ℂ) (k : ℕ) : fourier (-1) N x k = dft N x k := by
  unfold fourier dft root
  apply Finset.sum_congr rfl
  intro j _
  congr 2
  push_cast
  ring

theorem fourier_idft (N : ℕ) (x : ℕ → ℂ) (k : ℕ) : fourier 1 N x k = idft N x k := by
  unfold fourier idft root
  apply Finset.sum_congr rfl
  intro j _
  congr 1
  rw [← Complex.exp_conj, map_mul, map_neg, Complex.conj_I]
  congr 1
  have : (starRingEnd ℂ) (2 * (Real.pi : ℂ) * ((j * k : ℕ) : ℂ) / (N : ℂ)) = 2 * (Real.pi : ℂ) * ((j * k : ℕ) : ℂ) / (N : ℂ) := by
    rw [map_div₀, map_mul, map_mul, map_ofNat, Complex.conj_ofReal, Complex.conj_natCast, Complex.conj_natCast]
  rw [this]
  push_cast
  ring

/-- An array as a function. -/
noncomputable def elem (l : List ℝ) (i : ℕ) : ℝ := l.getD i 0

theorem eq_elem (l : List ℝ) : l = vec l.length (elem l) :=
  eq_vec rfl (fun i hi => by
    unfold elem
    rw [List.getD_eq_getElem?_getD, List.getElem?_eq_getElem hi]
    rfl)

/-- The documented packing of a spectrum of a real signal of length `N`: the real parts at 0 and `N / 2` (the imaginary
parts are 0), then the real and the imaginary parts at 1, 2, ... -/
def Packed (N : ℕ) (l : List ℝ) (X : ℕ → ℂ) : Prop :=
  l[0]? = some (X 0).re ∧ l[1]? = some (X (N / 2)).re ∧
  ∀ k, 0 < k → k < N / 2 → l[2 * k]? = some (X k).re ∧ l[2 * k + 1]? = some (X k).im

theorem half_pow {k : ℕ} (hk : 1 ≤ k) : 2 ^ k = 2 * 2 ^ (k - 1) := by
  rw [← Nat.pow_succ']
  congr 1
  omega

/-- C48, forward: for every power of two from 4 on, the object can be made, and transforms every signal of that length
into its packed spectrum.  The scratch space is half as long as the signal; nothing beyond the two is touched. -/
theorem C48_forward {k : ℕ} (hk : 2 ≤ k) :
    ∃ t, new realOps (2 ^ k) = .ok t ∧
      ∀ (data buffer : List ℝ) (bufSize : Int), 2 ^ k ≤ data.length → 2 ^ (k - 1) ≤ buffer.length → 2 ^ (k - 1) ≤ bufSize →
        ∃ out buf, compute realOps t data (2 ^ k) true buffer bufSize = .ok (out, buf) ∧
          Packed (2 ^ k) out (fourier (-1) (2 ^ k) (fun j => (elem data j : ℂ))) ∧
          out.length = data.length ∧ (∀ i, 2 ^ k ≤ i → out[i]? = data[i]?) ∧
          buf.length = buffer.length ∧ (∀ i, 2 ^ (k - 1) ≤ i → buf[i]? = buffer[i]?) := by
  have hp := half_pow (k := k) (by omega)
  have hpos : 2 ≤ 2 ^ (k - 1) := by
    calc 2 = 2 ^ 1 := rfl
      _ ≤ 2 ^ (k - 1) := Nat.pow_le_pow_right (by omega) (by omega)
  have hpI : (2 : Int) ^ k = ((2 ^ (k - 1) : ℕ) : Int) * 2 := by
    rw [← Nat.cast_ofNat, ← Nat.cast_pow, hp]
    push_cast
    ring
  refine ⟨made realOps (k - 1), new_pow realOps (by omega) (by rw [hpI, Int.mul_tdiv_cancel _ (by omega)]), ?_⟩
  intro data buffer bufSize hd hbl hbs
  have hbs' : ((2 ^ (k - 1) : ℕ) : Int) ≤ bufSize := by push_cast; exact hbs
  generalize hn : 2 ^ (k - 1) = n at *
  have hdv : data = vec data.length (inter (pairs (elem data))) := by rw [inter_pairs]; exact eq_elem data
  have run := complexFFT_ok (k := k - 1) (L := data.length) (M := buffer.length) (size := 2 ^ k) (bufSize := bufSize)
    (by rw [hpI, hn]) (by rw [hn]; exact hbs') (by rw [hn]; omega) (by rw [hn]; omega) true (pairs (elem data)) (elem buffer)
  rw [← hdv, ← eq_elem, hn] at run
  have mok := middle_ok (k := k - 1) (L := data.length) (by rw [hn]; omega) true
    (fun i => if i < n then trans true n (pairs (elem data)) i else pairs (elem data) i)
  rw [hn] at mok
  have comp : compute realOps (made realOps (k - 1)) data (2 ^ k) true buffer bufSize =
      .ok (vec data.length (inter (mid true n (fun i => if i < n then trans true n (pairs (elem data)) i else pairs (elem data) i))),
        vec buffer.length (fun i => if i < n then (trans true n (pairs (elem data)) i).im else elem buffer i)) := by
    unfold compute
    rw [if_pos rfl, run, ok_bind]
    simp only
    rw [mok, ok_bind]
  have val := mid_forward (n := n) (by omega) (pairs (elem data))
    (fun i => if i < n then trans true n (pairs (elem data)) i else pairs (elem data) i)
    (fun i hi => by simp only [if_pos hi]; rfl)
  simp only [inter_pairs] at val
  refine ⟨_, _, comp, ⟨?_, ?_, ?_⟩, vec_length _ _, ?_, vec_length _ _, ?_⟩
  · rw [vec_get _ (by omega), fourier_dft, hp]
    have := inter_re (mid true n (fun i => if i < n then trans true n (pairs (elem data)) i else pairs (elem data) i)) 0
    rw [Nat.mul_zero] at this
    rw [this, val 0 (by omega), if_pos rfl]
  · rw [vec_get _ (by omega), fourier_dft, hp, show 2 * n / 2 = n by omega]
    have := inter_im (mid true n (fun i => if i < n then trans true n (pairs (elem data)) i else pairs (elem data) i)) 0
    rw [Nat.mul_zero] at this
    rw [this, val 0 (by omega), if_pos rfl]
  · intro q hq0 hq
    rw [hp, show 2 * n / 2 = n by omega] at hq
    rw [vec_get _ (by omega), vec_get _ (by omega), fourier_dft, hp, inter_re, inter_im, val q hq, if_neg (by omega)]
    exact ⟨rfl, rfl⟩
  · intro i hi
    by_cases hl : i < data.length
    · rw [vec_get _ hl]
      conv_rhs => rw [hdv, vec_get _ hl]
      congr 1
      unfold inter
      have e : mid true n (fun i => if i < n then trans true n (pairs (elem data)) i else pairs (elem data) i) (i / 2) =
          pairs (elem data) (i / 2) := by
        unfold mid
        rw [if_neg (by omega), if_neg (by omega)]
        exact if_neg (by omega)
      rw [e]
    · rw [List.getElem?_eq_none (by rw [vec_length]; omega), List.getElem?_eq_none (by omega)]
  · intro i hi
    by_cases hl : i < buffer.length
    · rw [vec_get _ hl, if_neg (by omega)]
      conv_rhs => rw [eq_elem buffer, vec_get _ hl]
    · rw [List.getElem?_eq_none (by rw [vec_length]; omega), List.getElem?_eq_none (by omega)]

/-- C48, backward: the packed spectrum of a real signal is transformed into `N` times that signal. -/
theorem C48_backward {k : ℕ} (hk : 2 ≤ k) :
    ∃ t, new realOps (2 ^ k) = .ok t ∧
      ∀ (data buffer : List ℝ) (bufSize : Int) (X : ℕ → ℂ), 2 ^ k ≤ data.length → 2 ^ (k - 1) ≤ buffer.length →
        2 ^ (k - 1) ≤ bufSize → Packed (2 ^ k) data X → (X 0).im = 0 →
        (∀ i, 0 < i → i < 2 ^ k → X (2 ^ k - i) = (starRingEnd ℂ) (X i)) →
        ∃ out buf, compute realOps t data (2 ^ k) false buffer bufSize = .ok (out, buf) ∧
          (∀ j, j < 2 ^ k → ∃ v : ℝ, out[j]? = some v ∧ fourier 1 (2 ^ k) X j = v) ∧
          out.length = data.length ∧ (∀ i, 2 ^ k ≤ i → out[i]? = data[i]?) ∧
          buf.length = buffer.length ∧ (∀ i, 2 ^ (k - 1) ≤ i → buf[i]? = buffer[i]?) := by
  have hp := half_pow (k := k) (by omega)
  have hpos : 2 ≤ 2 ^ (k - 1) := by
    calc 2 = 2 ^ 1 := rfl
      _ ≤ 2 ^ (k - 1) := Nat.pow_le_pow_right (by omega) (by omega)
  have hpI : (2 : Int) ^ k = ((2 ^ (k - 1) : ℕ) : Int) * 2 := by
    rw [← Nat.cast_ofNat, ← Nat.cast_pow, hp]
    push_cast
    ring
  refine ⟨made realOps (k - 1), new_pow realOps (by omega) (by rw [hpI, Int.mul_tdiv_cancel _ (by omega)]), ?_⟩
  intro data buffer bufSize X hd hbl hbs hX h0 hsym
  have hbs' : ((2 ^ (k - 1) : ℕ) : Int) ≤ bufSize := by push_cast; exact hbs
  generalize hn : 2 ^ (k - 1) = n at *
  have hdv : data = vec data.length (inter (pairs (elem data))) := by rw [inter_pairs]; exact eq_elem data
  have mok := middle_ok (k := k - 1) (L := data.length) (by rw [hn]; omega) false (pairs (elem data))
  rw [hn, ← hdv] at mok
  have run := complexFFT_ok (k := k - 1) (L := data.length) (M := buffer.length) (size := 2 ^ k) (bufSize := bufSize)
    (by rw [hpI, hn]) (by rw [hn]; exact hbs') (by rw [hn]; omega) (by rw [hn]; omega) false
    (mid false n (pairs (elem data))) (elem buffer)
  rw [← eq_elem, hn] at run
  have dbl := doubleAll_ok (L := data.length) (n := n) (by omega)
    (fun i => if i < n then trans false n (mid false n (pairs (elem data))) i else mid false n (pairs (elem data)) i)
  have comp : compute realOps (made realOps (k - 1)) data (2 ^ k) false buffer bufSize =
      .ok (vec data.length (inter (fun i => if i < n then 2 * (if i < n then trans false n (mid false n (pairs (elem data))) i
          else mid false n (pairs (elem data)) i) else (if i < n then trans false n (mid false n (pairs (elem data))) i
          else mid false n (pairs (elem data)) i))),
        vec buffer.length (fun i => if i < n then (trans false n (mid false n (pairs (elem data))) i).im else elem buffer i)) := by
    unfold compute
    rw [if_neg (by decide), mok, ok_bind, run, ok_bind]
    simp only
    rw [show (made realOps (k - 1)).n = n from hn, dbl, ok_bind]
  have atE : ∀ i, i < data.length → ∀ v, data[i]? = some v → elem data i = v := by
    intro i hi v hv
    unfold elem
    rw [List.getD_eq_getElem?_getD, hv]
    rfl
  obtain ⟨x0, x1, xs⟩ := hX
  rw [hp, show 2 * n / 2 = n by omega] at x1 xs
  have val := mid_backward (n := n) (by omega) (pairs (elem data)) X
    (by
      show X 0 = ((elem data (2 * 0) : ℝ) : ℂ)
      rw [Nat.mul_zero, atE 0 (by omega) _ x0]
      apply Complex.ext <;> simp [h0])
    (by
      show X n = ((elem data (2 * 0 + 1) : ℝ) : ℂ)
      rw [Nat.mul_zero, Nat.zero_add, atE 1 (by omega) _ x1]
      have := hsym n (by omega) (by omega)
      rw [hp, show 2 * n - n = n by omega] at this
      have him : (X n).im = 0 := Complex.conj_eq_iff_im.mp this.symm
      apply Complex.ext <;> simp [him])
    (by
      intro q hq0 hq
      show X q = ⟨elem data (2 * q), elem data (2 * q + 1)⟩
      rw [atE (2 * q) (by omega) _ (xs q hq0 hq).1, atE (2 * q + 1) (by omega) _ (xs q hq0 hq).2])
    (by rw [← hp]; exact hsym)
  have hreal := idft_real (m := 2 * n) (by omega) X h0 (by rw [← hp]; exact hsym)
  refine ⟨_, _, comp, ?_, vec_length _ _, ?_, vec_length _ _, ?_⟩
  · intro j hj
    refine ⟨_, vec_get _ (by omega), ?_⟩
    rw [fourier_idft, hp]
    have hj2 : j / 2 < n := by omega
    have hval : (2 : ℂ) * trans false n (mid false n (pairs (elem data))) (j / 2) =
        ⟨(idft (2 * n) X (2 * (j / 2))).re, (idft (2 * n) X (2 * (j / 2) + 1)).re⟩ := val (j / 2)
    unfold inter
    simp only [if_pos hj2]
    rw [hval]
    split_ifs with h
    · simp only
      rw [show 2 * (j / 2) = j by omega]
      apply Complex.ext
      · simp
      · simp [hreal j]
    · simp only
      rw [show 2 * (j / 2) + 1 = j by omega]
      apply Complex.ext
      · simp
      · simp [hreal j]
  · intro i hi
    by_cases hl : i < data.length
    · rw [vec_get _ hl]
      conv_rhs => rw [hdv, vec_get _ hl]
      congr 1
      unfold inter
      simp only [if_neg (show ¬ i / 2 < n by omega)]
      have e : mid false n (pairs (elem data)) (i / 2) = pairs (elem data) (i / 2) := by
        unfold mid
        rw [if_neg (by omega), if_neg (by omega)]
      rw [e]
    · rw [List.getElem?_eq_none (by rw [vec_length]; omega), List.getElem?_eq_none (by omega)]
  · intro i hi
    by_cases hl : i < buffer.length
    · rw [vec_get _ hl, if_neg (by omega)]
      conv_rhs => rw [eq_elem buffer, vec_get _ hl]
    · rw [List.getElem?_eq_none (by rw [vec_length]; omega), List.getElem?_eq_none (by omega)]

/-- C48: forward and then backward multiplies the signal by its length. -/
theorem C48_round_trip {k : ℕ} (hk : 2 ≤ k) (data buffer : List ℝ) (bufSize : Int) (hd : data.length = 2 ^ k)
    (hbl : 2 ^ (k - 1) ≤ buffer.length) (hbs : 2 ^ (k - 1) ≤ bufSize) :
    ∃ t out buf buf', new realOps (2 ^ k) = .ok t ∧
      compute realOps t data (2 ^ k) true buffer bufSize = .ok (out, buf) ∧
      compute realOps t out (2 ^ k) false buf bufSize = .ok (data.map (fun v => 2 ^ k * v), buf') := by
  obtain ⟨t, ht, hf⟩ := C48_forward hk
  obtain ⟨t', ht', hb⟩ := C48_backward hk
  rw [ht] at ht'
  cases ht'
  obtain ⟨out, buf, h1, h2, h3, -, h5, -⟩ := hf data buffer bufSize (by omega) hbl hbs
  have hp := half_pow (k := k) (by omega)
  have hpos : 1 ≤ 2 ^ (k - 1) := Nat.pow_pos (by omega)
  have hF : fourier (-1) (2 ^ k) (fun j => (elem data j : ℂ)) = dft (2 ^ k) (fun j => (elem data j : ℂ)) := by
    funext j
    exact fourier_dft _ _ _
  obtain ⟨out2, buf2, g1, g2, g3, -, -, -⟩ := hb out buf bufSize _ (by omega) (by omega) hbs h2
    (by
      rw [hF]
      obtain ⟨a, ha⟩ := dft_real_zero (2 ^ k) (elem data)
      rw [ha]
      simp)
    (by
      intro i hi0 hi
      rw [hF, ← dft_real_conj (by omega) (by omega) (elem data), show 2 ^ k - (2 ^ k - i) = i by omega])
  refine ⟨t, out, buf, buf2, ht, h1, ?_⟩
  rw [g1]
  congr 2
  apply List.ext_getElem?
  intro j
  by_cases hj : j < 2 ^ k
  · obtain ⟨v, hv1, hv2⟩ := g2 j hj
    rw [hF, fourier_idft, inversion _ hj] at hv2
    rw [hv1, List.getElem?_map, List.getElem?_eq_getElem (by omega)]
    have e : elem data j = data[j]'(by omega) := by
      unfold elem
      rw [List.getD_eq_getElem?_getD, List.getElem?_eq_getElem (by omega)]
      rfl
    rw [e] at hv2
    show some v = some _
    congr 1
    symm
    exact_mod_cast hv2
  · rw [List.getElem?_eq_none (by omega), List.getElem?_eq_none (by rw [List.length_map]; omega)]

/-- C48, complex: the transform of `2^(k-1)` complex numbers, real and imaginary parts in turn, in both directions. -/
theorem C48_complex {k : ℕ} (hk : 2 ≤ k) :
    ∃ t, new realOps (2 ^ k) = .ok t ∧
      ∀ (data buffer : List ℝ) (bufSize : Int) (forward : Bool), 2 ^ k ≤ data.length → 2 ^ (k - 1) ≤ buffer.length →
        2 ^ (k - 1) ≤ bufSize →
        ∃ out buf, complexFFT realOps t data (2 ^ k) forward buffer bufSize = .ok (out, buf) ∧
          ∀ i, i < 2 ^ (k - 1) →
            out[2 * i]? = some (fourier (if forward then -1 else 1) (2 ^ (k - 1))
              (fun j => ⟨elem data (2 * j), elem data (2 * j + 1)⟩) i).re ∧
            out[2 * i + 1]? = some (fourier (if forward then -1 else 1) (2 ^ (k - 1))
              (fun j => ⟨elem data (2 * j), elem data (2 * j + 1)⟩) i).im := by
  have hp := half_pow (k := k) (by omega)
  have hpI : (2 : Int) ^ k = ((2 ^ (k - 1) : ℕ) : Int) * 2 := by
    rw [← Nat.cast_ofNat, ← Nat.cast_pow, hp]
    push_cast
    ring
  refine ⟨made realOps (k - 1), new_pow realOps (by omega) (by rw [hpI, Int.mul_tdiv_cancel _ (by omega)]), ?_⟩
  intro data buffer bufSize forward hd hbl hbs
  have hbs' : ((2 ^ (k - 1) : ℕ) : Int) ≤ bufSize := by push_cast; exact hbs
  have hdv : data = vec data.length (inter (pairs (elem data))) := by rw [inter_pairs]; exact eq_elem data
  have run := complexFFT_ok (k := k - 1) (L := data.length) (M := buffer.length) (size := 2 ^ k) (bufSize := bufSize)
    hpI hbs' (by omega) hbl forward (pairs (elem data)) (elem buffer)
  rw [← hdv, ← eq_elem] at run
  refine ⟨_, _, run, ?_⟩
  intro i hi
  have e : fourier (if forward then -1 else 1) (2 ^ (k - 1)) (fun j => ⟨elem data (2 * j), elem data (2 * j + 1)⟩) i =
      trans forward (2 ^ (k - 1)) (pairs (elem data)) i := by
    cases forward
    · simp only [Bool.false_eq_true, if_false]
      exact fourier_idft _ _ _
    · simp only [if_true]
      exact fourier_dft _ _ _
  rw [e, vec_get _ (by omega), vec_get _ (by omega), inter_re, inter_im]
  simp only [if_pos hi]
  exact ⟨trivial, trivial⟩

/-- The comment of the class says that the constructor takes the number of complex points `N` and that the array has
`2 N` elements.  Used in this way the program aborts. -/
theorem C48_documented_size (o : Ops F) {points : Int} {t : State F} (ht : new o points = .ok t) (data buffer : List F)
    (bufSize : Int) : compute o t data (points * 2) true buffer bufSize = .error .assert := by
  obtain ⟨k, hk, e, rfl⟩ := new_inv o ht
  have hpos : 1 ≤ 2 ^ k := Nat.pow_pos (by omega)
  have hlt : points * 2 ≠ (((made o k).n : ℕ) : Int) * 2 := by
    show points * 2 ≠ ((2 ^ k : ℕ) : Int) * 2
    have h0 : 0 ≤ points := by
      by_cases h0 : 0 ≤ points
      · exact h0
      · have h1 : points.tdiv 2 = -((-points).tdiv 2) := by rw [Int.neg_tdiv, Int.neg_neg]
        rw [Int.tdiv_eq_ediv_of_nonneg (show 0 ≤ -points by omega)] at h1
        omega
    rw [Int.tdiv_eq_ediv_of_nonneg h0] at e
    omega
  unfold compute complexFFT
  rw [if_pos rfl, decide_eq_false hlt]
  rfl

/-- Four points of real data; a spectrum that meets the conditions of `C48_backward`. -/
example : Packed 4 [10, -2, -2, 2] (fun k => if k = 0 then 10 else if k = 2 then -2 else if k = 1 then ⟨-2, 2⟩ else ⟨-2, -2⟩) := by
  refine ⟨by simp, by simp, ?_⟩
  intro k h0 h1
  have : k = 1 := by omega
  subst this
  simp

example : ∀ i : ℕ, 0 < i → i < 2 ^ 2 →
    (fun k : ℕ => if k = 0 then (10 : ℂ) else if k = 2 then -2 else if k = 1 then ⟨-2, 2⟩ else ⟨-2, -2⟩) (2 ^ 2 - i) =
    (starRingEnd ℂ) ((fun k : ℕ => if k = 0 then (10 : ℂ) else if k = 2 then -2 else if k = 1 then ⟨-2, 2⟩ else ⟨-2, -2⟩) i) := by
  intro i h0 h1
  have : i = 1 ∨ i = 2 ∨ i = 3 := by omega
  rcases this with rfl | rfl | rfl
  · apply Complex.ext <;> simp
  · apply Complex.ext <;> simp
  · apply Complex.ext <;> simp

end Verif.Srfft
