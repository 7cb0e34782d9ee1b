import Verif.IeeeFftRec
import Verif.SrfftSpectrum

/-!
# The whole FFT in machine numbers
-/

namespace Verif.Ieee

open Verif Verif.Srfft Verif.Ieee.Spec Complex

/-! ## Steps -/

section
variable {M : ℝ} {b : ℕ} {z w : ℂ} {x y x' y' : F32}

theorem cn_conj (h : Cn M b z x y) : Cn M b ((starRingEnd ℂ) z) x (neg y) := by
  obtain ⟨v, w1, w2, e⟩ := h.near
  refine ⟨by rw [Complex.norm_conj]; exact h.size, (starRingEnd ℂ) v, w1, neg_worth w2, ?_⟩
  rw [← map_sub, Complex.norm_conj]
  exact e

theorem cn_neg (h : Cn M b z x y) : Cn M b (-z) (neg x) (neg y) := by
  obtain ⟨v, w1, w2, e⟩ := h.near
  refine ⟨by rw [norm_neg]; exact h.size, -v, neg_worth w1, neg_worth w2, ?_⟩
  rw [show -v - -z = -(v - z) by ring, norm_neg]
  exact e

/-- `-conj z`. -/
theorem cn_negconj (h : Cn M b z x y) : Cn M b (-(starRingEnd ℂ) z) (neg x) y := by
  obtain ⟨v, w1, w2, e⟩ := h.near
  refine ⟨by rw [norm_neg, Complex.norm_conj]; exact h.size, -(starRingEnd ℂ) v, neg_worth w1, ?_, ?_⟩
  · have : (-(starRingEnd ℂ) v).im = v.im := by simp
    rw [this]
    exact w2
  · rw [show -(starRingEnd ℂ) v - -(starRingEnd ℂ) z = -((starRingEnd ℂ) v - (starRingEnd ℂ) z) by ring, norm_neg, ← map_sub,
      Complex.norm_conj]
    exact e

theorem half3 (lib : Lib) (hf : Fair M b) {t r : ℝ} (hx : Worth x t) (h : |t - r| ≤ 3 * M / 2 ^ 24) (hr : |r| ≤ 65 / 32 * M) :
    ∃ v, Worth ((fftOps lib).half x) v ∧ |v - r / 2| ≤ 11 / 4 * M / 2 ^ 24 := by
  have hM := hf.pos
  have h2 : |t / 2 - r / 2| ≤ 3 / 2 * M / 2 ^ 24 := by
    rw [← sub_div, abs_div, abs_of_pos (show (0 : ℝ) < 2 by norm_num)]
    linarith
  have h3 : |t / 2| ≤ 5 / 4 * M := by
    refine (near_le h2 (B := 65 / 64 * M) ?_).trans (by linarith)
    rw [abs_div, abs_of_pos (show (0 : ℝ) < 2 by norm_num)]
    linarith
  obtain ⟨v, wv, kv⟩ := half_worth lib hx h3 (hf.scale (by norm_num) (by norm_num)).1 (hf.scale (by norm_num) (by norm_num)).2
  refine ⟨v, wv, (near_trans kv h2).trans ?_⟩
  linarith

theorem cn_halves (lib : Lib) (hf : Fair M b) (h : Cn M b z x y) (h' : Cn M b w x' y') :
    Cn M (b + 6) ((z + (starRingEnd ℂ) w) / 2) ((fftOps lib).half (add x x')) ((fftOps lib).half (sub y y')) ∧
    Cn M (b + 6) (-I * (z - (starRingEnd ℂ) w) / 2) ((fftOps lib).half (add y y')) (neg ((fftOps lib).half (sub x x'))) := by
  have hM := hf.pos
  obtain ⟨v, w1, w2, e⟩ := h.near
  obtain ⟨v', w1', w2', e'⟩ := h'.near
  obtain ⟨p1, p2⟩ := part_le (cap hf h.size e)
  obtain ⟨q1, q2⟩ := part_le (cap hf h'.size e')
  obtain ⟨t1, g1, k1⟩ := add3 hf w1 w1' p1 q1
  obtain ⟨t2, g2, k2⟩ := sub3 hf w2 w2' p2 q2
  obtain ⟨t3, g3, k3⟩ := add3 hf w2 w2' p2 q2
  obtain ⟨t4, g4, k4⟩ := sub3 hf w1 w1' p1 q1
  obtain ⟨s1, f1, j1⟩ := half3 lib hf g1 k1 ((sum_le p1 q1).trans (by linarith))
  obtain ⟨s2, f2, j2⟩ := half3 lib hf g2 k2 ((diff_le p2 q2).trans (by linarith))
  obtain ⟨s3, f3, j3⟩ := half3 lib hf g3 k3 ((sum_le p2 q2).trans (by linarith))
  obtain ⟨s4, f4, j4⟩ := half3 lib hf g4 k4 ((diff_le p1 q1).trans (by linarith))
  have nrm : ∀ {a c : ℂ} {B : ℝ}, ‖a‖ ≤ B → ‖c‖ ≤ B → ‖(a + (starRingEnd ℂ) c) / 2‖ ≤ B ∧ ‖-I * (a - (starRingEnd ℂ) c) / 2‖ ≤ B := by
    intro a c B ha hc
    have h1 := norm_add_le a ((starRingEnd ℂ) c)
    have h2 := norm_sub_le a ((starRingEnd ℂ) c)
    rw [Complex.norm_conj] at h1 h2
    constructor
    · rw [norm_div, Complex.norm_ofNat]
      linarith
    · rw [norm_div, norm_mul, norm_neg, Complex.norm_I, one_mul, Complex.norm_ofNat]
      linarith
  constructor
  · refine cn_parts (w := (v + (starRingEnd ℂ) v') / 2) (E := 11 / 4 * M / 2 ^ 24) (nrm h.size h'.size).1 f1 f2 ?_ ?_ ?_ ?_
    · have : ((v + (starRingEnd ℂ) v') / 2).re = (v.re + v'.re) / 2 := by simp
      rw [this]
      exact j1
    · have : ((v + (starRingEnd ℂ) v') / 2).im = (v.im - v'.im) / 2 := by simp [sub_eq_add_neg]
      rw [this]
      exact j2
    · push_cast
      linarith
    · have := (nrm e e').1
      rwa [map_sub, show (v - z + ((starRingEnd ℂ) v' - (starRingEnd ℂ) w)) / 2 =
        (v + (starRingEnd ℂ) v') / 2 - (z + (starRingEnd ℂ) w) / 2 by ring] at this
  · refine cn_parts (w := -I * (v - (starRingEnd ℂ) v') / 2) (E := 11 / 4 * M / 2 ^ 24) (nrm h.size h'.size).2 f3 (neg_worth f4)
      ?_ ?_ ?_ ?_
    · have : (-I * (v - (starRingEnd ℂ) v') / 2).re = (v.im + v'.im) / 2 := by simp
      rw [this]
      exact j3
    · have : (-I * (v - (starRingEnd ℂ) v') / 2).im = -((v.re - v'.re) / 2) := by simp; ring
      rw [this, ← abs_neg, show -(-s4 - -((v.re - v'.re) / 2)) = s4 - (v.re - v'.re) / 2 by ring]
      exact j4
    · push_cast
      linarith
    · have := (nrm e e').2
      rwa [map_sub, show -I * (v - z - ((starRingEnd ℂ) v' - (starRingEnd ℂ) w)) / 2 =
        -I * (v - (starRingEnd ℂ) v') / 2 - -I * (z - (starRingEnd ℂ) w) / 2 by ring] at this

/-- The product of a number of modulus at most one, `(x', y')`, with another. -/
theorem cn_mul {g d : ℕ} (hf : Fair M b) (hg : g ≤ 2 ^ 18) (hd : b * g ≤ d * 2 ^ 24) (h' : Cn 1 g w x' y') (h : Cn M b z x y) :
    Cn M (b + (g + d) + 9) (w * z) (sub (mul x' x) (mul y' y)) (add (mul x' y) (mul y' x)) := by
  have hM := hf.pos
  obtain ⟨v, w1, w2, e⟩ := h.near
  obtain ⟨v', w1', w2', e'⟩ := h'.near
  obtain ⟨p1, p2⟩ := part_le (cap hf h.size e)
  have hf' : Fair 1 g := ⟨by norm_num, by norm_num, hg⟩
  obtain ⟨q1, q2⟩ := part_le (cap hf' h'.size e')
  have prod : ∀ {a c : F32} {r s : ℝ}, Worth a r → Worth c s → |r| ≤ 65 / 64 * 1 → |s| ≤ 65 / 64 * M →
      ∃ t, Worth (mul a c) t ∧ |t - r * s| ≤ 67 / 64 * M / 2 ^ 24 ∧ |t| ≤ 67 / 64 * M := by
    intro a c r s h1 h2 h3 h4
    have h5 : |r * s| ≤ 1057 / 1024 * M := by
      refine (mul_le' h3 h4).trans ?_
      linarith
    obtain ⟨t, wt, kt⟩ := mul_worth h1 h2 (m := 67 / 64 * M) (h5.trans (by linarith)) (hf.scale (by norm_num) (by norm_num)).1
      (hf.scale (by norm_num) (by norm_num)).2
    exact ⟨t, wt, kt, (near_le kt h5).trans (by linarith)⟩
  obtain ⟨t1, g1, k1, m1⟩ := prod w1' w1 q1 p1
  obtain ⟨t2, g2, k2, m2⟩ := prod w2' w2 q2 p2
  obtain ⟨t3, g3, k3, m3⟩ := prod w1' w2 q1 p2
  obtain ⟨t4, g4, k4, m4⟩ := prod w2' w1 q2 p1
  obtain ⟨s1, f1, j1⟩ := sub_worth g1 g2 (m := 67 / 32 * M) ((diff_le m1 m2).trans (by linarith))
    (hf.scale (by norm_num) (by norm_num)).1 (hf.scale (by norm_num) (by norm_num)).2
  obtain ⟨s2, f2, j2⟩ := add_worth g3 g4 (m := 67 / 32 * M) ((sum_le m3 m4).trans (by linarith))
    (hf.scale (by norm_num) (by norm_num)).1 (hf.scale (by norm_num) (by norm_num)).2
  have a1 := near_trans j1 (diff_err k1 k2)
  have a2 := near_trans j2 (sum_err k3 k4)
  have hE : 67 / 32 * M / 2 ^ 24 + (67 / 64 * M / 2 ^ 24 + 67 / 64 * M / 2 ^ 24) ≤ 9 / 2 * M / 2 ^ 24 := by linarith
  have hz1 : ‖w * z‖ ≤ M := by
    rw [norm_mul]
    calc ‖w‖ * ‖z‖ ≤ 1 * M := mul_le_mul h'.size h.size (norm_nonneg _) (by norm_num)
      _ = M := one_mul M
  refine cn_parts (w := v' * v) (E := 9 / 2 * M / 2 ^ 24) hz1 f1 f2 (a1.trans hE) (a2.trans hE) ?_ ?_
  · push_cast
    linarith
  · have e1 : v' * v - w * z = (v' - w) * v + w * (v - z) := by ring
    rw [e1]
    refine (norm_add_le _ _).trans ?_
    rw [norm_mul, norm_mul]
    have hv : ‖v‖ ≤ M + b / 2 ^ 24 * M := by
      have h1 := norm_add_le (v - z) z
      rw [sub_add_cancel] at h1
      have := h.size
      linarith
    have b1 : ‖v' - w‖ * ‖v‖ ≤ g / 2 ^ 24 * (M + b / 2 ^ 24 * M) := by
      refine mul_le_mul (e'.trans (by rw [mul_one])) hv (norm_nonneg _) (by positivity)
    have b2 : ‖w‖ * ‖v - z‖ ≤ b / 2 ^ 24 * M := by
      calc ‖w‖ * ‖v - z‖ ≤ 1 * (b / 2 ^ 24 * M) := mul_le_mul h'.size e (norm_nonneg _) (by norm_num)
        _ = _ := one_mul _
    have hd' : (b : ℝ) * g ≤ d * 2 ^ 24 := by exact_mod_cast hd
    have b3 : (g : ℝ) / 2 ^ 24 * (b / 2 ^ 24 * M) ≤ d / 2 ^ 24 * M := by
      have : (g : ℝ) / 2 ^ 24 * (b / 2 ^ 24 * M) = (b * g) / 2 ^ 24 * (M / 2 ^ 24) := by ring
      rw [this]
      have : (d : ℝ) / 2 ^ 24 * M = d * (M / 2 ^ 24) := by ring
      rw [this]
      refine mul_le_mul_of_nonneg_right ?_ (by positivity)
      rw [div_le_iff₀ (by positivity)]
      exact hd'
    push_cast
    have : ((b : ℝ) + (g + d)) / 2 ^ 24 * M = b / 2 ^ 24 * M + g / 2 ^ 24 * M + d / 2 ^ 24 * M := by ring
    rw [this]
    have : (g : ℝ) / 2 ^ 24 * (M + b / 2 ^ 24 * M) = g / 2 ^ 24 * M + g / 2 ^ 24 * (b / 2 ^ 24 * M) := by ring
    rw [this] at b1
    linarith

end

/-! ## The complex transform -/

section
variable {A : ℝ} {lib : Lib}

theorem cx_inj {L : ℕ} {Z W : ℕ → ℂ} (h : cx L Z = cx L W) {i : ℕ} (hi : i < L) : Z i = W i := by
  unfold cx at h
  have h1 := congrArg (fun s : Cx ℝ => s.1[i]?) h
  have h2 := congrArg (fun s : Cx ℝ => s.2[i]?) h
  simp only [vec_get _ hi, Option.some.injEq] at h1 h2
  exact Complex.ext h1 h2

theorem complex2_near (hl : TrigLaws lib) (hA : Sized A) {k b : ℕ} (hk : k ≤ 30) (hb : b + 66 * k ≤ 2 ^ 18) {X Y : ℕ → F32}
    {Z : ℕ → ℂ} (h : ∀ i, i < 2 ^ k → Cn A b (Z i) (X i) (Y i)) :
    ∃ X' Y', complex2 (fftOps lib) (made (fftOps lib) k) true (vec (2 ^ k) X, vec (2 ^ k) Y) =
      .ok (vec (2 ^ k) X', vec (2 ^ k) Y') ∧
      ∀ i, i < 2 ^ k → Cn (A * 2 ^ k) (b + 66 * k) (dft (2 ^ k) Z i) (X' i) (Y' i) := by
  obtain ⟨s, e, e1, e2, hN⟩ := fftRec_near (L := 2 ^ k) hl hA (logn := k) hk k 0 0 b (fun _ => 0) (fun _ => b)
    (vec (2 ^ k) X, vec (2 ^ k) Y) (cx (2 ^ k) Z) (Nat.le_refl k) (by omega)
    ⟨X, Y, Z, rfl, rfl, fun i hi => by simpa using h i hi⟩ (fun _ _ _ => ⟨le_refl _, le_refl _⟩) (by omega) hb
  obtain ⟨X1, Y1, Z1, rfl, rfl, hc⟩ := hN
  rw [fftRec_ok k 0 Z (Nat.le_refl k) (by omega)] at e2
  have e2 := Except.ok.inj e2
  have hz : ∀ i, i < 2 ^ k → Cn (A * 2 ^ k) (b + 66 * k) (after k 0 Z i) (X1 i) (Y1 i) := by
    intro i hi
    have := hc i hi
    beta_reduce at this
    rw [if_pos (by omega), if_pos (by omega), ← cx_inj e2 hi, Nat.zero_add] at this
    exact this
  have val : ∀ i, i < 2 ^ k → after k 0 Z (rev k i) = dft (2 ^ k) Z i := by
    intro i hi
    have := rev_lt k i
    unfold after
    rw [if_pos (by omega), Nat.sub_zero, rev_rev k i hi]
    apply dft_congr
    intro j _
    rw [Nat.zero_add]
  have out : ∀ i, i < 2 ^ k → Cn (A * 2 ^ k) (b + 66 * k) (dft (2 ^ k) Z i) (X1 (rev k i)) (Y1 (rev k i)) := fun i hi => by
    rw [← val i hi]
    exact hz _ (rev_lt k i)
  refine ⟨fun i => X1 (rev k i), fun i => Y1 (rev k i), ?_, out⟩
  unfold complex2
  simp only [if_true]
  rw [show (made (fftOps lib) k).tab = table (fftOps lib) k from rfl, show (made (fftOps lib) k).logn = k from rfl, e1, ok_bind]
  unfold unshuffle
  rw [show (made (fftOps lib) k).logn = k from rfl]
  by_cases hk1 : 1 < k
  · rw [if_pos hk1]
    show (bitReverse (vec (2 ^ (k - k / 2)) fun i => some (rev (k - k / 2) i)) k (vec (2 ^ k) X1) >>=
      fun xr => bitReverse (vec (2 ^ (k - k / 2)) fun i => some (rev (k - k / 2) i)) k (vec (2 ^ k) Y1) >>=
      fun xi => .ok (xr, xi)) >>= _ = _
    rw [bitReverse_ok, ok_bind, bitReverse_ok, ok_bind, ok_bind]
  · rw [if_neg hk1, ok_bind]
    have idr : ∀ i, i < 2 ^ k → rev k i = i := by
      intro i hi
      have : k = 0 ∨ k = 1 := by omega
      rcases this with rfl | rfl
      · rw [Nat.pow_zero] at hi
        have : i = 0 := by omega
        subst this
        rfl
      · rw [Nat.pow_one] at hi
        have : i = 0 ∨ i = 1 := by omega
        rcases this with rfl | rfl <;> rfl
    congr 2
    · exact vec_congr fun i hi => by rw [idr i hi]
    · exact vec_congr fun i hi => by rw [idr i hi]

theorem complexFFT_near (hl : TrigLaws lib) (hA : Sized A) {L k b : ℕ} (hk : k ≤ 30) (hb : b + 66 * k ≤ 2 ^ 18)
    (hL : 2 * 2 ^ k ≤ L) {V : ℕ → F32} {Z : ℕ → ℂ} (h : ∀ i, i < 2 ^ k → Cn A b (Z i) (V (2 * i)) (V (2 * i + 1))) {size : Int}
    (hs : size = ((2 ^ k : ℕ) : Int) * 2) {buffer : List F32} {bufSize : Int} (hbs : ((2 ^ k : ℕ) : Int) ≤ bufSize)
    (hM : 2 ^ k ≤ buffer.length) :
    ∃ V' buf, complexFFT (fftOps lib) (made (fftOps lib) k) (vec L V) size true buffer bufSize = .ok (vec L V', buf) ∧
      ∀ i, i < 2 ^ k → Cn (A * 2 ^ k) (b + 66 * k) (dft (2 ^ k) Z i) (V' (2 * i)) (V' (2 * i + 1)) := by
  have hp : 0 < 2 ^ k := Nat.pow_pos (by omega)
  obtain ⟨X, Y, e1, hc⟩ := complex2_near hl hA hk hb (X := fun i => V (2 * i)) (Y := fun i => V (2 * i + 1)) (Z := Z) h
  generalize hn : 2 ^ k = n at *
  obtain ⟨B, eB⟩ := self_vec (x := buffer) (by omega)
  obtain ⟨M, eM⟩ : ∃ M, buffer.length = M := ⟨_, rfl⟩
  rw [eM] at eB hM
  have hv1 : vec n (fun i => if n ≤ i ∧ i < n + n then (if 0 + (i - n) < n then V (2 * (0 + (i - n)) + 1) else B (0 + (i - n)))
      else if i < n then V (2 * i) else V i) = vec n (fun i => V (2 * i)) :=
    vec_congr fun i hi => by rw [if_neg (by omega), if_pos hi]
  have hv2 : vec n (fun i => if n ≤ n + i ∧ n + i < n + n then
      (if 0 + (n + i - n) < n then V (2 * (0 + (n + i - n)) + 1) else B (0 + (n + i - n)))
      else if n + i < n then V (2 * (n + i)) else V (n + i)) = vec n (fun i => V (2 * i + 1)) :=
    vec_congr fun i hi => by rw [if_pos (by omega), if_pos (by omega), show 0 + (n + i - n) = i by omega]
  have run : Safe (complexFFT (fftOps lib) (made (fftOps lib) k) (vec L V) size true buffer bufSize) (fun r =>
      ∃ V', r.1 = vec L V' ∧ ∀ i, i < n → V' (2 * i) = X i ∧ V' (2 * i + 1) = Y i) := by
    unfold complexFFT onHalves
    rw [show (made (fftOps lib) k).n = 2 ^ k from rfl, hn]
    rw [decide_eq_true hs, cassert_true, ok_bind, decide_eq_true hbs, cassert_true, ok_bind, eB,
      split_any (by omega) hM, ok_bind]
    simp only
    rw [copyInto_ok (by omega) (by omega), ok_bind, vec_take (by omega), vec_drop, vec_take (by omega), vec_drop, hv1, hv2, e1,
      ok_bind, vec_append, show n + n + (L - (n + n)) = L by omega, ok_bind, copyInto_ok (by omega) (by omega), ok_bind,
      merge_ok (by omega) hM _ _ (by omega), ok_bind, show (0 : Int) = ((0 : Nat) : Int) from rfl, aget_vec _ (by omega), ok_bind,
      show (1 : Int) = ((1 : Nat) : Int) from rfl, aset_vec _ (by omega), ok_bind]
    refine .done ⟨_, rfl, fun i hi => ⟨?_, ?_⟩⟩
    · beta_reduce
      rw [if_neg (by omega)]
      by_cases h0 : i = 0
      · subst h0
        rw [if_neg (by omega), if_pos (by omega)]
      · rw [if_pos (by omega), if_pos (by omega), if_pos (by omega), show 2 * i / 2 = i by omega]
    · beta_reduce
      by_cases h0 : i = 0
      · subst h0
        rw [if_pos rfl, if_pos (by omega), if_neg (by omega), if_pos (by omega)]
        congr 1
        omega
      · rw [if_neg (by omega), if_pos (by omega), if_neg (by omega), if_pos (by omega), if_neg (by omega), if_pos (by omega)]
        congr 1
        omega
  obtain ⟨⟨_, buf⟩, er, V', rfl, hV⟩ := run
  refine ⟨V', buf, er, fun i hi => ?_⟩
  rw [(hV i hi).1, (hV i hi).2]
  exact hc i hi

end

end Verif.Ieee
