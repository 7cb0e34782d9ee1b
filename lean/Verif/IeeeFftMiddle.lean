import Verif.IeeeFftReal

/-!
# From the complex to the real transform, in machine numbers
-/

namespace Verif.Ieee

open Verif Verif.Srfft Verif.Ieee.Spec Complex

variable {M : ℝ} {lib : Lib}

/-! ## The powers of the root -/

theorem minus_one : Is (fit binary64 (((-1 : ℤ)) : ℚ)) (-1) := by
  have : Rep binary64 (-1) := by
    have := rep_minus (rep64 (n := 1) (by norm_num))
    simpa using this
  have e : (((-1 : ℤ)) : ℚ) = -1 := by norm_num
  rw [e]
  exact fit_is this

theorem rootAng_worth (lib : Lib) {N : ℕ} (h4 : 4 ≤ N) (hN : N ≤ 2 ^ 30) :
    ∃ q, Is ((fftOps lib).rootAng N (-1)) q ∧ |q| ≤ 8 ∧ |(q : ℝ) - -(1 * (2 * Real.pi) / N)| ≤ (2 + 1 / 16) / 2 ^ 24 := by
  show ∃ q, Is (single (mul (div twoPi (ofNat N)) (fit _ (((-1 : ℤ)) : ℚ)))) q ∧ _
  obtain ⟨t, et, kt⟩ := twoPi_worth
  have hN4 : (4 : ℝ) ≤ N := by exact_mod_cast h4
  have p0 := Real.pi_pos
  have p1 := pi_small
  have eN : Is (ofNat N : F64) (N : ℚ) := fit_is (rep64 (lt_of_le_of_lt hN (by norm_num)))
  have hN0 : (N : ℚ) ≠ 0 := by
    have : N ≠ 0 := by omega
    exact_mod_cast this
  have k0 : |(t : ℝ) / N - 2 * Real.pi / N| ≤ 1 / 2 ^ 50 := by
    rw [← sub_div, abs_div, abs_of_pos (by linarith : (0 : ℝ) < N), div_le_iff₀ (by linarith)]
    refine kt.trans ?_
    linarith
  have hθ : |2 * Real.pi / N| ≤ 1.58 := by
    rw [abs_of_nonneg (by positivity), div_le_iff₀ (by linarith)]
    linarith
  obtain ⟨a, ea, ka⟩ := fit_double (q := t / N) (m := 2) (by push_cast; exact (near_le k0 hθ).trans (by norm_num)) (by norm_num)
    (by norm_num)
  rw [div_is et eN hN0]
  push_cast at ka
  have k1 := near_trans ka k0
  rw [mul_is ea minus_one]
  obtain ⟨c, ec, kc⟩ := fit_double (q := a * -1) (m := 2) (by
    push_cast
    rw [mul_neg_one, abs_neg]
    exact (near_le k1 hθ).trans (by norm_num)) (by norm_num) (by norm_num)
  push_cast at kc
  have k2 : |(a : ℝ) * -1 - -(2 * Real.pi / N)| ≤ 2 / 2 ^ 53 + 1 / 2 ^ 50 := by
    rw [← abs_neg, show -((a : ℝ) * -1 - -(2 * Real.pi / N)) = a - 2 * Real.pi / N by ring]
    exact k1
  have k3 := near_trans kc k2
  have hθ' : |-(2 * Real.pi / N)| ≤ 1.58 := by rw [abs_neg]; exact hθ
  obtain ⟨r, ⟨q, eq, rfl⟩, kr⟩ := single_worth ec (m := 2) ((near_le k3 hθ').trans (by norm_num)) (by norm_num) (by norm_num)
  have k4 : |(q : ℝ) - -(2 * Real.pi / N)| ≤ (2 + 1 / 16) / 2 ^ 24 := (near_trans kr k3).trans (by norm_num)
  refine ⟨q, eq, ?_, by rw [one_mul]; exact k4⟩
  have : |(q : ℝ)| ≤ 8 := (near_le k4 hθ').trans (by norm_num)
  exact_mod_cast this

theorem root_norm (m a : ℕ) : ‖root m a‖ = 1 := by
  have h := root_conj m a
  rw [Complex.mul_conj, Complex.normSq_eq_norm_sq] at h
  have h : ‖root m a‖ ^ 2 = 1 := by exact_mod_cast h
  exact (pow_eq_one_iff_of_nonneg (norm_nonneg _) two_ne_zero).mp h

theorem root_near (hl : TrigLaws lib) {N : ℕ} (h4 : 4 ≤ N) (hN : N ≤ 2 ^ 30) :
    Cn 1 9 (root N 1) ((fftOps lib).cos ((fftOps lib).rootAng N (-1))) ((fftOps lib).sin ((fftOps lib).rootAng N (-1))) := by
  obtain ⟨q, eq, q8, kq⟩ := rootAng_worth lib h4 hN
  obtain ⟨c, wc, kc⟩ := cos_worth hl eq q8 kq
  obtain ⟨s, ws, ks⟩ := sin_worth hl eq q8 kq
  have f : ((2 : ℝ) + 1 / 16) / 2 ^ 24 + (2 + 1 / 16) / 2 ^ 24 ≤ 9 / 2 / 2 ^ 24 := by norm_num
  have := cn_parts (M := 1) (b := 0) (d := 9) (z := root N 1) (w := root N 1) (E := 9 / 2 / 2 ^ 24) (by rw [root_norm]) wc ws (by
    rw [root_re]
    rw [Real.cos_neg] at kc
    push_cast
    exact kc.trans f) (by
    rw [root_im]
    rw [Real.sin_neg] at ks
    push_cast
    exact ks.trans f) (by norm_num) (by simp)
  exact this

theorem turns_near (hl : TrigLaws lib) {N : ℕ} (h4 : 4 ≤ N) (hN : N ≤ 2 ^ 30) : ∀ i, i ≤ 8192 →
    Cn 1 (20 * i) (root N i)
      (turns (fftOps lib) ((fftOps lib).cos ((fftOps lib).rootAng N (-1))) ((fftOps lib).sin ((fftOps lib).rootAng N (-1))) i).1
      (turns (fftOps lib) ((fftOps lib).cos ((fftOps lib).rootAng N (-1))) ((fftOps lib).sin ((fftOps lib).rootAng N (-1))) i).2 := by
  have hr := root_near hl h4 hN
  generalize (fftOps lib).cos ((fftOps lib).rootAng N (-1)) = rr at *
  generalize (fftOps lib).sin ((fftOps lib).rootAng N (-1)) = ri at *
  intro i
  induction i with
  | zero =>
    intro _
    rw [root_zero]
    refine ⟨by simp, 1, ⟨1, ?_, by simp⟩, ⟨0, ?_, by simp⟩, by simp⟩
    · show Is (fit binary32 (((1 : ℤ)) : ℚ)) 1
      have := fit_is (rep_small (n := 1) (by norm_num))
      simpa using this
    · show Is (fit binary32 (((0 : ℤ)) : ℚ)) 0
      have := fit_is (rep_small (n := 0) (by norm_num))
      simpa using this
  | succ i ih =>
    intro hi
    have h := ih (by omega)
    have := cn_mul (d := 1) (M := 1) (b := 9) (g := 20 * i) ⟨by norm_num, by norm_num, by norm_num⟩ (by omega) (by omega) h hr
    rw [root_add]
    exact this.mono le_rfl (by omega)

/-! ## One step -/

theorem addProduct_run {L p : ℕ} (hp : 2 * p + 1 < L) (V : ℕ → F32) (ar ai br bi : F32) :
    addProduct (fftOps lib) ar ai br bi (2 * p) (vec L V) =
      .ok (vec L (fun j => if j = 2 * p + 1 then add (V (2 * p + 1)) (add (mul br ai) (mul bi ar)) else
        if j = 2 * p then add (V (2 * p)) (sub (mul br ar) (mul bi ai)) else V j)) := by
  unfold addProduct
  rw [aget_vec _ (by omega), ok_bind, aset_vec _ (by omega), ok_bind, aget_vec _ (by omega), ok_bind, aset_vec _ (by omega),
    if_neg (by omega)]
  rfl

theorem realStep_near {b g L n i : ℕ} (hf : Fair M (b + g + 25)) (hg : g ≤ 2 ^ 18)
    (hbg : (b + 6) * g ≤ 10 * 2 ^ 24) (hL : 2 * n ≤ L) (hi : 2 * (i + 1) ≤ n) {V : ℕ → F32} {B : ℕ → ℂ} {W : ℂ} {rr ri : F32}
    {w : F32 × F32} (hw : Cn 1 g W (complexMul (fftOps lib) rr ri w.1 w.2).1 (complexMul (fftOps lib) rr ri w.1 w.2).2)
    (h1 : Cn M b (B (i + 1)) (V (2 * (i + 1))) (V (2 * (i + 1) + 1)))
    (h2 : Cn M b (B (n - (i + 1))) (V (2 * (n - (i + 1)))) (V (2 * (n - (i + 1)) + 1))) :
    ∃ V', realStep (fftOps lib) n rr ri i (vec L V, w) = .ok (vec L V', complexMul (fftOps lib) rr ri w.1 w.2) ∧
      Cn (2 * M) (b + g + 28) (Ck n B (i + 1) + W * Dk n B (i + 1)) (V' (2 * (i + 1))) (V' (2 * (i + 1) + 1)) ∧
      (n - (i + 1) ≠ i + 1 → Cn (2 * M) (b + g + 28)
        ((starRingEnd ℂ) (Ck n B (i + 1)) + -(starRingEnd ℂ) W * (starRingEnd ℂ) (Dk n B (i + 1)))
        (V' (2 * (n - (i + 1)))) (V' (2 * (n - (i + 1)) + 1))) ∧
      ∀ p, p ≠ i + 1 → p ≠ n - (i + 1) → V' (2 * p) = V (2 * p) ∧ V' (2 * p + 1) = V (2 * p + 1) := by
  have hM := hf.pos
  have hfb : Fair M b := ⟨hf.low, hf.high, by have := hf.few; omega⟩
  have hfb6 : Fair M (b + 6) := ⟨hf.low, hf.high, by have := hf.few; omega⟩
  obtain ⟨hC, hD⟩ := cn_halves lib hfb h1 h2
  have eC : Ck n B (i + 1) = (B (i + 1) + (starRingEnd ℂ) (B (n - (i + 1)))) / 2 := rfl
  have eD : Dk n B (i + 1) = -I * (B (i + 1) - (starRingEnd ℂ) (B (n - (i + 1)))) / 2 := rfl
  rw [← eC] at hC
  rw [← eD] at hD
  have s1 := cn_add hf (hC.mono le_rfl (by omega)) ((cn_mul (d := 10) hfb6 hg hbg hw hD).mono le_rfl (by omega))
  have s2 := cn_add hf ((cn_conj hC).mono le_rfl (by omega))
    ((cn_mul (d := 10) hfb6 hg hbg (cn_negconj hw) (cn_conj hD)).mono le_rfl (by omega))
  unfold realStep
  generalize complexMul (fftOps lib) rr ri w.1 w.2 = w' at *
  simp only
  rw [show 2 * n - 2 * (i + 1) = 2 * (n - (i + 1)) by omega, aget_vec _ (by omega), ok_bind, aget_vec _ (by omega), ok_bind,
    aget_vec _ (by omega), ok_bind, aget_vec _ (by omega), ok_bind]
  generalize hk : i + 1 = k at *
  change Cn (2 * M) (b + g + 28) _ _ _ at s1 s2
  have e0 : (fftOps lib).half ((fftOps lib).add (V (2 * k)) (V (2 * (n - k)))) =
    (fftOps lib).half (add (V (2 * k)) (V (2 * (n - k)))) := rfl
  have e1 : (fftOps lib).half ((fftOps lib).sub (V (2 * k + 1)) (V (2 * (n - k) + 1))) =
    (fftOps lib).half (sub (V (2 * k + 1)) (V (2 * (n - k) + 1))) := rfl
  have e2 : (fftOps lib).half ((fftOps lib).add (V (2 * k + 1)) (V (2 * (n - k) + 1))) =
    (fftOps lib).half (add (V (2 * k + 1)) (V (2 * (n - k) + 1))) := rfl
  have e3 : (fftOps lib).neg ((fftOps lib).half ((fftOps lib).sub (V (2 * k)) (V (2 * (n - k))))) =
    neg ((fftOps lib).half (sub (V (2 * k)) (V (2 * (n - k))))) := rfl
  rw [e0, e1, e2, e3]
  generalize (fftOps lib).half (add (V (2 * k)) (V (2 * (n - k)))) = cr at *
  generalize (fftOps lib).half (sub (V (2 * k + 1)) (V (2 * (n - k) + 1))) = ci at *
  generalize (fftOps lib).half (add (V (2 * k + 1)) (V (2 * (n - k) + 1))) = dr at *
  generalize neg ((fftOps lib).half (sub (V (2 * k)) (V (2 * (n - k))))) = di at *
  rw [aset_vec _ (by omega), ok_bind, aset_vec _ (by omega), ok_bind, addProduct_run (by omega), ok_bind]
  unfold dashStep
  by_cases hd : n - k ≠ k
  · rw [if_pos hd, aset_vec _ (by omega), ok_bind, aset_vec _ (by omega), ok_bind, addProduct_run (by omega), ok_bind]
    refine ⟨_, rfl, ?_, fun _ => ?_, fun p hp1 hp2 => ⟨?_, ?_⟩⟩
    · convert s1 using 1
      · repeat first | rw [if_neg (by omega)] | rw [if_pos (by omega)]
      · repeat first | rw [if_neg (by omega)] | rw [if_pos (by omega)]
    · convert s2 using 1
      · repeat first | rw [if_neg (by omega)] | rw [if_pos (by omega)]
        rfl
      · repeat first | rw [if_neg (by omega)] | rw [if_pos (by omega)]
        rfl
    · repeat rw [if_neg (by omega)]
    · repeat rw [if_neg (by omega)]
  · rw [if_neg hd, ok_bind]
    refine ⟨_, rfl, ?_, fun h => absurd h hd, fun p hp1 hp2 => ⟨?_, ?_⟩⟩
    · convert s1 using 1
      · repeat first | rw [if_neg (by omega)] | rw [if_pos (by omega)]
      · repeat first | rw [if_neg (by omega)] | rw [if_pos (by omega)]
    · repeat rw [if_neg (by omega)]
    · repeat rw [if_neg (by omega)]

/-! ## The loop -/

/-- After `i` steps the entries `1 … i` and `n - i … n - 1` are the real transform, the others the complex one. -/
def Half (M : ℝ) (b n i : ℕ) (B : ℕ → ℂ) (V : ℕ → F32) : Prop :=
  (∀ p, p < n → (1 ≤ p ∧ p ≤ i) ∨ n - i ≤ p →
    Cn (2 * M) (b + 10 * n + 28) (Ck n B p + root (2 * n) p * Dk n B p) (V (2 * p)) (V (2 * p + 1))) ∧
  ∀ p, p < n → ¬((1 ≤ p ∧ p ≤ i) ∨ n - i ≤ p) → Cn M b (B p) (V (2 * p)) (V (2 * p + 1))

theorem half_step {b n L i : ℕ} (hn : 0 < n) (hn14 : n ≤ 16384) (hb : b ≤ 924) (hf : Fair M (b + 10 * n + 25)) (hL : 2 * n ≤ L)
    {B : ℕ → ℂ} {rr ri : F32} (hi : 2 * (i + 1) ≤ n)
    (tn : ∀ i, i ≤ 8192 → Cn 1 (20 * i) (root (2 * n) i) (turns (fftOps lib) rr ri i).1 (turns (fftOps lib) rr ri i).2)
    {V : ℕ → F32} (hV : Half M b n i B V) :
    ∃ V', realStep (fftOps lib) n rr ri i (vec L V, turns (fftOps lib) rr ri i) = .ok (vec L V', turns (fftOps lib) rr ri (i + 1)) ∧
      Half M b n (i + 1) B V' := by
  have c1 := hV.2 (i + 1) (by omega) (by omega)
  have c2 := hV.2 (n - (i + 1)) (by omega) (by omega)
  have hw : Cn 1 (10 * n) (root (2 * n) (i + 1)) (complexMul (fftOps lib) rr ri (turns (fftOps lib) rr ri i).1
      (turns (fftOps lib) rr ri i).2).1 (complexMul (fftOps lib) rr ri (turns (fftOps lib) rr ri i).1
      (turns (fftOps lib) rr ri i).2).2 := (tn (i + 1) (by omega)).mono le_rfl (by omega)
  obtain ⟨V2, e2, a1, a2, a3⟩ := realStep_near (lib := lib) (g := 10 * n) (L := L) hf (by omega) (by nlinarith) hL hi
    (w := turns (fftOps lib) rr ri i) hw c1 c2
  refine ⟨V2, e2, fun p hp hc => ?_, fun p hp hc => ?_⟩
  · by_cases hp1 : p = i + 1
    · rw [hp1]
      exact a1
    by_cases hp2 : p = n - (i + 1)
    · have := a2 (by omega)
      rw [hp2]
      have eT : Ck n B (n - (i + 1)) + root (2 * n) (n - (i + 1)) * Dk n B (n - (i + 1)) = (starRingEnd ℂ) (Ck n B (i + 1)) +
          -(starRingEnd ℂ) (root (2 * n) (i + 1)) * (starRingEnd ℂ) (Dk n B (i + 1)) := by
        rw [Ck_dash (by omega), Dk_dash (by omega)]
        congr 2
        exact factor_dash true (by omega) (by omega)
      rw [eT]
      exact this
    · obtain ⟨q1, q2⟩ := a3 p hp1 hp2
      rw [q1, q2]
      exact hV.1 p hp (by omega)
  · obtain ⟨q1, q2⟩ := a3 p (by omega) (by omega)
    rw [q1, q2]
    exact hV.2 p hp (by omega)

theorem loop_near {b n L : ℕ} (hn : 0 < n) (hn14 : n ≤ 16384) (hb : b ≤ 924) (hf : Fair M (b + 10 * n + 25)) (hL : 2 * n ≤ L)
    {B : ℕ → ℂ} {rr ri : F32}
    (tn : ∀ i, i ≤ 8192 → Cn 1 (20 * i) (root (2 * n) i) (turns (fftOps lib) rr ri i).1 (turns (fftOps lib) rr ri i).2)
    {V : ℕ → F32} (h : ∀ i, i < n → Cn M b (B i) (V (2 * i)) (V (2 * i + 1))) :
    ∃ V' w, forN (n / 2) (realStep (fftOps lib) n rr ri) (vec L V, turns (fftOps lib) rr ri 0) = .ok (vec L V', w) ∧
      Half M b n (n / 2) B V' := by
  have h0 : Half M b n 0 B V := ⟨fun p hp hc => absurd hc (by omega), fun p hp _ => h p hp⟩
  obtain ⟨s, es, V1, rfl, hV⟩ := safe_forN (f := realStep (fftOps lib) n rr ri) (fun i (s : List F32 × F32 × F32) =>
    ∃ V', s = (vec L V', turns (fftOps lib) rr ri i) ∧ Half M b n i B V') (n / 2) (by
      rintro i s hi ⟨V1, rfl, hV⟩
      obtain ⟨V2, e2, h2⟩ := half_step hn hn14 hb hf hL (by omega) tn hV
      exact ⟨_, e2, V2, rfl, h2⟩) (vec L V, turns (fftOps lib) rr ri 0) ⟨V, rfl, h0⟩
  exact ⟨V1, _, es, hV⟩

theorem zero_near {b n L : ℕ} (hfb : Fair M b) (hL : 2 ≤ L) {z : ℂ} {V : ℕ → F32} (z0 : Cn M b z (V 0) (V 1)) :
    ∃ V', zeroStep (fftOps lib) true (vec L V) = .ok (vec L V') ∧ (∀ p, 2 ≤ p → V' p = V p) ∧
      (∃ r, Worth (V' 0) r ∧ |r - (z.re + z.im)| ≤ (b + 10 * n + 28) / 2 ^ 24 * (2 * M)) ∧
      ∃ r, Worth (V' 1) r ∧ |r - (z.re - z.im)| ≤ (b + 10 * n + 28) / 2 ^ 24 * (2 * M) := by
  have hM := hfb.pos
  obtain ⟨v, w1, w2, e⟩ := z0.near
  obtain ⟨p1, p2⟩ := part_le (cap hfb z0.size e)
  obtain ⟨r1, g1, k1⟩ := add3 hfb w1 w2 p1 p2
  obtain ⟨r2, g2, k2⟩ := sub3 hfb w1 w2 p1 p2
  obtain ⟨d1, d2⟩ := part_le e
  rw [Complex.sub_re] at d1
  rw [Complex.sub_im] at d2
  have j1 := near_trans k1 (sum_err d1 d2)
  have j2 := near_trans k2 (diff_err d1 d2)
  have hEr : 3 * M / 2 ^ 24 + (b / 2 ^ 24 * M + b / 2 ^ 24 * M) ≤ (b + 10 * n + 28) / 2 ^ 24 * (2 * M) := by
    have h0 : 0 ≤ (n : ℝ) / 2 ^ 24 * M := by positivity
    have e1 : ((b : ℝ) + 10 * n + 28) / 2 ^ 24 * (2 * M) = (b / 2 ^ 24 * M + b / 2 ^ 24 * M) + 20 * (n / 2 ^ 24 * M) + 56 * M / 2 ^ 24 := by
      ring
    rw [e1]
    linarith
  unfold zeroStep
  simp only [if_true]
  rw [show (0 : Int) = ((0 : Nat) : Int) from rfl, show (1 : Int) = ((1 : Nat) : Int) from rfl, aget_vec _ (by omega), ok_bind,
    aget_vec _ (by omega), ok_bind, aset_vec _ (by omega), ok_bind, aset_vec _ (by omega)]
  refine ⟨_, rfl, fun p hp => ?_, ⟨r1, ?_, j1.trans hEr⟩, ⟨r2, ?_, j2.trans hEr⟩⟩
  · rw [if_neg (by omega), if_neg (by omega)]
  · rw [if_neg (by omega), if_pos rfl]
    exact g1
  · rw [if_pos rfl]
    exact g2

theorem middle_near (hl : TrigLaws lib) {k b L : ℕ} (hk1 : 1 ≤ k) (hk : k ≤ 14) (hb : b ≤ 924) (m1 : 1 / 2 ^ 60 ≤ M)
    (m2 : M ≤ 2 ^ 108) (hL : 2 * 2 ^ k ≤ L) {V : ℕ → F32} {B : ℕ → ℂ}
    (h : ∀ i, i < 2 ^ k → Cn M b (B i) (V (2 * i)) (V (2 * i + 1))) :
    ∃ V', middle (fftOps lib) (made (fftOps lib) k) true (vec L V) = .ok (vec L V') ∧
      (∀ i, 0 < i → i < 2 ^ k → Cn (2 * M) (b + 10 * 2 ^ k + 28) (mid true (2 ^ k) B i) (V' (2 * i)) (V' (2 * i + 1))) ∧
      (∃ r, Worth (V' 0) r ∧ |r - (mid true (2 ^ k) B 0).re| ≤ (b + 10 * (2 ^ k : ℕ) + 28) / 2 ^ 24 * (2 * M)) ∧
      ∃ r, Worth (V' 1) r ∧ |r - (mid true (2 ^ k) B 0).im| ≤ (b + 10 * (2 ^ k : ℕ) + 28) / 2 ^ 24 * (2 * M) := by
  have hn2 : 2 ≤ 2 ^ k := by
    calc 2 = 2 ^ 1 := rfl
      _ ≤ 2 ^ k := Nat.pow_le_pow_right (by omega) hk1
  have hn14 : 2 ^ k ≤ 16384 := by
    calc 2 ^ k ≤ 2 ^ 14 := Nat.pow_le_pow_right (by omega) hk
      _ = 16384 := rfl
  have ev : 2 ^ k / 2 * 2 = 2 ^ k := Nat.div_mul_cancel (by
    have : 2 ^ 1 ∣ 2 ^ k := Nat.pow_dvd_pow 2 hk1
    simpa using this)
  unfold middle
  rw [show (made (fftOps lib) k).n = 2 ^ k from rfl]
  simp only [if_true]
  have tn := turns_near hl (N := 2 ^ k * 2) (by omega) (by omega)
  generalize (fftOps lib).cos ((fftOps lib).rootAng (2 ^ k * 2) (-1)) = rr at *
  generalize (fftOps lib).sin ((fftOps lib).rootAng (2 ^ k * 2) (-1)) = ri at *
  clear hk hk1
  generalize 2 ^ k = n at *
  rw [Nat.mul_comm n 2] at tn
  have hf : Fair M (b + 10 * n + 25) := ⟨m1, m2, by omega⟩
  have hfb : Fair M b := ⟨m1, m2, by omega⟩
  obtain ⟨V1, w, e1, hV⟩ := loop_near (by omega) hn14 hb hf hL tn h
  have e0 : turns (fftOps lib) rr ri 0 = ((fftOps lib).ofInt (-(-1)), (fftOps lib).ofInt 0) := rfl
  rw [← e0, e1, ok_bind]
  obtain ⟨V2, e2, same, z1, z2⟩ := zero_near (lib := lib) (n := n) (L := L) hfb (by omega) (hV.2 0 (by omega) (by omega))
  have em : mid true n B 0 = ⟨(B 0).re + (B 0).im, (B 0).re - (B 0).im⟩ := by simp [mid]
  refine ⟨V2, e2, fun i h0 hi => ?_, ?_, ?_⟩
  · have em : mid true n B i = Ck n B i + root (2 * n) i * Dk n B i := by
      unfold mid
      rw [if_neg (by omega), if_pos hi]
      rfl
    rw [em, same _ (by omega), same _ (by omega)]
    exact hV.1 i hi (by omega)
  · rw [em]
    exact z1
  · rw [em]
    exact z2

end Verif.Ieee
