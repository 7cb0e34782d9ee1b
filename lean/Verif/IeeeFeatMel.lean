import Verif.IeeeFeatRow
import Verif.IeeeFeatSpec

/-!
# The mel filters of the machine are near the triangles
-/

namespace Verif.Ieee

open Verif Verif.Srfft Verif.Ieee.Spec Verif.Fbank Verif.Fbank.Spec Finset

variable {lib : Lib}

/-! ## The distance of the corners -/

theorem gap_ge : 65 ≤ gap := by
  have e1 : (1 : ℝ) + 8000 / 700 = 87 / 7 := by norm_num
  have e2 : (1 : ℝ) + 20 / 700 = 36 / 35 := by norm_num
  have hl : (12 : ℝ) / 5 ≤ Real.log (145 / 12) := by
    rw [div_le_iff₀ (by norm_num), mul_comm, show (5 : ℝ) * Real.log (145 / 12) = Real.log ((145 / 12) ^ 5) by
      rw [Real.log_pow]; norm_num]
    rw [Real.le_log_iff_exp_le (by positivity), show (12 : ℝ) = ((12 : ℕ) : ℝ) * 1 by norm_num, Real.exp_nat_mul]
    have h := Real.exp_one_lt_d9.le
    calc Real.exp 1 ^ 12 ≤ 2.7182818286 ^ 12 := pow_le_pow_left₀ (Real.exp_pos 1).le h 12
      _ ≤ _ := by norm_num
  have e3 : Real.log (87 / 7) - Real.log (36 / 35) = Real.log (145 / 12) := by
    rw [← Real.log_div (by norm_num) (by norm_num)]
    norm_num
  unfold gap melOf
  rw [e1, e2, ← mul_sub, e3, le_div_iff₀ (by norm_num)]
  linarith

/-- A corner of the filters on the machine. -/
theorem corner_close (hl : LibLaws lib) {b : ℕ} (hb : b ≤ 41) {z : ℤ} (hz : z = b) :
    Near ((fbank lib).add (lowMel lib) ((fbank lib).mul ((fbank lib).ofInt z) (melStep lib))) (bound b) (1 / 16) := by
  have hb' : (b : ℝ) ≤ 41 := by exact_mod_cast hb
  have hb0 : (0 : ℝ) ≤ b := by positivity
  have hg := gap_pos
  have hg' := gap_le
  have hbg : (b : ℝ) * gap ≤ 41 * 400 := mul_le_mul hb' hg' hg.le (by norm_num)
  have h1 := near_scale (k := 15) (B := 16400) (int_is' lib hz (by omega)) (step_near hl)
    (by rw [abs_of_nonneg (by positivity)]; linarith) (by
      have : (b : ℝ) * (1 / 1000) ≤ 41 * (1 / 1000) := mul_le_mul_of_nonneg_right hb' (by norm_num)
      norm_num at this ⊢
      linarith) (by omega)
  have h2 := melOf_abs (f := 20) (by norm_num) (by norm_num)
  have hbe : (b : ℝ) * (1 / 1000) ≤ 41 / 1000 := by linarith
  have h3 := near_add (k := 15) (B := 29400) (low_near hl) h1 ((abs_add_le _ _).trans (by
    rw [abs_of_nonneg (show 0 ≤ (b : ℝ) * gap by positivity)]; linarith)) (by norm_num at hbe ⊢; linarith) (by omega)
  unfold bound
  refine Near.weaken h3 ?_
  norm_num at hbe ⊢
  linarith

/-! ## A side of a triangle -/

/-- A number from 0 to 1 that is near one side of a triangle is near the triangle. -/
theorem hat {a b t ε : ℝ} (hab : a + b = 2) (h0 : 0 ≤ t) (h1 : t ≤ 1) (h : |t - a| ≤ ε) : |t - max 0 (min a b)| ≤ ε := by
  obtain ⟨k1, k2⟩ := abs_le.mp h
  rcases le_total a 1 with c | c
  · rw [min_eq_left (by linarith)]
    rcases le_total 0 a with d | d
    · rw [max_eq_right d]
      exact h
    · rw [max_eq_left d, abs_le]
      constructor <;> linarith
  · rw [min_eq_right (by linarith)]
    rcases le_total 0 b with d | d
    · rw [max_eq_right d, abs_le]
      constructor <;> linarith
    · rw [max_eq_left d, abs_le]
      constructor <;> linarith

theorem hat_low {a b ε : ℝ} (h0 : 0 ≤ ε) (h : a ≤ ε ∨ b ≤ ε) : |0 - max 0 (min a b)| ≤ ε := by
  rw [zero_sub, abs_neg, abs_of_nonneg (le_max_left _ _)]
  refine max_le h0 ?_
  rcases h with h | h
  · exact (min_le_left _ _).trans h
  · exact (min_le_right _ _).trans h

/-- The quotient of two differences on the machine. -/
theorem ratio_near {x y z w : F32} {p q r s : ℚ} (h1 : Is x p) (h2 : Is y q) (h3 : Is z r) (h4 : Is w s) (hp : |p| ≤ 2 ^ 20)
    (hq : |q| ≤ 2 ^ 20) (hr : |r| ≤ 2 ^ 20) (hs : |s| ≤ 2 ^ 20) (h : q ≤ p) (h' : s < r) (hd : p - q ≤ r - s) {D g : ℝ}
    (kD : |(p : ℝ) - q - D| ≤ 73 / 1000) (kg : |(r : ℝ) - s - g| ≤ 1 / 8) (g1 : 65 ≤ g) (g2 : g ≤ 400) :
    ∃ v, Worth (div (sub x y) (sub z w)) v ∧ 0 ≤ v ∧ v ≤ 1 ∧ |v - D / g| ≤ 1 / 256 := by
  have hpos := ratio_pos h1 h2 h3 h4 hp hq hr hs h h' hd
  rw [sub_is h1 h2, sub_is h3 h4] at hpos ⊢
  obtain ⟨kg1, kg2⟩ := abs_le.mp kg
  have hpq : (q : ℝ) ≤ p := by exact_mod_cast h
  have hd' : (p : ℝ) - q ≤ r - s := by exact_mod_cast hd
  obtain ⟨t, ⟨t', et, rfl⟩, kt⟩ := fit_worth (q := p - q) (m := 512) (by push_cast; rw [abs_of_nonneg (by linarith)]; linarith)
    (by norm_num) (by norm_num)
  obtain ⟨G, ⟨G', eG, rfl⟩, kG⟩ := fit_worth (q := r - s) (m := 512) (by push_cast; rw [abs_of_nonneg (by linarith)]; linarith)
    (by norm_num) (by norm_num)
  push_cast at kt kG
  have kt' := near_trans kt kD
  have kG' := near_trans kG kg
  obtain ⟨tD1, tD2⟩ := abs_le.mp kt'
  obtain ⟨Gg1, Gg2⟩ := abs_le.mp kG'
  have hG : (64 : ℝ) ≤ G' := by norm_num at Gg1; linarith
  have htG : t' ≤ G' := by
    rw [is_round et, is_round eG]
    exact round_mono binary32 (by decide) hd
  have htG' : (t' : ℝ) ≤ G' := by exact_mod_cast htG
  have ht0 : 0 ≤ t' := by
    rw [is_round et]
    have := round_mono binary32 (by decide) (show (0 : ℚ) ≤ p - q by linarith)
    rwa [← is_round (fit_is (f := binary32) rep_zero)] at this
  have ht0' : (0 : ℝ) ≤ t' := by exact_mod_cast ht0
  have hGq : G' ≠ 0 := by
    intro c
    rw [c] at hG
    norm_num at hG
  rw [div_is et eG hGq] at hpos ⊢
  obtain ⟨v, ev, v0, v1⟩ := hpos
  have hGp : (0 : ℝ) < G' := by linarith
  have gp : 0 < g := by linarith
  have q0 : 0 ≤ (t' : ℝ) / G' := by positivity
  have q1 : (t' : ℝ) / G' ≤ 1 := (div_le_one hGp).mpr htG'
  obtain ⟨v', ⟨v'', ev', rfl⟩, kv⟩ := fit_worth (q := t' / G') (m := 1) (by push_cast; rw [abs_of_nonneg q0]; exact q1) (by norm_num) (by norm_num)
  have : v'' = v := (is_round ev').trans (is_round ev).symm
  subst this
  push_cast at kv
  refine ⟨v'', ⟨v'', ev, rfl⟩, by exact_mod_cast v0, by exact_mod_cast (by simpa using v1 : v'' ≤ 1), ?_⟩
  have key : |(t' : ℝ) / G' - D / g| ≤ (1 / 8 + 73 / 1000 + 2 * (512 / 2 ^ 24)) / g := by
    have e : (t' : ℝ) / G' - D / g = (t' / G' * (g - G') + (t' - D)) / g := by field_simp; ring
    rw [e, abs_div, abs_of_pos gp]
    refine div_le_div_of_nonneg_right ?_ gp.le
    refine (abs_add_le _ _).trans ?_
    rw [abs_mul, abs_of_nonneg q0]
    have k : |g - G'| ≤ 512 / 2 ^ 24 + 1 / 8 := by rw [abs_sub_comm]; exact kG'
    have := mul_le_mul q1 k (abs_nonneg _) (by norm_num)
    linarith
  have key2 : (1 / 8 + 73 / 1000 + 2 * (512 / 2 ^ 24)) / g ≤ 1 / 300 := by
    rw [div_le_iff₀ gp]
    norm_num
    linarith
  refine (near_trans kv (key.trans key2)).trans ?_
  norm_num

/-! ## A filter -/

/-- The weights of a filter: `v k` for bin `k`. -/
structure Sieve (lib : Lib) (b : ℕ) (r : ℕ × List F32) (v : ℕ → ℝ) : Prop where
  fits : r.1 + r.2.length ≤ 256
  unit : ∀ k, 0 ≤ v k ∧ v k ≤ 1
  close : ∀ k, k ≤ 256 → |v k - triangle b k| ≤ 1 / 256
  local_ : ∀ k, k ≤ 256 → binMel k ≤ bound b - 1 / 10 ∨ bound (b + 2) + 1 / 10 ≤ binMel k → v k = 0
  held : ∀ j, j < r.2.length → Worth (r.2.getD j (fbank lib).zero) (v (r.1 + j))
  outer : ∀ k, k < r.1 ∨ r.1 + r.2.length ≤ k → v k = 0

theorem edge_zero {b : ℕ} (hb : b < 40) : weight b 256 = 0 := by
  have h41 : bound 41 = binMel 256 := by
    unfold bound gap binMel
    rw [show (31.25 : ℝ) * (256 : ℕ) = 8000 by norm_num]
    push_cast
    ring
  have hle : bound (b + 2) ≤ bound 41 := by
    unfold bound
    have : ((b + 2 : ℕ) : ℝ) ≤ ((41 : ℕ) : ℝ) := by exact_mod_cast (by omega : b + 2 ≤ 41)
    have := mul_le_mul_of_nonneg_right this gap_pos.le
    linarith
  unfold weight
  refine max_eq_left ((min_le_right _ _).trans ?_)
  exact div_nonpos_of_nonpos_of_nonneg (by linarith) gap_pos.le

theorem filter_near (hl : LibLaws lib) {b : ℕ} (hb : b < 40) :
    ∃ r v, melFilter (fbank lib) 256 (binWidth lib) (lowMel lib) (melStep lib) b = .ok r ∧ Sieve lib b r v := by
  obtain ⟨p, ep, kp⟩ := corner_close hl (b := b) (by omega) (z := b) rfl
  obtain ⟨q, eq, kq⟩ := corner_close hl (b := b + 1) (by omega) (z := (b : ℤ) + 1) (by push_cast; rfl)
  obtain ⟨r, er, kr⟩ := corner_close hl (b := b + 2) (by omega) (z := (b : ℤ) + 2) (by push_cast; rfl)
  have hp : |p| ≤ 2 ^ 20 := abs_rat (near_abs kp (bound_abs (b := b) (by omega))) (by norm_num)
  have hq : |q| ≤ 2 ^ 20 := abs_rat (near_abs kq (bound_abs (b := b + 1) (by omega))) (by norm_num)
  have hr : |r| ≤ 2 ^ 20 := abs_rat (near_abs kr (bound_abs (b := b + 2) (by omega))) (by norm_num)
  have key := melFilter_ok (fbank lib) (num := 256) (by decide) (binWidth lib) (lowMel lib) (melStep lib) b rfl rfl
  obtain ⟨R, eR, -⟩ := filter_ok hl hb
  rcases key with ⟨f, l, h1, h2, -, -, h5, h6⟩ | ⟨-, h⟩
  swap
  · rw [h] at eR
    cases eR
  obtain ⟨c, ec⟩ : ∃ c, c = inside (fbank lib) (binWidth lib) ((fbank lib).add (lowMel lib) ((fbank lib).mul ((fbank lib).ofInt b) (melStep lib)))
    ((fbank lib).add (lowMel lib) ((fbank lib).mul ((fbank lib).ofInt (b + 2)) (melStep lib))) := ⟨_, rfl⟩
  rw [← ec] at h5 h6
  obtain ⟨w, ew⟩ : ∃ w, w = fun i : ℕ => binWeight (fbank lib) ((fbank lib).add (lowMel lib) ((fbank lib).mul ((fbank lib).ofInt b) (melStep lib)))
    ((fbank lib).add (lowMel lib) ((fbank lib).mul ((fbank lib).ofInt (b + 1)) (melStep lib)))
    ((fbank lib).add (lowMel lib) ((fbank lib).mul ((fbank lib).ofInt (b + 2)) (melStep lib))) (melAt (fbank lib) (binWidth lib) i) := ⟨_, rfl⟩
  have h6' : melFilter (fbank lib) 256 (binWidth lib) (lowMel lib) (melStep lib) b =
      .ok (f, vec (l + 1 - f) (fun k => if c (f + k) = true then w (f + k) else (fbank lib).zero)) := by
    rw [ew]
    exact h6
  have g0 := gap_ge
  have g1 := gap_le
  have hb1 := bound_succ b
  have hb2 := bound_succ (b + 1)
  -- a bin
  have bin : ∀ i, i < 256 → ∃ v, Worth (if c i = true then w i else (fbank lib).zero) v ∧ 0 ≤ v ∧ v ≤ 1 ∧ |v - weight b i| ≤ 1 / 256 ∧
      (c i ≠ true → v = 0) ∧ (binMel i ≤ bound b - 1 / 10 ∨ bound (b + 2) + 1 / 10 ≤ binMel i → v = 0) := by
    intro i hi
    obtain ⟨s, es, ks⟩ := bin_near hl (i := i) (by omega)
    have hs : |s| ≤ 2 ^ 20 := abs_rat (near_abs ks (binMel_abs (i := i) (by omega))) (by norm_num)
    have hci : c i = (decide (p < s) && decide (s < r)) := by
      rw [ec]
      show (lt _ (melAt (fbank lib) (binWidth lib) i) && lt (melAt (fbank lib) (binWidth lib) i) _) = _
      rw [lt_is ep es, lt_is es er]
    obtain ⟨p1, p2⟩ := abs_le.mp kp
    obtain ⟨q1, q2⟩ := abs_le.mp kq
    obtain ⟨r1, r2⟩ := abs_le.mp kr
    obtain ⟨s1, s2⟩ := abs_le.mp ks
    have gp := gap_pos
    have hsum : (binMel i - bound b) / gap + (bound (b + 2) - binMel i) / gap = 2 := by
      rw [← add_div, div_eq_iff gp.ne']
      linarith
    by_cases hc : c i = true
    · rw [if_pos hc]
      rw [hci, Bool.and_eq_true, decide_eq_true_eq, decide_eq_true_eq] at hc
      obtain ⟨c1, c2⟩ := hc
      have c1' : (p : ℝ) < s := by exact_mod_cast c1
      have c2' : (s : ℝ) < r := by exact_mod_cast c2
      have far : ∀ {v : ℝ}, binMel i ≤ bound b - 1 / 10 ∨ bound (b + 2) + 1 / 10 ≤ binMel i → v = 0 := by
        intro v h
        exfalso
        rcases h with h | h <;> linarith
      rw [ew]
      unfold binWeight
      show ∃ v, Worth (if le _ _ = true then div (sub _ _) (sub _ _) else div (sub _ _) (sub _ _)) v ∧ _
      rw [le_is es eq]
      unfold weight
      by_cases d : s ≤ q
      · rw [if_pos (by simpa using d)]
        obtain ⟨v, wv, v0, v1, kv⟩ := ratio_near es ep eq ep hs hp hq hp c1.le (by linarith) (by linarith)
          (D := binMel i - bound b) (g := gap) (by rw [abs_le]; constructor <;> linarith) (by rw [abs_le]; constructor <;> linarith) g0 g1
        exact ⟨v, wv, v0, v1, hat hsum v0 v1 kv, fun h => absurd (by rw [hci]; simp [c1, c2]) h, far⟩
      · rw [if_neg (by simpa using d)]
        have d' : q < s := not_le.mp d
        obtain ⟨v, wv, v0, v1, kv⟩ := ratio_near er es er eq hr hs hr hq c2.le (by linarith) (by linarith)
          (D := bound (b + 2) - binMel i) (g := gap) (by rw [abs_le]; constructor <;> linarith) (by rw [abs_le]; constructor <;> linarith) g0 g1
        refine ⟨v, wv, v0, v1, ?_, fun h => absurd (by rw [hci]; simp [c1, c2]) h, far⟩
        rw [min_comm]
        exact hat (by rw [add_comm]; exact hsum) v0 v1 kv
    · rw [if_neg hc]
      refine ⟨0, ⟨0, zero_is lib, by simp⟩, le_rfl, zero_le_one, ?_, fun _ => rfl, fun _ => rfl⟩
      unfold weight
      refine hat_low (by norm_num) ?_
      rw [hci, Bool.and_eq_true, decide_eq_true_eq, decide_eq_true_eq, not_and_or, not_lt, not_lt] at hc
      rcases hc with c1 | c1
      · left
        have c1' : (s : ℝ) ≤ p := by exact_mod_cast c1
        rw [div_le_iff₀ gp]
        linarith
      · right
        have c1' : (r : ℝ) ≤ s := by exact_mod_cast c1
        rw [div_le_iff₀ gp]
        linarith
  have bin' : ∀ i, ∃ v, (i < 256 → Worth (if c i = true then w i else (fbank lib).zero) v) ∧ 0 ≤ v ∧ v ≤ 1 ∧
      (i ≤ 256 → |v - weight b i| ≤ 1 / 256) ∧ (i < 256 → c i ≠ true → v = 0) ∧ (256 ≤ i → v = 0) ∧
      (i ≤ 256 → binMel i ≤ bound b - 1 / 10 ∨ bound (b + 2) + 1 / 10 ≤ binMel i → v = 0) := by
    intro i
    by_cases hi : i < 256
    · obtain ⟨v, a1, a2, a3, a4, a5, a6⟩ := bin i hi
      exact ⟨v, fun _ => a1, a2, a3, fun _ => a4, fun _ => a5, fun h => by omega, fun _ => a6⟩
    · refine ⟨0, fun h => absurd h hi, le_rfl, zero_le_one, fun h => ?_, fun h => absurd h hi, fun _ => rfl, fun _ _ => rfl⟩
      rw [show i = 256 by omega, edge_zero hb]
      norm_num
  choose v v1 v2 v3 v4 v5 v6 v7 using bin'
  refine ⟨_, v, h6', ?_, fun k => ⟨v2 k, v3 k⟩, fun k hk => by rw [triangle_eq]; exact v4 k hk, v7, ?_, ?_⟩
  · simp only
    rw [vec_length]
    omega
  · intro j hj
    simp only at hj ⊢
    rw [vec_length] at hj
    rw [getD_of _ (vec_get (fun k => if c (f + k) = true then w (f + k) else (fbank lib).zero) hj)]
    exact v1 (f + j) (by omega)
  · intro k hk
    simp only at hk
    rw [vec_length] at hk
    by_cases k2 : k < 256
    · refine v5 k k2 fun hc => ?_
      have := h5 k k2 hc
      omega
    · exact v6 k (by omega)

/-- All filters of the machine. -/
theorem filters_near (hl : LibLaws lib) : ∃ (g : ℕ → ℕ × List F32) (v : ℕ → ℕ → ℝ), melInit (fbank lib) 512 = .ok ((List.range 40).map g) ∧
    ∀ b, b < 40 → Sieve lib b (g b) (v b) := by
  have hg : ∀ b : ℕ, ∃ r v, b < 40 → melFilter (fbank lib) 256 (binWidth lib) (lowMel lib) (melStep lib) b = .ok r ∧ Sieve lib b r v := by
    intro b
    by_cases hb : b < 40
    · obtain ⟨r, v, e, h⟩ := filter_near hl hb
      exact ⟨r, v, fun _ => ⟨e, h⟩⟩
    · exact ⟨(0, []), fun _ => 0, fun h => absurd h hb⟩
  choose g v hg using hg
  refine ⟨g, v, ?_, fun b hb => (hg b hb).2⟩
  unfold melInit
  rw [decide_eq_true (by decide), cassert_true, ok_bind]
  simp only
  rw [vecInit_ok (by decide) (by decide), ok_bind, show ((512 : Int).tdiv 2).toNat = 256 by decide]
  exact mapM_ok _ _ _ (fun b hb => (hg b (List.mem_range.mp hb)).1)

/-! ## Energies with the filters -/

theorem sum_sieve {b : ℕ} {r : ℕ × List F32} {v : ℕ → ℝ} (h : Sieve lib b r v) (p : ℕ → ℝ) :
    ∑ j ∈ range r.2.length, v (r.1 + j) * p (r.1 + j) = ∑ k ∈ range 257, v k * p k := by
  have hf := h.fits
  rw [show 257 = r.1 + (r.2.length + (257 - r.1 - r.2.length)) by omega, sum_range_add, sum_range_add]
  rw [sum_eq_zero (s := range r.1) fun k hk => by rw [h.outer k (.inl (mem_range.mp hk)), zero_mul],
    sum_eq_zero (s := range (257 - r.1 - r.2.length)) fun k _ => by rw [h.outer (r.1 + (r.2.length + k)) (.inr (by omega)), zero_mul]]
  ring

theorem energy_near {bins : List (ℕ × List F32)} {b : ℕ} {r : ℕ × List F32} {v : ℕ → ℝ} (h : Sieve lib b r v) {s : List F32} {p : ℕ → ℝ}
    (hp : ∀ k, k ≤ 256 → Worth (power (builtWith lib bins) s k) (p k) ∧ 0 ≤ p k ∧ p k ≤ 2 ^ 90) :
    ∃ e, Worth (energy (builtWith lib bins) s r) e ∧ 0 ≤ e ∧
      |e - ∑ k ∈ range 257, v k * p k| ≤ 768 / 2 ^ 24 * (∑ k ∈ range 257, v k * p k) + 1024 * tiny := by
  have hf := h.fits
  have hlen : r.2.length ≤ 256 := by omega
  obtain ⟨e, we, e0, ke, s0, -⟩ := energy_sum (W := fun j => r.2.getD j (fbank lib).zero) (P := fun j => power (builtWith lib bins) s (r.1 + j))
    (w := fun j => v (r.1 + j)) (p := fun j => p (r.1 + j)) r.2.length hlen (fun j hj =>
      ⟨h.held j hj, (h.unit _).1, (h.unit _).2, hp (r.1 + j) (by omega)⟩)
  rw [sum_sieve h] at ke s0
  refine ⟨e, we, e0, ke.trans ?_⟩
  have hlen' : (r.2.length : ℝ) ≤ 256 := by exact_mod_cast hlen
  have t0 := tiny_pos
  have a : 3 * (r.2.length : ℝ) / 2 ^ 24 ≤ 768 / 2 ^ 24 := by
    refine div_le_div_of_nonneg_right ?_ (by positivity)
    linarith
  have := mul_le_mul_of_nonneg_right a s0
  have := mul_le_mul_of_nonneg_right (show 4 * (r.2.length : ℝ) ≤ 1024 by linarith) t0.le
  linarith

end Verif.Ieee
