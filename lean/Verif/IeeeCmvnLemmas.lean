import Verif.IeeeCmvnNum
import Verif.IeeeCmvnSpec

/-!
# Frame by frame
-/

namespace Verif.Ieee

open Verif Verif.Ieee.Spec Verif.Cmvn Verif.Srfft

/-! ## The sliding sum -/

theorem slideSum_succ (X : ℕ → ℕ → ℚ) (t i : ℕ) : slideSum X (t + 1) i = slideSum X t i + X (t + 1) i -
    (if 600 ≤ t + 1 then X (t + 1 - 600) i else 0) := by
  unfold slideSum
  rw [Finset.sum_Ico_succ_top (by omega)]
  by_cases h : 600 ≤ t + 1
  · rw [if_pos h, Finset.sum_eq_sum_Ico_succ_bot (show t + 1 - 600 < t + 1 by omega),
      show t + 1 - 600 + 1 = t + 1 + 1 - 600 by omega]
    ring
  · rw [if_neg h, show t + 1 - 600 = 0 by omega, show t + 1 + 1 - 600 = 0 by omega]
    ring

theorem slideSum_le {X : ℕ → ℕ → ℚ} {M : ℚ} {t i : ℕ} (h : ∀ j, j ≤ t → |X j i| ≤ M) :
    |slideSum X t i| ≤ slideOwn t * M := by
  unfold slideSum
  refine (Finset.abs_sum_le_sum_abs _ _).trans ?_
  refine (Finset.sum_le_card_nsmul _ _ M (fun j hj => h j (by have := Finset.mem_Ico.mp hj; omega))).trans ?_
  rw [Nat.card_Ico, nsmul_eq_mul, show t + 1 - (t + 1 - 600) = slideOwn t by unfold slideOwn; omega]

/-- What has been summed up before frame `t`. -/
def before (X : ℕ → ℕ → ℚ) (t i : ℕ) : ℚ := if t = 0 then 0 else slideSum X (t - 1) i

/-- How many frames were summed up before frame `t`. -/
def countBefore (t : ℕ) : ℕ := if t = 0 then 0 else slideOwn (t - 1)

theorem before_next (X : ℕ → ℕ → ℚ) (t i : ℕ) :
    slideSum X t i = before X t i + X t i - (if 600 ≤ t then X (t - 600) i else 0) := by
  unfold before
  by_cases h : t = 0
  · subst h
    simp [slideSum]
  · obtain ⟨t, rfl⟩ : ∃ k, t = k + 1 := ⟨t - 1, by omega⟩
    rw [if_neg h, slideSum_succ, Nat.add_sub_cancel]

/-! ## The state -/

/-- The state before frame `t`: the sums are within `e` of what they should be. -/
structure Summed (raw : List (List F32)) (global : List F32) (X : ℕ → ℕ → ℚ) (t : ℕ) (e : ℚ) (s : Cmvn.State F32) (C : ℕ → F32) :
    Prop where
  raw : s.raw = raw
  global : s.global = global
  frame : s.frame = (t : Int) - 1
  stats : 0 < t → s.stats = vec 41 C
  count : 0 < t → Is (C 40) (slideOwn (t - 1))
  sums : 0 < t → ∀ i, i < 40 → ∃ q, Is (C i) q ∧ |q - slideSum X (t - 1) i| ≤ e

variable {raw : List (List F32)} {global : List F32} {X : ℕ → ℕ → ℚ} {g : ℕ → ℚ} {M : ℚ}

/-- The elements of the matrix. -/
def cell (raw : List (List F32)) (t i : ℕ) : F32 := (raw.getD t []).getD i (fit _ 0)

theorem vec_of {l : List F32} {n : ℕ} (h : l.length = n) : l = vec n (fun i => l.getD i (fit _ 0)) := by
  apply eq_vec h
  intro i hi
  rw [List.getD_eq_getElem?_getD, List.getElem?_eq_getElem (by omega)]
  rfl

theorem rows_cell (h : Frames raw X M) : Rows raw (cell raw) := by
  intro t ht
  rw [List.getElem?_eq_getElem ht]
  have e : cell raw t = fun i => (raw[t]).getD i (fit _ 0) := by
    funext i
    unfold cell
    rw [List.getD_eq_getElem?_getD (l := raw), List.getElem?_eq_getElem ht]
    rfl
  rw [e, ← vec_of (h.width _ (List.getElem_mem ht))]

theorem cell_is (h : Frames raw X M) {t i : ℕ} (ht : t < raw.length) (hi : i < 40) : Is (cell raw t i) (X t i) := by
  obtain ⟨x, v, h1, h2, h3⟩ := h.value t i ht hi
  unfold cell
  rw [List.getD_eq_getElem?_getD (l := raw), h1]
  show Is (x.getD i _) _
  rw [List.getD_eq_getElem?_getD, h2]
  exact h3

theorem czero_is : Is cmvn.zero 0 := by
  have : Is zeroD 0 := fit_is (f := binary64) rep_zero
  simpa only [cmvn] using this

theorem cpos_is {x : F32} {p : ℚ} (h : Is x p) (hp : 0 < p) : cmvn.lt cmvn.zero (cmvn.toD x) = true := by
  have hz : Is zeroD 0 := fit_is (f := binary64) rep_zero
  have := lt_is hz (double_is h)
  rw [decide_eq_true hp] at this
  simpa only [cmvn] using this

theorem start_zero {C : ℕ → F32} (i : ℕ) : Is (start cmvn 0 C i) 0 := by
  unfold start
  rw [if_pos rfl]
  exact czero_is

theorem start_pos {C : ℕ → F32} {t i : ℕ} (h : 0 < t) {q : ℚ} (hq : Is (C i) q) : Is (start cmvn t C i) q := by
  unfold start
  rw [if_neg (by omega)]
  exact double_is hq

/-- The count is exact. -/
theorem count_next {t : ℕ} {C x y : ℕ → F32} (h : 0 < t → Is (C 40) (slideOwn (t - 1))) :
    Is (nextStats cmvn t C x y 40) (slideOwn t) := by
  have h1 : Is (start cmvn t C 40) (countBefore t) := by
    unfold countBefore
    by_cases h0 : t = 0
    · rw [if_pos h0, h0]
      simpa using start_zero (C := C) 40
    · rw [if_neg h0]
      exact start_pos (by omega) (h (by omega))
  have hle : countBefore t ≤ 600 := by unfold countBefore slideOwn; split <;> omega
  have h2 : Is (cmvn.add (start cmvn t C 40) (cmvn.ofNat 1)) ((countBefore t + 1 : ℕ) : ℚ) := by
    have e : cmvn.add (start cmvn t C 40) (cmvn.ofNat 1) = fit binary64 ((countBefore t : ℚ) + ((1 : ℕ) : ℚ)) :=
      add_is h1 (nat_is (n := 1) (by norm_num))
    rw [e, ← Nat.cast_add]
    exact fit_is (rep_nat64 (by omega))
  unfold nextStats
  rw [if_pos rfl]
  by_cases h6 : 600 ≤ t
  · rw [if_pos h6]
    have h3 : Is (cmvn.sub (cmvn.add (start cmvn t C 40) (cmvn.ofNat 1)) (cmvn.ofNat 1)) ((countBefore t : ℕ) : ℚ) := by
      have e : cmvn.sub (cmvn.add (start cmvn t C 40) (cmvn.ofNat 1)) (cmvn.ofNat 1) =
          fit binary64 (((countBefore t + 1 : ℕ) : ℚ) - ((1 : ℕ) : ℚ)) := sub_is h2 (nat_is (n := 1) (by norm_num))
      rw [e, show (((countBefore t + 1 : ℕ) : ℚ) - ((1 : ℕ) : ℚ)) = (countBefore t : ℕ) by push_cast; ring]
      exact fit_is (rep_nat64 (by omega))
    have e : cmvn.toF (cmvn.sub (cmvn.add (start cmvn t C 40) (cmvn.ofNat 1)) (cmvn.ofNat 1)) = fit binary32 (countBefore t : ℕ) :=
      single_is h3
    rw [e, show slideOwn t = countBefore t by unfold countBefore slideOwn; split <;> omega]
    exact fit_is (rep_small (by omega))
  · rw [if_neg h6]
    have e : cmvn.toF (cmvn.add (start cmvn t C 40) (cmvn.ofNat 1)) = fit binary32 ((countBefore t + 1 : ℕ) : ℚ) := single_is h2
    rw [e, show slideOwn t = countBefore t + 1 by unfold countBefore slideOwn; split <;> omega]
    exact fit_is (rep_small (by omega))

theorem before_le (hF : Frames raw X M) (hM : 1 ≤ M) {t i : ℕ} (ht : t < raw.length) (hi : i < 40) :
    |before X t i| ≤ 600 * M ∧ |slideSum X t i| ≤ 600 * M := by
  have key : ∀ j, j < raw.length → |slideSum X j i| ≤ 600 * M := by
    intro j hj
    refine (slideSum_le (fun k hk => hF.small k i (by omega) hi)).trans (mul_le_mul_of_nonneg_right ?_ (by linarith))
    have : slideOwn j ≤ 600 := by unfold slideOwn; omega
    exact_mod_cast this
  refine ⟨?_, key t ht⟩
  unfold before
  split
  · rw [abs_zero]; linarith
  · exact key _ (by omega)

/-- One step of the sums. -/
theorem sums_next (hF : Frames raw X M) (hM : 1 ≤ M) (hM' : M ≤ 2 ^ 100) {t i : ℕ} (ht : t < raw.length) (hi : i < 40)
    {C : ℕ → F32} {e : ℚ} (h0 : 0 ≤ e) (he : e ≤ 250 * M) (h : 0 < t → ∃ q, Is (C i) q ∧ |q - slideSum X (t - 1) i| ≤ e) :
    ∃ q, Is (nextStats cmvn t C (cell raw t) (cell raw (t - 600)) i) q ∧ |q - slideSum X t i| ≤ e + 1000 * M / 2 ^ 24 := by
  obtain ⟨b1, b2⟩ := before_le hF hM ht hi
  obtain ⟨c, hc, kc⟩ : ∃ c, Is (start cmvn t C i) c ∧ |c - before X t i| ≤ e := by
    unfold before
    by_cases h0' : t = 0
    · rw [if_pos h0', h0']
      exact ⟨0, start_zero i, by simpa using h0⟩
    · rw [if_neg h0']
      obtain ⟨q, h1, h2⟩ := h (by omega)
      exact ⟨q, start_pos (by omega) h1, h2⟩
  have hxt := hF.small t i ht hi
  obtain ⟨a, ha, ka⟩ := enter_off hc (cell_is hF ht hi) hM hM' b1 kc he hxt
  have hM40 : 0 ≤ M / 2 ^ 40 := by positivity
  have hM1 : M / 2 ^ 40 ≤ M := div_le_self (by linarith) (by norm_num)
  have hs := before_next X t i
  unfold nextStats
  rw [if_neg (by omega)]
  by_cases h6 : 600 ≤ t
  · rw [if_pos h6]
    rw [if_pos h6] at hs
    obtain ⟨d, hd, kd⟩ := leave_off ha (cell_is hF (t := t - 600) (by omega) hi) hM hM'
      (show |before X t i + X t i| ≤ 601 * M from (abs_add_le _ _).trans (by linarith)) ka (by linarith)
      (hF.small (t - 600) i (by omega) hi)
    rw [← hs] at kd
    exact store_off hd hM hM' b2 kd he
  · rw [if_neg h6]
    rw [if_neg h6, sub_zero] at hs
    rw [← hs] at ka
    exact store_off ha hM hM' b2 (ka.trans (by linarith)) he

/-- How many global frames are added. -/
theorem fromGlobal_is {t : ℕ} {x : F32} (h : Is x (slideOwn t)) : Is (fromGlobal cmvn (cmvn.toD x)) (slideExtra t) := by
  have hle : slideOwn t ≤ 600 := by unfold slideOwn; omega
  have h1 : Is (cmvn.sub (cmvn.ofNat 600) (cmvn.toD x)) ((600 - slideOwn t : ℕ) : ℚ) := by
    have e : cmvn.sub (cmvn.ofNat 600) (cmvn.toD x) = fit binary64 (((600 : ℕ) : ℚ) - (slideOwn t : ℚ)) :=
      sub_is (nat_is (n := 600) (by norm_num)) (double_is h)
    rw [e, ← Nat.cast_sub hle]
    exact fit_is (rep_nat64 (by omega))
  have h2 : cmvn.lt (cmvn.ofNat 200) (cmvn.sub (cmvn.ofNat 600) (cmvn.toD x)) =
      decide (((200 : ℕ) : ℚ) < ((600 - slideOwn t : ℕ) : ℚ)) := lt_is (nat_is (n := 200) (by norm_num)) h1
  unfold fromGlobal
  simp only
  rw [h2]
  by_cases h3 : 200 < 600 - slideOwn t
  · rw [decide_eq_true (by exact_mod_cast h3), if_pos rfl, show slideExtra t = 200 by unfold slideExtra; omega]
    exact nat_is (n := 200) (by norm_num)
  · rw [decide_eq_false (by exact_mod_cast h3), if_neg (by decide), show slideExtra t = 600 - slideOwn t by
      unfold slideExtra; omega]
    exact h1

/-- What the smoothed statistics are. -/
theorem smoothed_off (hG : Global global g M) (hM : 1 ≤ M) (hM' : M ≤ 2 ^ 100) {t : ℕ} {N G : ℕ → F32} (hg : global = vec 41 G)
    (hN : Is (N 40) (slideOwn t)) {e : ℚ} (he : t < 600 → e ≤ M) {S : ℕ → ℚ}
    (hS : ∀ i, i < 40 → |S i| ≤ slideOwn t * M) (hs : ∀ i, i < 40 → ∃ q, Is (N i) q ∧ |q - S i| ≤ e) :
    (∃ k, Is (smoothed cmvn G N 40) k ∧
      |k - ((slideOwn t + slideExtra t : ℕ) : ℚ)| ≤ ((slideOwn t + slideExtra t : ℕ) : ℚ) * (4 / 2 ^ 24)) ∧
    ∀ i, i < 40 → ∃ q, Is (smoothed cmvn G N i) q ∧
      |q - (S i + slideExtra t * g i)| ≤ e + ((slideOwn t + slideExtra t : ℕ) : ℚ) * (4 * M / 2 ^ 24) := by
  have hle : slideOwn t ≤ 600 := by unfold slideOwn; omega
  have hlt : cmvn.le (cmvn.ofNat 600) (cmvn.toD (N 40)) = decide (((600 : ℕ) : ℚ) ≤ (slideOwn t : ℚ)) :=
    le_is (nat_is (n := 600) (by norm_num)) (double_is hN)
  by_cases h6 : 600 ≤ slideOwn t
  · have ht : cmvn.le (cmvn.ofNat 600) (cmvn.toD (N 40)) = true := by
      rw [hlt, decide_eq_true (by exact_mod_cast h6)]
    have hx : slideExtra t = 0 := by unfold slideExtra; omega
    have e1 : ∀ i, smoothed cmvn G N i = N i := fun i => by unfold smoothed; rw [if_pos ht]
    simp only [e1, hx, Nat.cast_zero, zero_mul, _root_.add_zero]
    refine ⟨⟨_, hN, ?_⟩, fun i hi => ?_⟩
    · rw [sub_self, abs_zero]; positivity
    · obtain ⟨q, h1, h2⟩ := hs i hi
      refine ⟨q, h1, h2.trans ?_⟩
      have : (0 : ℚ) ≤ (slideOwn t : ℚ) * (4 * M / 2 ^ 24) := by positivity
      linarith
  · have ht : ¬ cmvn.le (cmvn.ofNat 600) (cmvn.toD (N 40)) = true := by
      rw [hlt, decide_eq_true_eq]; exact_mod_cast h6
    have ht6 : t < 600 := by unfold slideOwn at h6; omega
    have e1 : ∀ i, smoothed cmvn G N i =
        plusF cmvn (cmvn.toF (cmvn.div (fromGlobal cmvn (cmvn.toD (N 40))) (cmvn.toD (G 40)))) (N i) (G i) :=
      fun i => by unfold smoothed; rw [if_neg ht]
    obtain ⟨c, c1, c2, ⟨v, gv, vc⟩, hgi⟩ := hG.value
    rw [hg, vec_get G (by omega)] at gv
    cases gv
    have x1 : 1 ≤ slideExtra t := by unfold slideExtra; omega
    have x2 : slideExtra t ≤ 200 := by unfold slideExtra; omega
    have n1 : 201 ≤ slideOwn t + slideExtra t := by unfold slideExtra slideOwn; omega
    have n2 : slideOwn t + slideExtra t ≤ 600 := by unfold slideExtra; omega
    have x1' : (1 : ℚ) ≤ slideExtra t := by exact_mod_cast x1
    have x2' : ((slideExtra t : ℕ) : ℚ) ≤ 200 := by exact_mod_cast x2
    have n1' : (201 : ℚ) ≤ ((slideOwn t + slideExtra t : ℕ) : ℚ) := by exact_mod_cast n1
    have n2' : ((slideOwn t + slideExtra t : ℕ) : ℚ) ≤ 600 := by exact_mod_cast n2
    have c0 : 0 < c := by linarith
    obtain ⟨a, ha, ka⟩ := ratio_off (fromGlobal_is hN) (double_is vc) c0
      (by
        rw [div_le_div_iff₀ (by positivity) c0]
        refine le_trans ?_ (mul_le_mul_of_nonneg_right x1' (by positivity))
        rw [one_mul, one_mul]
        exact c2.trans (by norm_num))
      (by
        rw [div_le_iff₀ c0]
        refine x2'.trans (le_trans (by norm_num) (mul_le_mul_of_nonneg_left c1 (by positivity))))
    refine ⟨?_, fun i hi => ?_⟩
    · rw [e1]
      obtain ⟨z, hz, kz⟩ := smooth_off (al := single (div (fromGlobal cmvn (cmvn.toD (N 40))) (double (G 40)))) (S := (slideOwn t : ℚ))
        (g := 1) (n := ((slideOwn t + slideExtra t : ℕ) : ℚ)) (e := 0) (M := 1) ha ka hN (by rw [sub_self, abs_zero])
        (by rw [one_mul]; exact vc) c0 (by linarith) x2' (by rw [abs_one])
        (by rw [mul_one, mul_one, ← Nat.cast_add, abs_of_nonneg (by positivity)]) n1' n2' (by norm_num) le_rfl (by norm_num)
      refine ⟨z, hz, ?_⟩
      rw [mul_one, ← Nat.cast_add, zero_add, mul_one] at kz
      exact kz
    · rw [e1]
      obtain ⟨p, hp, kp⟩ := hs i hi
      obtain ⟨gm, v, gv, vi⟩ := hgi i hi
      rw [hg, vec_get G (by omega)] at gv
      cases gv
      refine smooth_off (al := single (div (fromGlobal cmvn (cmvn.toD (N 40))) (double (G 40)))) ha ka hp kp vi c0 (by linarith) x2' gm ?_
        n1' n2' (he ht6) hM hM'
      refine (abs_add_le _ _).trans ?_
      rw [abs_mul, abs_of_nonneg (show (0 : ℚ) ≤ slideExtra t by positivity)]
      push_cast
      have := mul_le_mul_of_nonneg_left gm (show (0 : ℚ) ≤ slideExtra t by positivity)
      linarith [hS i hi]

theorem count_range (t : ℕ) : 201 ≤ slideOwn t + slideExtra t ∧ slideOwn t + slideExtra t ≤ 600 ∧
    (599 ≤ t → slideOwn t + slideExtra t = 600) := by
  unfold slideExtra slideOwn
  omega

/-- One frame, from new statistics that are within `e` of some sums `S`. -/
theorem getFrame_core (hF : Frames raw X M) (hG : Global global g M) (hM : 1 ≤ M) (hM' : M ≤ 2 ^ 100)
    (hsm : raw.length ≤ 2147483647) {t : ℕ} (ht : t < raw.length) {e : ℚ} (h0 : 0 ≤ e) (he : e ≤ 250 * M) (hE : t < 600 → e ≤ M)
    {s : Cmvn.State F32} {C N : ℕ → F32} (hr : s.raw = raw) (hgl : s.global = global) (hf : s.frame = (t : Int) - 1)
    (hst : 0 < t → s.stats = vec 41 C) (hN : N = nextStats cmvn t C (cell raw t) (cell raw (t - 600))) (hc : Is (N 40) (slideOwn t))
    {S : ℕ → ℚ} (hS : ∀ i, i < 40 → |S i| ≤ slideOwn t * M) (hsum : ∀ i, i < 40 → ∃ q, Is (N i) q ∧ |q - S i| ≤ e) :
    ∃ y, getFrame cmvn s t = .ok (y, { s with stats := vec 41 N, frame := (t : Int) }) ∧
      ∀ i, i < 40 → ∃ v q, y[i]? = some v ∧ Is v q ∧
        |q - (X t i - (S i + slideExtra t * g i) / ((slideOwn t + slideExtra t : ℕ) : ℚ))| ≤
          e / ((slideOwn t + slideExtra t : ℕ) : ℚ) + 20 * M / 2 ^ 24 := by
  obtain ⟨G, hg⟩ : ∃ G, global = vec 41 G := ⟨_, vec_of hG.width⟩
  obtain ⟨⟨k, hk, kk⟩, hsm'⟩ := smoothed_off hG hM hM' hg hc hE hS hsum
  obtain ⟨r1, r2, r3⟩ := count_range t
  have r1' : (201 : ℚ) ≤ ((slideOwn t + slideExtra t : ℕ) : ℚ) := by exact_mod_cast r1
  have r2' : ((slideOwn t + slideExtra t : ℕ) : ℚ) ≤ 600 := by exact_mod_cast r2
  have hk0 : 0 < k := by
    obtain ⟨k1, -⟩ := abs_le.mp kk
    have : ((slideOwn t + slideExtra t : ℕ) : ℚ) * (1 - 4 / 2 ^ 24) ≤ k := by linarith
    exact lt_of_lt_of_le (mul_pos (by linarith) (by norm_num)) this
  obtain ⟨c, c1, -, ⟨v, gv, vc⟩, -⟩ := hG.value
  rw [hg, vec_get G (by omega)] at gv
  cases gv
  have hle : slideOwn t ≤ 600 := by unfold slideOwn; omega
  have q1 : cmvn.le (cmvn.toD (N 40)) (cmvn.ofNat 600) = true := by
    have : cmvn.le (cmvn.toD (N 40)) (cmvn.ofNat 600) = decide ((slideOwn t : ℚ) ≤ ((600 : ℕ) : ℚ)) :=
      le_is (double_is hc) (nat_is (n := 600) (by norm_num))
    rw [this, decide_eq_true (by exact_mod_cast hle)]
  have q2 : cmvn.lt cmvn.zero (cmvn.toD (G 40)) = true := cpos_is vc (by linarith)
  have q3 : cmvn.lt cmvn.zero (cmvn.toD (smoothed cmvn G N 40)) = true := cpos_is hk hk0
  have run := getFrame_run (o := cmvn) (rows_cell hF) hsm ht hr hf hst (hgl.trans hg) hN q1 q2 q3
  refine ⟨_, run, fun i hi => ?_⟩
  obtain ⟨q, hq, kq⟩ := hsm' i hi
  have n0 : (0 : ℚ) < ((slideOwn t + slideExtra t : ℕ) : ℚ) := by linarith
  have hT : |S i + slideExtra t * g i| ≤ ((slideOwn t + slideExtra t : ℕ) : ℚ) * M := by
    obtain ⟨_, _, _, _, hgi⟩ := hG.value
    obtain ⟨gm, -⟩ := hgi i hi
    refine (abs_add_le _ _).trans ?_
    rw [abs_mul, abs_of_nonneg (show (0 : ℚ) ≤ slideExtra t by positivity)]
    push_cast
    have := mul_le_mul_of_nonneg_left gm (show (0 : ℚ) ≤ slideExtra t by positivity)
    linarith [hS i hi]
  obtain ⟨z, hz', kz⟩ := apply_off (n := ((slideOwn t + slideExtra t : ℕ) : ℚ))
    (ε := e / ((slideOwn t + slideExtra t : ℕ) : ℚ)) (cell_is hF ht hi) (hF.small t i ht hi) hq
    (by rw [mul_add, mul_div_cancel₀ _ (ne_of_gt n0)]; exact kq) hT hk kk r1' r2' (div_nonneg h0 n0.le)
    (by
      rw [div_le_iff₀ n0]
      by_cases h6 : t < 600
      · have := hE h6
        have := mul_le_mul_of_nonneg_left r1' (show 0 ≤ M / 2 by linarith)
        linarith
      · rw [r3 (by omega)]
        push_cast
        linarith) hM hM'
  exact ⟨_, z, vec_get _ hi, hz', kz⟩

/-- One frame, from statistics that are within `e`. -/
theorem getFrame_off (hF : Frames raw X M) (hG : Global global g M) (hM : 1 ≤ M) (hM' : M ≤ 2 ^ 100)
    (hsm : raw.length ≤ 2147483647) {t : ℕ} (ht : t < raw.length) {e : ℚ} (h0 : 0 ≤ e)
    (he : e + 1000 * M / 2 ^ 24 ≤ 250 * M) (hE : t < 600 → e + 1000 * M / 2 ^ 24 ≤ M)
    {s : Cmvn.State F32} {C : ℕ → F32} (H : Summed raw global X t e s C) :
    ∃ y s' C', getFrame cmvn s t = .ok (y, s') ∧ Summed raw global X (t + 1) (e + 1000 * M / 2 ^ 24) s' C' ∧
      ∀ i, i < 40 → ∃ v q, y[i]? = some v ∧ Is v q ∧ |q - (X t i - slideMean X g t i)| ≤
        (e + 1000 * M / 2 ^ 24) / ((slideOwn t + slideExtra t : ℕ) : ℚ) + 20 * M / 2 ^ 24 := by
  obtain ⟨N, hN⟩ : ∃ N, N = nextStats cmvn t C (cell raw t) (cell raw (t - 600)) := ⟨_, rfl⟩
  have hu : 0 ≤ 1000 * M / 2 ^ 24 := by positivity
  have hc : Is (N 40) (slideOwn t) := by rw [hN]; exact count_next H.count
  have hsum : ∀ i, i < 40 → ∃ q, Is (N i) q ∧ |q - slideSum X t i| ≤ e + 1000 * M / 2 ^ 24 := by
    intro i hi
    rw [hN]
    exact sums_next hF hM hM' ht hi h0 (by linarith) (fun h => H.sums h i hi)
  have hS : ∀ i, i < 40 → |slideSum X t i| ≤ slideOwn t * M :=
    fun i hi => slideSum_le (fun j hj => hF.small j i (by omega) hi)
  obtain ⟨y, run, hy⟩ := getFrame_core hF hG hM hM' hsm ht (by linarith) he hE H.raw H.global H.frame H.stats hN hc hS hsum
  exact ⟨y, _, N, run, ⟨H.raw, H.global, by push_cast; ring, fun _ => rfl, fun _ => hc, fun _ => hsum⟩, hy⟩

/-- Frames one after the other. -/
theorem frames_all {F D : Type} {o : Cmvn.Ops F D} {Inv : ℕ → Cmvn.State F → Prop} {P : ℕ → List F → Prop} {L : ℕ}
    (step : ∀ t s, t < L → Inv t s → ∃ y s', getFrame o s t = .ok (y, s') ∧ Inv (t + 1) s' ∧ P t y) :
    ∀ (n first : ℕ) (s : Cmvn.State F), Inv first s → first + n ≤ L →
      ∃ ys s', getFrames o n first s = .ok (ys, s') ∧ ys.length = n ∧ ∀ t y, ys[t]? = some y → P (first + t) y
  | 0, _, s, _, _ => ⟨[], s, rfl, rfl, fun t y h => by simp at h⟩
  | n + 1, first, s, hI, hL => by
    obtain ⟨y, s1, e1, h1, p1⟩ := step first s (by omega) hI
    obtain ⟨ys, s2, e2, l2, h2⟩ := frames_all step n (first + 1) s1 h1 (by omega)
    refine ⟨y :: ys, s2, ?_, by rw [List.length_cons, l2], fun t z hz => ?_⟩
    · rw [getFrames, e1, ok_bind]
      simp only
      rw [e2, ok_bind]
    · cases t with
      | zero =>
        rw [List.getElem?_cons_zero] at hz
        cases hz
        exact p1
      | succ t =>
        rw [List.getElem?_cons_succ] at hz
        have := h2 t z hz
        rwa [show first + 1 + t = first + (t + 1) by omega] at this

end Verif.Ieee
