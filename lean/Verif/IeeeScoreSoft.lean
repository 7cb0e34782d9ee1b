import Verif.IeeeScoreLemmas
import Mathlib.Analysis.Complex.ExponentialBounds

/-!
# Lemmas about rounding in the log-softmax layer
-/

namespace Verif.Ieee

open Verif Verif.Ieee.Spec Verif.Nnet Verif.Nnet.Spec

variable {lib : NnLib} {vm : List F32 → List (List F32) → List F32}

theorem exp_neg_64 : (1 : ℝ) / 2 ^ 93 ≤ Real.exp (-64) := by
  have h := Real.exp_one_lt_d9
  have h1 : Real.exp 64 = Real.exp 1 ^ 64 := by rw [← Real.exp_nat_mul]; norm_num
  have h2 : Real.exp 64 ≤ 2 ^ 93 := by
    rw [h1]
    calc Real.exp 1 ^ 64 ≤ (2.7182818286 : ℝ) ^ 64 := pow_le_pow_left₀ (Real.exp_pos 1).le h.le 64
      _ ≤ 2 ^ 93 := by norm_num
  rw [Real.exp_neg, one_div]
  exact inv_anti₀ (Real.exp_pos _) h2

theorem exp_pos_64 : Real.exp 64 ≤ 2 ^ 93 := by
  have := exp_neg_64
  rw [Real.exp_neg, one_div] at this
  exact (inv_le_inv₀ (by positivity) (Real.exp_pos _)).mp this

/-- The sum of the exponentials: what is lost in each step is at most `2 S / 2^24`, for the sum `S` of all. -/
theorem expsum_close (hl : ScoreLaws lib vm) {S : ℝ} (hS1 : 1 / 2 ^ 99 ≤ S) (hS2 : S ≤ 2 ^ 118) : ∀ {x : List F32} {Q : List ℝ},
    List.Forall₂ Worth x Q → (∀ q ∈ Q, q ≤ 64) → ∀ (acc : F32) (a s d : ℝ), Worth acc a → |a - s| ≤ d → 0 ≤ s →
    s + (Q.map Real.exp).sum ≤ S →
    d + (Q.map Real.exp).sum / 2 ^ 22 + Q.length * (1 / 2 ^ 118 + 2 * S / 2 ^ 24) ≤ S / 2 →
    ∃ r, Worth ((x.map lib.exp).foldl add acc) r ∧ |r - (s + (Q.map Real.exp).sum)| ≤
      d + (Q.map Real.exp).sum / 2 ^ 22 + Q.length * (1 / 2 ^ 118 + 2 * S / 2 ^ 24) := by
  intro x Q h
  induction h with
  | nil =>
    intro _ acc a s d h1 h2 _ _ _
    refine ⟨a, h1, ?_⟩
    simpa using h2
  | @cons v q x Q h _ ih =>
    intro hq acc a s d h1 h2 h0 h3 h4
    obtain ⟨E, e1, e2⟩ := hl.exp h (hq q List.mem_cons_self)
    have hE := Real.exp_pos q
    have hT : 0 ≤ (Q.map Real.exp).sum := List.sum_nonneg fun y hy => by
      obtain ⟨z, _, rfl⟩ := List.mem_map.mp hy
      exact (Real.exp_pos z).le
    simp only [List.map_cons, List.sum_cons, List.length_cons, List.foldl_cons] at h3 h4 ⊢
    have hn0 : (0 : ℝ) ≤ Q.length := Nat.cast_nonneg _
    have hS0 : 0 < S := lt_of_lt_of_le (by norm_num) hS1
    push_cast at h4 ⊢
    have hn1 : 0 ≤ (Q.length : ℝ) * (1 / 2 ^ 118 + 2 * S / 2 ^ 24) := by positivity
    have h5 : |a + E - (s + Real.exp q)| ≤ d + (Real.exp q / 2 ^ 22 + 1 / 2 ^ 118) := sum_err h2 e2
    have h6 : |a + E| ≤ 2 * S := by
      have := near_le h5 (B := S) (by rw [abs_of_nonneg (by linarith)]; linarith)
      have h7 : 0 ≤ (Q.map Real.exp).sum / 2 ^ 22 := by positivity
      have h8 : (Real.exp q + (Q.map Real.exp).sum) / 2 ^ 22 = Real.exp q / 2 ^ 22 + (Q.map Real.exp).sum / 2 ^ 22 := add_div _ _ _
      have h9 : 0 ≤ 2 * S / 2 ^ 24 := by positivity
      have h10 : ((Q.length : ℝ) + 1) * (1 / 2 ^ 118 + 2 * S / 2 ^ 24)
        = (Q.length : ℝ) * (1 / 2 ^ 118 + 2 * S / 2 ^ 24) + (1 / 2 ^ 118 + 2 * S / 2 ^ 24) := by ring
      linarith
    obtain ⟨b, e3, e4⟩ := add_worth h1 e1 h6 (by linarith [show (1 : ℝ) / 2 ^ 100 ≤ 1 / 2 ^ 99 by norm_num])
      (by linarith [show (2 : ℝ) * 2 ^ 118 ≤ 2 ^ 120 by norm_num])
    have h11 := near_trans e4 h5
    have h12 : (Real.exp q + (Q.map Real.exp).sum) / 2 ^ 22 = Real.exp q / 2 ^ 22 + (Q.map Real.exp).sum / 2 ^ 22 := add_div _ _ _
    have h13 : ((Q.length : ℝ) + 1) * (1 / 2 ^ 118 + 2 * S / 2 ^ 24)
        = (Q.length : ℝ) * (1 / 2 ^ 118 + 2 * S / 2 ^ 24) + (1 / 2 ^ 118 + 2 * S / 2 ^ 24) := by ring
    obtain ⟨r, e5, e6⟩ := ih (fun q hq' => hq q (List.mem_cons_of_mem _ hq')) (add acc (lib.exp v)) b (s + Real.exp q)
      (2 * S / 2 ^ 24 + (d + (Real.exp q / 2 ^ 22 + 1 / 2 ^ 118))) e3 h11 (by linarith) (by linarith) (by linarith)
    refine ⟨r, e5, ?_⟩
    rw [← add_assoc]
    refine e6.trans (by linarith)

/-- The logarithm of a sum of exponentials moves no more than the exponents. -/
theorem lse_move {e : ℝ} {Q X : List ℝ} (h : List.Forall₂ (fun q V => |q - V| ≤ e) Q X) (h0 : X ≠ []) :
    |Real.log (Q.map Real.exp).sum - Real.log (X.map Real.exp).sum| ≤ e := by
  have key : ∀ {Q X : List ℝ}, List.Forall₂ (fun q V => q ≤ V + e) Q X → (Q.map Real.exp).sum ≤ Real.exp e * (X.map Real.exp).sum := by
    intro Q X h
    induction h with
    | nil => simp
    | cons h _ ih =>
      rw [List.map_cons, List.sum_cons, List.map_cons, List.sum_cons, mul_add]
      refine add_le_add ?_ ih
      rw [← Real.exp_add, add_comm]
      exact Real.exp_le_exp.mpr h
  have pos : ∀ {Q : List ℝ}, Q ≠ [] → 0 < (Q.map Real.exp).sum := by
    intro Q h
    cases Q with
    | nil => exact absurd rfl h
    | cons a l =>
      rw [List.map_cons, List.sum_cons]
      have : 0 ≤ (l.map Real.exp).sum := List.sum_nonneg fun y hy => by
        obtain ⟨z, _, rfl⟩ := List.mem_map.mp hy
        exact (Real.exp_pos z).le
      linarith [Real.exp_pos a]
  have hQ : Q ≠ [] := fun e => h0 (by rw [e] at h; cases h; rfl)
  have h1 := key (h.imp fun q V hq => by linarith [(abs_le.mp hq).2])
  have h2 := key (h.flip.imp (S := fun V q => V ≤ q + e) fun V q hq => by
    have := (abs_le.mp hq).1
    linarith)
  have p1 := pos hQ
  have p2 := pos h0
  have l1 := Real.log_le_log p1 h1
  have l2 := Real.log_le_log p2 h2
  rw [Real.log_mul (Real.exp_pos _).ne' p2.ne', Real.log_exp] at l1
  rw [Real.log_mul (Real.exp_pos _).ne' p1.ne', Real.log_exp] at l2
  rw [abs_le]
  constructor <;> linarith

/-- The logarithm of a number that is off by a fraction. -/
theorem log_off {r S h : ℝ} (hS : 0 < S) (hh : h ≤ 1 / 2) (hr : |r - S| ≤ h * S) : 0 < r ∧ |Real.log r - Real.log S| ≤ 2 * h := by
  obtain ⟨h1, h2⟩ := abs_le.mp hr
  have h0 : 0 ≤ h := by
    by_contra hc
    have := mul_neg_of_neg_of_pos (not_le.mp hc) hS
    linarith [abs_nonneg (r - S)]
  have hhS : h * S ≤ S / 2 := by
    have := mul_le_mul_of_nonneg_right hh hS.le
    linarith
  have hr0 : 0 < r := by linarith
  refine ⟨hr0, ?_⟩
  rw [← Real.log_div hr0.ne' hS.ne', abs_le]
  have hd : 0 < r / S := div_pos hr0 hS
  constructor
  · have := Real.one_sub_inv_le_log_of_pos hd
    refine le_trans ?_ this
    rw [inv_div]
    have : S / r ≤ 1 + 2 * h := by
      rw [div_le_iff₀ hr0]
      have h3 : (1 + 2 * h) * ((1 - h) * S) ≤ (1 + 2 * h) * r := mul_le_mul_of_nonneg_left (by linarith) (by linarith)
      have h4 : 0 ≤ h * S * (1 - 2 * h) := mul_nonneg (mul_nonneg h0 hS.le) (by linarith)
      nlinarith
    linarith
  · have := Real.log_le_sub_one_of_pos hd
    refine this.trans ?_
    have : r / S ≤ 1 + h := by
      rw [div_le_iff₀ hS]
      linarith
    linarith

theorem soft_close (hl : ScoreLaws lib vm) {n : ℕ} {M e : ℝ} {x : List F32} {X : List ℝ} (hn : n ≤ 2 ^ 19) (hX : X.length ≤ n)
    (he : e ≤ 1) (hM' : M ≤ 2 ^ 100) (hM : ∀ v ∈ X, |v| ≤ M ∧ v ≤ 63) (hlow : ∃ v ∈ X, -63 ≤ v) (hc : CloseTo e x X) :
    CloseTo (2 * e + (n + 1) / 2 ^ 21 + 1 / 2 ^ 16 + (M + 100) / 2 ^ 24)
      (x.map fun v => sub v (lib.log ((x.map lib.exp).foldl add (fit _ 0)))) (sharp X .logSoftmax) := by
  obtain ⟨Q, h1, h2, h3⟩ := close_values hc fun v hv => (hM v hv).1
  obtain ⟨V, hV, hV63⟩ := hlow
  have h0 : X ≠ [] := fun e => by rw [e] at hV; cases hV
  -- the exponents
  have hQ : (∀ q ∈ Q, q ≤ 64) ∧ 0 ≤ e ∧ ∃ q ∈ Q, -64 ≤ q := by
    clear h1 h3 hc hX h0
    induction h2 with
    | nil => cases hV
    | @cons q W Q X h hs ih =>
      have h' := abs_le.mp h
      have hb : ∀ q ∈ Q, q ≤ 64 := by
        have hM2 : ∀ v ∈ X, v ≤ 63 := fun v hv => (hM v (List.mem_cons_of_mem _ hv)).2
        clear ih hM hV
        induction hs with
        | nil => intro q hq; cases hq
        | cons k _ ih =>
          intro q hq
          rcases List.mem_cons.mp hq with rfl | hq
          · have := hM2 _ List.mem_cons_self
            linarith [(abs_le.mp k).2]
          · exact ih (fun v hv => hM2 v (List.mem_cons_of_mem _ hv)) q hq
      have he0 : 0 ≤ e := (abs_nonneg _).trans h
      refine ⟨fun p hp => ?_, he0, ?_⟩
      · rcases List.mem_cons.mp hp with rfl | hp
        · linarith [(hM W List.mem_cons_self).2]
        · exact hb p hp
      · rcases List.mem_cons.mp hV with rfl | hV
        · exact ⟨q, List.mem_cons_self, by linarith⟩
        · obtain ⟨-, -, q, hq, hq'⟩ := ih (fun v hv => hM v (List.mem_cons_of_mem _ hv)) hV
          exact ⟨q, List.mem_cons_of_mem _ hq, hq'⟩
  obtain ⟨hq64, he0, q0, hq0, hq0'⟩ := hQ
  obtain ⟨S, eS⟩ : ∃ S, S = (Q.map Real.exp).sum := ⟨_, rfl⟩
  have hSlow : 1 / 2 ^ 93 ≤ S := by
    rw [eS]
    refine exp_neg_64.trans ((Real.exp_le_exp.mpr hq0').trans ?_)
    refine List.single_le_sum (fun y hy => ?_) _ (List.mem_map.mpr ⟨q0, hq0, rfl⟩)
    obtain ⟨z, _, rfl⟩ := List.mem_map.mp hy
    exact (Real.exp_pos z).le
  have hlen : Q.length = X.length := h2.length_eq
  have hn' : (Q.length : ℝ) ≤ n := by rw [hlen]; exact_mod_cast hX
  have hn2 : (n : ℝ) ≤ 2 ^ 19 := by exact_mod_cast hn
  have hQ0 : (0 : ℝ) ≤ Q.length := Nat.cast_nonneg _
  have hShigh : S ≤ 2 ^ 19 * Real.exp 64 := by
    have h4 : S ≤ Q.length * Real.exp 64 := by
      rw [eS]
      have := List.sum_le_card_nsmul (Q.map Real.exp) (Real.exp 64) (by
        intro y hy
        obtain ⟨z, hz, rfl⟩ := List.mem_map.mp hy
        exact Real.exp_le_exp.mpr (hq64 z hz))
      rwa [List.length_map, nsmul_eq_mul] at this
    exact h4.trans (mul_le_mul_of_nonneg_right (hn'.trans hn2) (Real.exp_pos _).le)
  have hSbig : S ≤ 2 ^ 112 := by
    refine hShigh.trans ((mul_le_mul_of_nonneg_left exp_pos_64 (by positivity)).trans (by norm_num))
  have hS0 : 0 < S := lt_of_lt_of_le (by norm_num) hSlow
  -- the sum
  have hloss : S / 2 ^ 22 + Q.length * (1 / 2 ^ 118 + 2 * S / 2 ^ 24) ≤ ((n : ℝ) + 1) / 2 ^ 22 * S := by
    have h5 : (1 : ℝ) / 2 ^ 118 ≤ S / 2 ^ 25 := by
      calc (1 : ℝ) / 2 ^ 118 = (1 / 2 ^ 93) / 2 ^ 25 := by norm_num
        _ ≤ S / 2 ^ 25 := div_le_div_of_nonneg_right hSlow (by positivity)
    have h6 : (Q.length : ℝ) * (1 / 2 ^ 118 + 2 * S / 2 ^ 24) ≤ n * (S / 2 ^ 22) := by
      refine mul_le_mul hn' ?_ (by positivity) (by positivity)
      have : S / 2 ^ 22 = S / 2 ^ 25 + 2 * S / 2 ^ 24 + 3 * (S / 2 ^ 25) := by ring
      have : 0 ≤ 3 * (S / 2 ^ 25) := by positivity
      linarith
    have e7 : ((n : ℝ) + 1) / 2 ^ 22 * S = n * (S / 2 ^ 22) + S / 2 ^ 22 := by ring
    linarith
  have hfrac : ((n : ℝ) + 1) / 2 ^ 22 ≤ 1 / 2 := by
    rw [div_le_div_iff₀ (by norm_num) (by norm_num)]
    linarith
  have hloss' : ((n : ℝ) + 1) / 2 ^ 22 * S ≤ S / 2 := by
    have := mul_le_mul_of_nonneg_right hfrac hS0.le
    linarith
  obtain ⟨r, e1, e2⟩ := expsum_close hl (S := S) (by linarith [show (1 : ℝ) / 2 ^ 99 ≤ 1 / 2 ^ 93 by norm_num])
    (by linarith [show (2 : ℝ) ^ 112 ≤ 2 ^ 118 by norm_num]) h1 hq64 (fit _ 0) 0 0 0 ⟨0, fit_is rep_zero, by norm_num⟩
    (by norm_num) (le_refl _) (by rw [← eS, zero_add]) (by rw [← eS, zero_add]; exact hloss.trans hloss')
  rw [← eS, zero_add, zero_add] at e2
  obtain ⟨hr0, hlog⟩ := log_off hS0 hfrac (e2.trans hloss)
  have hr1 := abs_le.mp (e2.trans (hloss.trans hloss'))
  have hr2 : r ≤ 2 ^ 120 := by linarith [show (3 : ℝ) / 2 * 2 ^ 112 ≤ 2 ^ 120 by norm_num]
  have hr3 : 1 / 2 ^ 94 ≤ r := by
    have : (1 : ℝ) / 2 ^ 94 = (1 / 2 ^ 93) / 2 := by norm_num
    linarith
  obtain ⟨l, e3, e4⟩ := hl.log e1 hr3 hr2
  -- the logarithm of the exact sum
  have hlX := lse_move h2 h0
  rw [← eS] at hlX
  have hoff : |l - Real.log (X.map Real.exp).sum| ≤ 1 / 2 ^ 16 + (n + 1) / 2 ^ 21 + e := by
    have := near_trans (near_trans e4 hlog) hlX
    have e5 : 2 * (((n : ℝ) + 1) / 2 ^ 22) = (n + 1) / 2 ^ 21 := by ring
    rwa [e5] at this
  have hlS : |Real.log S| ≤ 80 := by
    rw [abs_le]
    constructor
    · have := Real.log_le_log (Real.exp_pos _) (show Real.exp (-66) ≤ S from ?_)
      · rw [Real.log_exp] at this
        linarith
      · refine le_trans ?_ hSlow
        have h2 : (2.7182818283 : ℝ) ^ 66 ≤ Real.exp 66 := by
          have : Real.exp 66 = Real.exp 1 ^ 66 := by rw [← Real.exp_nat_mul]; norm_num
          rw [this]
          exact pow_le_pow_left₀ (by norm_num) Real.exp_one_gt_d9.le 66
        rw [Real.exp_neg, one_div]
        refine inv_anti₀ (by positivity) (le_trans ?_ h2)
        norm_num
    · have := Real.log_le_log hS0 (show S ≤ Real.exp 80 from ?_)
      · rwa [Real.log_exp] at this
      · refine hShigh.trans ?_
        rw [show (80 : ℝ) = 16 + 64 by norm_num, Real.exp_add]
        refine mul_le_mul_of_nonneg_right ?_ (Real.exp_pos _).le
        have : Real.exp 16 = Real.exp 1 ^ 16 := by rw [← Real.exp_nat_mul]; norm_num
        rw [this]
        refine le_trans ?_ (pow_le_pow_left₀ (by norm_num) Real.exp_one_gt_d9.le 16)
        norm_num
  have hl' : |l| ≤ 98 := by
    have h7 := near_le (near_trans e4 hlog) hlS
    have : 2 * (((n : ℝ) + 1) / 2 ^ 22) ≤ 1 := by linarith
    linarith [show (1 : ℝ) / 2 ^ 16 ≤ 1 by norm_num]
  unfold sharp
  refine beside_map (beside_and hc hM) ?_
  rintro v V' ⟨⟨q, h4, h5⟩, h6, -⟩
  have hqM : |q| ≤ M + 1 := by
    have := near_le h5 h6
    linarith
  have hM0 : 0 ≤ M := (abs_nonneg _).trans h6
  obtain ⟨t, e6, e7⟩ := sub_worth h4 e3 (m := M + 100) ((diff_le hqM hl').trans (by linarith))
    ((show (1 : ℝ) / 2 ^ 100 ≤ 1 by norm_num).trans (by linarith))
    (by linarith [show (2 : ℝ) ^ 100 + 100 ≤ 2 ^ 120 by norm_num])
  refine ⟨t, e6, ?_⟩
  have := near_trans e7 (diff_err h5 hoff)
  linarith

/-! ## Networks -/

theorem close_length {e : ℝ} {x : List F32} {X : List ℝ} (h : CloseTo e x X) : x.length = X.length := h.length_eq

theorem pointwise_close (hl : ScoreLaws lib vm) {l : Layer F32} {m : Layer ℝ} (hm : Means l m) {d f : ℕ} (hp : Pointwise l d f)
    {x : ℤ → List F32} {X : ℤ → List ℝ} {e e' : ℝ} (hb : Blurs m X e e') (hx : ∀ t, (x t).length = d ∧ CloseTo e (x t) (X t)) :
    ∀ t, CloseTo e' (pointwise (nnet lib) vm (x t) l) (sharpOn X m t) := by
  intro t
  obtain ⟨hd, hc⟩ := hx t
  cases hp with
  | linear h0 h1 h2 h3 =>
    cases hm with
    | linear hW hbb =>
    cases hb with
    | linear k1 k2 k3 k4 k5 k6 k7 =>
      exact linear_close hl hW hbb h0 (hd.trans h1.symm) (fun row hr => (h2 row hr).trans h3.symm) k1 k2 k3 k4 k5 (k6 t) k7 hc
  | relu =>
    cases hm
    cases hb
    exact relu_close hc
  | normalize => cases hm
  | softmax => cases hm
  | logSoftmax =>
    cases hm
    cases hb with
    | logSoftmax k1 k2 k3 k4 k5 k6 => exact soft_close hl k1 (k2 t) k3 k4 (k5 t) (k6 t) hc
  | batchNorm h1 h2 =>
    cases hm with
    | batchNorm hs ht =>
    cases hb with
    | batchNorm k1 k2 k3 k4 k5 k6 => exact norm_close hs ht k1 k2 k3 k4 (k5 t) k6 hc

theorem series_close (hl : ScoreLaws lib vm) {ls : List (Layer F32)} {d f L R w : ℕ} (hb : Built ls d f L R w) :
    ∀ {ms : List (Layer ℝ)}, List.Forall₂ Means ls ms → ∀ {x : ℤ → List F32} {X : ℤ → List ℝ} {e e' : ℝ}, BlursTo ms X e e' →
    (∀ t, (x t).length = d ∧ CloseTo e (x t) (X t)) →
    ∀ t, (series (nnet lib) vm ls x t).length = f ∧ CloseTo e' (series (nnet lib) vm ls x t) (sharpAll ms X t) := by
  induction hb with
  | nil h1 h2 =>
    intro ms hm x X e e' hb hx t
    cases hm
    cases hb
    exact hx t
  | row h1 h2 h hs ih =>
    intro ms hm x X e e' hb hx t
    rename_i l ls d f g L R w
    cases hm with
    | cons m1 m2 =>
    cases hb with
    | cons b1 b2 =>
    have e1 : layerOn (nnet lib) vm x l = fun t => pointwise (nnet lib) vm (x t) l := by cases h <;> rfl
    unfold series sharpAll
    refine ih m2 b2 (fun t => ?_) t
    rw [e1]
    exact ⟨pointwise_size hl.rows h (hx t).1, pointwise_close hl m1 h b1 hx t⟩
  | context h1 h2 h0 hl' hr' hl'' hr'' hs ih =>
    intro ms hm x X e e' hb hx t
    rename_i idx l r ls d f L R w
    cases hm with
    | cons m1 m2 =>
    cases m1
    cases m2 with
    | cons m3 m4 =>
    cases m3
    cases hb with
    | cons b1 b2 =>
    cases b1
    cases b2 with
    | cons b3 b4 =>
    cases b3
    unfold series series sharpAll sharpAll
    refine ih m4 b4 (fun t => ⟨?_, ?_⟩) t
    · show (idx.flatMap fun c => x (t + c)).length = _
      rw [List.length_flatMap]
      rw [List.map_congr_left (g := fun _ => d) (fun c _ => (hx _).1), List.map_const', List.sum_replicate]
      rfl
    · exact beside_flat idx fun c _ => (hx (t + c)).2

theorem edge_close {e : ℝ} {fs : List (List F32)} {Fs : List (List ℝ)} (h : List.Forall₂ (CloseTo e) fs Fs) (t : ℤ) :
    CloseTo e (edge fs t) (edge Fs t) := by
  have hd : CloseTo e (fs.headD []) (Fs.headD []) := by
    cases h with
    | nil => exact .nil
    | cons h _ => exact h
  have hlast : CloseTo e (fs.getLastD []) (Fs.getLastD []) := by
    clear hd
    induction h with
    | nil => exact .nil
    | cons h hs ih =>
      cases hs with
      | nil => exact h
      | cons k ks => exact ih
  unfold edge
  split
  · exact hd
  · have : ∀ (n : ℕ), CloseTo e ((fs[n]?).getD (fs.getLastD [])) ((Fs[n]?).getD (Fs.getLastD [])) := by
      generalize fs.getLastD [] = a at hlast
      generalize Fs.getLastD [] = b at hlast
      clear hd
      induction h with
      | nil => intro n; simpa using hlast
      | cons h hs ih =>
        intro n
        cases n with
        | zero => simpa using h
        | succ n => simpa using ih n
    exact this t.toNat

end Verif.Ieee
