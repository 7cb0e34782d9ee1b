import Verif.IeeeScoreProps

/-!
# C106: a library, a network and two seconds of audio
-/

namespace Verif.Ieee

open Verif Verif.Ieee.Spec Verif.Fbank Verif.Fbank.Spec Verif.Nnet Verif.Nnet.Spec Verif.Main.Spec

theorem cutFine_err (r : ℝ) : |(cutFine r : ℝ) - r| ≤ 1 / 2 ^ 120 := by
  have h1 := Int.floor_le (r * 2 ^ 120)
  have h2 := Int.lt_floor_add_one (r * 2 ^ 120)
  unfold cutFine
  push_cast
  rw [abs_le]
  constructor
  · rw [neg_le_sub_iff_le_add, ← add_div, le_div_iff₀ (by positivity)]
    exact h2.le
  · rw [sub_le_iff_le_add, div_le_iff₀ (by positivity), add_mul]
    have h3 : (0 : ℝ) ≤ 1 / 2 ^ 120 * 2 ^ 120 := by positivity
    exact h1.trans (le_add_of_nonneg_left h3)

theorem someExp_close {x : F32} {r : ℝ} (h : Worth x r) (hr : r ≤ 64) :
    ∃ s, Worth (someExp x) s ∧ |s - Real.exp r| ≤ Real.exp r / 2 ^ 22 + 1 / 2 ^ 118 := by
  obtain ⟨q, hq, rfl⟩ := h
  have e : someExp x = fit binary32 (cutFine (Real.exp q)) := by obtain ⟨_, rfl⟩ := hq; rfl
  rw [e]
  have h1 := cutFine_err (Real.exp q)
  have h0 := Real.exp_pos (q : ℝ)
  have h2 := (Real.exp_le_exp.mpr hr).trans exp_64
  obtain ⟨s, e1, e2⟩ := fit_worth (q := cutFine (Real.exp q)) (m := Real.exp q + 1 / 2 ^ 100)
    ((near_le h1 (le_of_eq (abs_of_pos h0))).trans (by linarith [show (1 : ℝ) / 2 ^ 120 ≤ 1 / 2 ^ 100 by norm_num])) (by linarith)
    (by linarith [show (2 : ℝ) ^ 93 + 1 / 2 ^ 100 ≤ 2 ^ 120 by norm_num])
  refine ⟨s, e1, (near_trans e2 h1).trans ?_⟩
  have e3 : (Real.exp q + 1 / 2 ^ 100) / 2 ^ 24 + 1 / 2 ^ 120 = Real.exp q / 2 ^ 24 + (1 / 2 ^ 124 + 1 / 2 ^ 120) := by ring
  rw [e3]
  have h4 : Real.exp (q : ℝ) / 2 ^ 24 ≤ Real.exp q / 2 ^ 22 := div_le_div_of_nonneg_left h0.le (by positivity) (by norm_num)
  linarith [show (1 : ℝ) / 2 ^ 124 + 1 / 2 ^ 120 ≤ 1 / 2 ^ 118 by norm_num]

theorem someLog_close {x : F32} {r : ℝ} (h : Worth x r) (h1 : 1 / 2 ^ 94 ≤ r) (h2 : r ≤ 2 ^ 120) :
    ∃ s, Worth (someNnLib.log x) s ∧ |s - Real.log r| ≤ 1 / 2 ^ 16 := by
  obtain ⟨q, hq, rfl⟩ := h
  have e : someNnLib.log x = fit binary32 (cut (Real.log q)) := lift_is hq
  rw [e]
  have q0 : (0 : ℝ) < q := lt_of_lt_of_le (by positivity) h1
  have l2 := Real.log_two_lt_d9
  have a1 : -100 ≤ Real.log (q : ℝ) := by
    have := Real.log_le_log (by positivity) h1
    rw [Real.log_div (by norm_num) (by norm_num), Real.log_one, Real.log_pow] at this
    push_cast at this
    linarith
  have a2 : Real.log (q : ℝ) ≤ 100 := by
    have := Real.log_le_log q0 h2
    rw [Real.log_pow] at this
    push_cast at this
    linarith
  have h3 := cut_err (Real.log q)
  obtain ⟨s, e1, e2⟩ := fit_worth (q := cut (Real.log q)) (m := 128)
    ((near_le h3 (abs_le.mpr ⟨a1, a2⟩)).trans (by norm_num)) (by norm_num) (by norm_num)
  exact ⟨s, e1, (near_trans e2 h3).trans (by norm_num)⟩

theorem getD_worth {y : List F32} {Y : List ℝ} (h : List.Forall₂ Worth y Y) : ∀ j, Worth (y.getD j (fit _ 0)) (Y.getD j 0) := by
  induction h with
  | nil =>
    intro j
    rw [List.getD_nil, List.getD_nil]
    exact ⟨0, fit_is rep_zero, by norm_num⟩
  | cons h _ ih =>
    intro j
    cases j with
    | zero => simpa using h
    | succ j => simpa using ih j

theorem rowsum_close {T : ℝ} (hT : 1 ≤ T) (hT' : T ≤ 2 ^ 110) (j : ℕ) {x : List F32} {Q : List ℝ} (h : List.Forall₂ Worth x Q) :
    ∀ {W : List (List F32)} {V : List (List ℝ)}, List.Forall₂ (List.Forall₂ Worth) W V → ∀ (acc : F32) (a s d : ℝ), Worth acc a →
    |a - s| ≤ d → |s| + dotSize Q V j ≤ T → d + dotSize Q V j / 2 ^ 24 + Q.length * (1 / 2 ^ 124 + 5 / 4 * T / 2 ^ 24) ≤ T / 4 →
    ∃ r, Worth ((List.zipWith (fun a r => mul a (r.getD j (fit _ 0))) x W).foldl add acc) r ∧
      |r - (s + dot Q V j)| ≤ d + dotSize Q V j / 2 ^ 24 + Q.length * (1 / 2 ^ 124 + 5 / 4 * T / 2 ^ 24) := by
  induction h with
  | nil =>
    intro W V _ acc a s d h1 h2 _ _
    refine ⟨a, h1, ?_⟩
    show |a - (s + 0)| ≤ d + 0 / 2 ^ 24 + ((0 : ℕ) : ℝ) * _
    simpa using h2
  | @cons v q x Q h _ ih =>
    intro W V hW acc a s d h1 h2 h3 h4
    cases hW with
    | nil =>
      refine ⟨a, h1, ?_⟩
      show |a - (s + 0)| ≤ d + 0 / 2 ^ 24 + _
      rw [_root_.add_zero, zero_div, _root_.add_zero]
      refine h2.trans (le_add_of_nonneg_right (by positivity))
    | @cons y Y W V hy hW =>
      have e1 : dotSize (q :: Q) (Y :: V) j = |q| * |Y.getD j 0| + dotSize Q V j := rfl
      have e2 : dot (q :: Q) (Y :: V) j = q * Y.getD j 0 + dot Q V j := rfl
      rw [e1, List.length_cons] at h4
      rw [e1] at h3
      rw [e1, e2, List.length_cons, List.zipWith_cons_cons, List.foldl_cons]
      push_cast at h4 ⊢
      have hp0 : 0 ≤ |q| * |Y.getD j 0| := by positivity
      have hD0 : 0 ≤ dotSize Q V j := (abs_nonneg _).trans (dot_le j Q V)
      have hs0 := abs_nonneg s
      obtain ⟨p, e3, e4⟩ := mul_worth h (getD_worth hy j) (m := |q| * |Y.getD j 0| + 1 / 2 ^ 100)
        (by rw [abs_mul]; exact le_add_of_nonneg_right (by norm_num)) (by linarith)
        (by linarith [show (2 : ℝ) ^ 110 + 1 / 2 ^ 100 ≤ 2 ^ 120 by norm_num])
      have e5 : (|q| * |Y.getD j 0| + 1 / 2 ^ 100) / 2 ^ 24 = |q| * |Y.getD j 0| / 2 ^ 24 + 1 / 2 ^ 124 := by ring
      rw [e5] at e4
      have h5 := sum_err h2 e4
      have hN0 : 0 ≤ (Q.length : ℝ) * (1 / 2 ^ 124 + 5 / 4 * T / 2 ^ 24) := by positivity
      have e6 : (|q| * |Y.getD j 0| + dotSize Q V j) / 2 ^ 24 = |q| * |Y.getD j 0| / 2 ^ 24 + dotSize Q V j / 2 ^ 24 := add_div _ _ _
      have e7 : ((Q.length : ℝ) + 1) * (1 / 2 ^ 124 + 5 / 4 * T / 2 ^ 24)
        = Q.length * (1 / 2 ^ 124 + 5 / 4 * T / 2 ^ 24) + (1 / 2 ^ 124 + 5 / 4 * T / 2 ^ 24) := by ring
      rw [e6, e7] at h4 ⊢
      have hD1 : 0 ≤ dotSize Q V j / 2 ^ 24 := by positivity
      have hT1 : 0 ≤ 5 / 4 * T / 2 ^ 24 := by positivity
      have hsq : |s + q * Y.getD j 0| ≤ |s| + |q| * |Y.getD j 0| := sum_le (le_refl _) (le_of_eq (abs_mul _ _))
      have h6 : |a + p| ≤ 5 / 4 * T := (near_le h5 hsq).trans (by linarith)
      obtain ⟨b, e8, e9⟩ := add_worth h1 e3 h6 ((show (1 : ℝ) / 2 ^ 100 ≤ 1 by norm_num).trans (by linarith))
        (by linarith [show (5 : ℝ) / 4 * 2 ^ 110 ≤ 2 ^ 120 by norm_num])
      obtain ⟨r, e10, e11⟩ := ih hW _ b (s + q * Y.getD j 0) _ e8 (near_trans e9 h5) (by linarith) (by linarith)
      refine ⟨r, e10, ?_⟩
      rw [← add_assoc]
      exact e11.trans (by linarith)

theorem someRow_close {x : List F32} {X : List ℝ} {W : List (List F32)} {V : List (List ℝ)} {m : ℕ} {S : ℝ}
    (hx : List.Forall₂ Worth x X) (hW : List.Forall₂ (List.Forall₂ Worth) W V) (h0 : W ≠ []) (hl : x.length = W.length)
    (hn : W.length ≤ 2 ^ 20) (hm : ∀ row ∈ W, row.length = m) (hS : S ≤ 2 ^ 100) (j : ℕ) (hj : j < m) (hd : dotSize X V j ≤ S) :
    ∃ v r, (someRow x W)[j]? = some v ∧ Worth v r ∧ |r - dot X V j| ≤ (W.length + 1) * (S + 1) / 2 ^ 23 := by
  have hd0 : 0 ≤ dotSize X V j := (abs_nonneg _).trans (dot_le j X V)
  have hn' : (W.length : ℝ) ≤ 2 ^ 20 := by exact_mod_cast hn
  have hlen : X.length = W.length := by rw [← hx.length_eq, hl]
  have hw0 : (0 : ℝ) ≤ W.length := Nat.cast_nonneg _
  have hT0 : 0 ≤ (S + 1) / 2 ^ 23 := div_nonneg (by linarith) (by norm_num)
  have key : 0 + dotSize X V j / 2 ^ 24 + X.length * (1 / 2 ^ 124 + 5 / 4 * (S + 1) / 2 ^ 24) ≤ (W.length + 1) * (S + 1) / 2 ^ 23 := by
    rw [hlen]
    have h1 : (1 : ℝ) / 2 ^ 124 + 5 / 4 * (S + 1) / 2 ^ 24 ≤ (S + 1) / 2 ^ 23 := by
      have : (S + 1) / 2 ^ 23 = 5 / 4 * (S + 1) / 2 ^ 24 + 3 / 4 * (S + 1) / 2 ^ 24 := by ring
      have : (1 : ℝ) / 2 ^ 124 ≤ 3 / 4 * (S + 1) / 2 ^ 24 := by
        rw [div_le_div_iff₀ (by positivity) (by positivity)]
        have : (0 : ℝ) ≤ S * (3 / 4 * 2 ^ 124) := by
          have : 0 ≤ S := hd0.trans hd
          positivity
        linarith [show (1 : ℝ) * 2 ^ 24 ≤ 3 / 4 * 2 ^ 124 by norm_num]
      linarith
    have h2 := mul_le_mul_of_nonneg_left h1 hw0
    have h3 : dotSize X V j / 2 ^ 24 ≤ (S + 1) / 2 ^ 23 := by
      rw [div_le_div_iff₀ (by positivity) (by positivity)]
      linarith
    have e1 : ((W.length : ℝ) + 1) * (S + 1) / 2 ^ 23 = W.length * ((S + 1) / 2 ^ 23) + (S + 1) / 2 ^ 23 := by ring
    linarith
  have key2 : ((W.length : ℝ) + 1) * (S + 1) / 2 ^ 23 ≤ (S + 1) / 4 := by
    have e1 : ((W.length : ℝ) + 1) * (S + 1) / 2 ^ 23 = (W.length + 1) * ((S + 1) / 2 ^ 23) := by ring
    have e2 : (S + 1) / 4 = 2 ^ 21 * ((S + 1) / 2 ^ 23) := by ring
    rw [e1, e2]
    exact mul_le_mul_of_nonneg_right (by linarith) hT0
  obtain ⟨r, e1, e2⟩ := rowsum_close (T := S + 1) (by linarith) (by linarith [show (2 : ℝ) ^ 100 + 1 ≤ 2 ^ 110 by norm_num]) j hx hW
    (fit _ 0) 0 0 0 ⟨0, fit_is rep_zero, by norm_num⟩ (by norm_num) (by rw [abs_zero]; linarith) (key.trans key2)
  refine ⟨_, r, ?_, e1, ?_⟩
  · unfold someRow
    rw [Nnet.numCols_of h0 hm, List.getElem?_map, List.getElem?_range hj]
    rfl
  · rw [_root_.zero_add] at e2
    exact e2.trans key

/-- There is such a library. -/
theorem someNnLib_close : ScoreLaws someNnLib someRow where
  rows := someNnLib_laws.rows
  exp := someExp_close
  log := someLog_close
  product := someRow_close

/-! ## The size of exact numbers -/

theorem linear_size {X : List ℝ} {V : List (List ℝ)} {c : List ℝ} {A B M : ℝ} (hM0 : 0 ≤ M)
    (hcol : ∀ j, j < c.length → (V.map fun row => |row.getD j 0|).sum ≤ A) (hB : ∀ v ∈ c, |v| ≤ B) (hM : ∀ v ∈ X, |v| ≤ M) :
    ∀ v ∈ sharp X (.linear V c), |v| ≤ A * M + B := by
  unfold sharp
  refine zipWith_all (P := fun v => |v| ≤ A * M) (Q := fun v => |v| ≤ B) (R := fun v => |v| ≤ A * M + B)
    (fun a b h1 h2 => sum_le h1 h2) (fun v hv => ?_) hB
  obtain ⟨j, hj, rfl⟩ := List.mem_map.mp hv
  refine (dot_le j X V).trans ((dotSize_le hM0 j X V hM).trans ?_)
  rw [mul_comm A]
  exact mul_le_mul_of_nonneg_left (hcol j (List.mem_range.mp hj)) hM0

theorem relu_size {X : List ℝ} {M : ℝ} (hM : ∀ v ∈ X, |v| ≤ M) : ∀ v ∈ sharp X .relu, |v| ≤ M := by
  intro v hv
  obtain ⟨u, hu, rfl⟩ := List.mem_map.mp hv
  refine le_trans ?_ (hM u hu)
  rcases le_total 0 u with h | h
  · rw [max_eq_right h]
  · rw [max_eq_left h, abs_zero]
    exact abs_nonneg _

theorem norm_size {X s t : List ℝ} {A B M : ℝ} (hM : ∀ v ∈ X, |v| ≤ M) (hs : ∀ v ∈ s, |v| ≤ A) (ht : ∀ v ∈ t, |v| ≤ B) :
    ∀ v ∈ sharp X (.batchNorm s t), |v| ≤ A * M + B := by
  unfold sharp
  refine zipWith_all (P := fun v => |v| ≤ A * M) (Q := fun v => |v| ≤ B) (R := fun v => |v| ≤ A * M + B)
    (fun a b h1 h2 => sum_le h1 h2) ?_ ht
  refine zipWith_all (P := fun v => |v| ≤ M) (Q := fun v => |v| ≤ A) (fun a b h1 h2 => ?_) hM hs
  rw [mul_comm A]
  exact mul_le' h1 h2

theorem soft_size {X : List ℝ} {M : ℝ} (hM : ∀ v ∈ X, |v| ≤ M) : ∀ v ∈ sharp X .logSoftmax, |v| ≤ 2 * M + X.length := by
  intro v hv
  obtain ⟨u, hu, rfl⟩ := List.mem_map.mp hv
  have hpos : ∀ y ∈ X.map Real.exp, 0 ≤ y := fun y hy => by
    obtain ⟨z, _, rfl⟩ := List.mem_map.mp hy
    exact (Real.exp_pos z).le
  have hu' := hM u hu
  have h1 : Real.exp u ≤ (X.map Real.exp).sum := List.single_le_sum hpos _ (List.mem_map.mpr ⟨u, hu, rfl⟩)
  have h2 : (X.map Real.exp).sum ≤ X.length * Real.exp M := by
    have := List.sum_le_card_nsmul (X.map Real.exp) (Real.exp M) (by
      intro y hy
      obtain ⟨z, hz, rfl⟩ := List.mem_map.mp hy
      exact Real.exp_le_exp.mpr ((le_abs_self z).trans (hM z hz)))
    rwa [List.length_map, nsmul_eq_mul] at this
  have h3 : (X.length : ℝ) ≤ Real.exp X.length := (le_add_of_nonneg_right zero_le_one).trans (Real.add_one_le_exp _)
  have h4 : (X.map Real.exp).sum ≤ Real.exp (X.length + M) := by
    rw [Real.exp_add]
    exact h2.trans (mul_le_mul_of_nonneg_right h3 (Real.exp_pos _).le)
  have p : 0 < (X.map Real.exp).sum := lt_of_lt_of_le (Real.exp_pos _) h1
  have l1 := Real.log_le_log (Real.exp_pos _) h1
  have l2 := Real.log_le_log p h4
  rw [Real.log_exp] at l1 l2
  have := abs_le.mp hu'
  have hn : (0 : ℝ) ≤ X.length := Nat.cast_nonneg _
  rw [abs_le]
  constructor <;> linarith

/-! ## The network of C100 -/

/-- The weights of the network as real numbers. -/
noncomputable def realHalves : List (List ℝ) := List.replicate 80 (List.replicate 3 (1 / 2))

/-- The network of C100 without rounding. -/
noncomputable def realNet : List (Layer ℝ) :=
  [.splice [-1, 0], .narrow 1 0, .linear realHalves (List.replicate 3 1), .relu,
   .batchNorm (List.replicate 3 (1 / 2 ^ 10)) (List.replicate 3 0), .logSoftmax]

theorem beside_replicate {α β : Type} {R : α → β → Prop} {a : α} {b : β} (h : R a b) : ∀ n : ℕ,
    List.Forall₂ R (List.replicate n a) (List.replicate n b)
  | 0 => .nil
  | n + 1 => .cons h (beside_replicate h n)

theorem pow_worth {k : ℕ} (h : k ≤ 20) : Worth (fit binary32 (1 / 2 ^ k)) (1 / 2 ^ k) := ⟨_, pow_is h, by push_cast; rfl⟩

theorem one_worth : Worth (fit binary32 1) 1 := by
  have := pow_worth (k := 0) (by omega)
  rwa [pow_zero, pow_zero, _root_.div_one, _root_.div_one] at this

theorem someNet_means : List.Forall₂ Means someNet realNet := by
  have half : Worth (fit binary32 (1 / 2)) (1 / 2) := by
    have := pow_worth (k := 1) (by omega)
    rwa [pow_one, pow_one] at this
  refine .cons .splice (.cons .narrow (.cons (.linear ?_ ?_) (.cons .relu (.cons (.batchNorm ?_ ?_) (.cons .logSoftmax .nil)))))
  · exact beside_replicate (beside_replicate half 3) 80
  · exact beside_replicate one_worth 3
  · exact beside_replicate (pow_worth (by omega)) 3
  · exact beside_replicate ⟨0, fit_is rep_zero, by norm_num⟩ 3

theorem halves_col (j : ℕ) : (realHalves.map fun row => |row.getD j 0|).sum ≤ 40 := by
  unfold realHalves
  rw [List.map_replicate, List.sum_replicate, nsmul_eq_mul]
  have : |(List.replicate 3 (1 / 2 : ℝ)).getD j 0| ≤ 1 / 2 := by
    rw [List.getD_eq_getElem?_getD, List.getElem?_replicate]
    split
    · rw [Option.getD_some, abs_of_pos (by norm_num)]
    · rw [Option.getD_none, abs_zero]
      norm_num
  generalize |(List.replicate 3 (1 / 2 : ℝ)).getD j 0| = z at this ⊢
  push_cast
  linarith

theorem realNet_sizes {X : ℤ → List ℝ} (hX : ∀ t, ∀ v ∈ X t, |v| ≤ 129) :
    (∀ t, ∀ v ∈ sharpOn X (.splice [-1, 0]) t, |v| ≤ 129) := by
  intro t v hv
  obtain ⟨c, -, hv⟩ := List.mem_flatMap.mp hv
  exact hX _ v hv

theorem realNet_blurs {X : ℤ → List ℝ} (hX : ∀ t, ∀ v ∈ X t, |v| ≤ 129) :
    ∃ e', e' ≤ 9 / 10000 ∧ BlursTo realNet X (1 / 10000) e' ∧ ∀ t, ∀ v ∈ sharpAll realNet X t, |v| ≤ 15 := by
  have s1 := realNet_sizes hX
  have ones : ∀ v ∈ List.replicate 3 (1 : ℝ), |v| ≤ 1 := fun v hv => by rw [List.eq_of_mem_replicate hv, abs_one]
  have scales : ∀ v ∈ List.replicate 3 (1 / 2 ^ 10 : ℝ), |v| ≤ 1 / 2 ^ 10 := fun v hv => by
    rw [List.eq_of_mem_replicate hv, abs_of_pos (by positivity)]
  have zeros : ∀ v ∈ List.replicate 3 (0 : ℝ), |v| ≤ 0 := fun v hv => by rw [List.eq_of_mem_replicate hv, abs_zero]
  have s2 : ∀ t, ∀ v ∈ sharp (sharpOn X (.splice [-1, 0]) t) (.linear realHalves (List.replicate 3 1)), |v| ≤ 40 * 129 + 1 :=
    fun t => linear_size (by norm_num) (fun j _ => halves_col j) ones (s1 t)
  have s3 := fun t => relu_size (s2 t)
  have s4 := fun t => norm_size (s3 t) scales zeros
  have len : ∀ t, (sharp (sharp (sharp (sharpOn X (.splice [-1, 0]) t) (.linear realHalves (List.replicate 3 1))) .relu)
      (.batchNorm (List.replicate 3 (1 / 2 ^ 10)) (List.replicate 3 0))).length = 3 := by
    intro t
    simp [sharp]
  have s4' : ∀ t, ∀ v ∈ sharp (sharp (sharp (sharpOn X (.splice [-1, 0]) t) (.linear realHalves (List.replicate 3 1))) .relu)
      (.batchNorm (List.replicate 3 (1 / 2 ^ 10)) (List.replicate 3 0)), |v| ≤ 6 := fun t v hv => (s4 t v hv).trans (by norm_num)
  refine ⟨_, ?_, .cons .splice (.cons .narrow (.cons (.linear (A := 40) (B := 1) (M := 129) ?_ (by norm_num) (by norm_num)
    (fun j _ => halves_col j) ones s1 (by norm_num)) (.cons .relu (.cons (.batchNorm (A := 1 / 2 ^ 10) (B := 0) (M := 40 * 129 + 1)
    (by norm_num) (le_refl _) scales zeros s3 ?_) (.cons (.logSoftmax (n := 3) (M := 6) (by norm_num) (fun t => (len t).le) ?_ (by norm_num) ?_ ?_)
    .nil))))), ?_⟩
  · rw [realHalves, List.length_replicate]
    norm_num
  · rw [realHalves, List.length_replicate]
    norm_num
  · rw [realHalves, List.length_replicate]
    norm_num
  · rw [realHalves, List.length_replicate]
    norm_num
  · exact fun t v hv => ⟨s4' t v hv, ((le_abs_self v).trans (s4' t v hv)).trans (by norm_num)⟩
  · intro t
    obtain ⟨v, hv⟩ := List.exists_mem_of_length_pos (show 0 < _ by rw [len t]; norm_num)
    refine ⟨v, hv, ?_⟩
    have := (abs_le.mp (s4' t v hv)).1
    linarith
  · intro t v hv
    have := soft_size (s4' t) v hv
    rw [len t] at this
    norm_num at this
    exact this

/-- The network on vectors of forty times 100.0, which are exact: every output is within 1/1000 of that without rounding. -/
example : ∀ t, CloseTo (1 / 1000) (series (nnet someNnLib) someRow someNet (fun _ => List.replicate 40 (fit _ 100)) t)
    (sharpAll realNet (fun _ => List.replicate 40 100) t) := by
  have h100 : Is (fit binary32 100) 100 := by
    have := fit_is (rep_small (n := 100) (by norm_num))
    simpa using this
  obtain ⟨e', k1, k2, -⟩ := realNet_blurs (X := fun _ => List.replicate 40 100) fun t v hv => by
    rw [List.eq_of_mem_replicate hv, abs_of_pos (by norm_num)]
    norm_num
  intro t
  refine (C106_network someNnLib_close someNet_built someNet_means k2 (fun t => ⟨List.length_replicate, ?_⟩) t).imp fun v V hv => ?_
  · exact beside_replicate ⟨100, ⟨100, h100, by norm_num⟩, by norm_num⟩ 40
  · obtain ⟨r, q1, q2⟩ := hv
    exact ⟨r, q1, q2.trans (by linarith [show (9 : ℝ) / 10000 ≤ 1 / 1000 by norm_num])⟩

/-- The same through `Propagate`, for a matrix of three such rows: two rows come out. -/
example : ∃ y, propagate (nnet someNnLib) someNet (List.replicate 3 (List.replicate 40 (fit _ 100))) [] = .ok y ∧ y.length = 2 ∧
    ∀ (t : ℕ) (v : List F32), y[t]? = some v → CloseTo (1 / 1000) v (sharpAll realNet (fun _ => List.replicate 40 100) ((t + 1 : ℕ) : ℤ)) := by
  have h100 : Is (fit binary32 100) 100 := by
    have := fit_is (rep_small (n := 100) (by norm_num))
    simpa using this
  have hc : CloseTo (1 / 10000) (List.replicate 40 (fit _ 100)) (List.replicate 40 100) :=
    beside_replicate ⟨100, ⟨100, h100, by norm_num⟩, by norm_num⟩ 40
  obtain ⟨e', k1, k2, -⟩ := realNet_blurs (X := fun _ => List.replicate 40 100) fun t v hv => by
    rw [List.eq_of_mem_replicate hv, abs_of_pos (by norm_num)]
    norm_num
  obtain ⟨y, g1, g2, g3⟩ := C106_propagate someNnLib_close someNet_built someNet_means (m := List.replicate 3 (List.replicate 40 (fit _ 100))) []
    k2 (fun x hx => by rw [List.eq_of_mem_replicate hx, List.length_replicate]) (fun _ => ⟨_, List.length_replicate, hc⟩)
    (fun i x hx => by rw [List.eq_of_mem_replicate (List.mem_of_getElem? hx)]; exact hc)
    (by rw [List.length_replicate]; norm_num) (by rw [List.length_replicate]; norm_num) (by rw [List.length_replicate]; norm_num)
  refine ⟨y, g1, g2, fun t v hv => (g3 t v hv).imp fun a A ha => ?_⟩
  obtain ⟨r, q1, q2⟩ := ha
  exact ⟨r, q1, q2.trans (by linarith [show (9 : ℝ) / 10000 ≤ 1 / 1000 by norm_num])⟩

/-- Two seconds of audio, 64000 bytes 128: there are 198 rows of scores, and every score is within 1/1000 of that of the exact network
on exact features. -/
example : ∃ o, make (fbank someLib) = .ok o ∧ ∃ u Fs rows, NearTriangles u ∧
    FeaturesOf u 32768 (fun n => ((Pcm.Spec.samples 2 (List.replicate 64000 128)).getD n 0 : ℤ)) 198 Fs ∧
    Scores (someRec o) someRow 2 (List.replicate 64000 128) rows ∧ rows.length = 198 ∧ ∀ (t : ℕ) (y : List F32), rows[t]? = some y →
      CloseTo (1 / 1000) y (List.zipWith (· - ·) (sharpAll realNet (edge Fs) t) (List.replicate 3 1)) := by
  obtain ⟨o, ho⟩ := C99_constructed someLib_laws
  obtain ⟨u, hu, h⟩ := C106_audio (r := someRec o) someLib_laws someLib_trig someLib_log someNnLib_close ho rfl rfl someNet_built
    someNet_means (Q := List.replicate 3 1) (beside_replicate one_worth 3) (b := 2) (.inr rfl)
  obtain ⟨Fs, h1, h2, h3⟩ := h (List.replicate 64000 128)
  have hn : (if (List.replicate 64000 (128 : UInt8)).length / 2 < 400 then 0 else ((List.replicate 64000 (128 : UInt8)).length / 2 - 400) / 160 + 1) = 198 := by
    rw [List.length_replicate]
    rfl
  rw [hn] at h1
  have hX : ∀ t, ∀ v ∈ edge Fs t, |v| ≤ 129 := by
    intro t
    have hne : Fs ≠ [] := fun e => by
      have := h1.1
      rw [e] at this
      cases this
    exact h2 _ (edge_mem hne t)
  obtain ⟨e', k1, k2, k3⟩ := realNet_blurs hX
  obtain ⟨rows, r1, r2, r3⟩ := h3 e' 15 1 k2 k3 (fun v hv => by rw [List.eq_of_mem_replicate hv, abs_one])
    (by linarith [show (15 : ℝ) + 9 / 10000 + 1 + 1 ≤ 2 ^ 100 by norm_num])
  refine ⟨o, ho, u, Fs, rows, hu, h1, r1, r2.trans h1.1, fun t y hy => ?_⟩
  refine (r3 t y hy).imp fun v V hv => ?_
  obtain ⟨r, q1, q2⟩ := hv
  refine ⟨r, q1, q2.trans ?_⟩
  have : (15 + e' + 1 + 1) / 2 ^ 24 ≤ 20 / 2 ^ 24 := div_le_div_of_nonneg_right (by linarith) (by norm_num)
  linarith [show (9 : ℝ) / 10000 + 20 / 2 ^ 24 ≤ 1 / 1000 by norm_num]

end Verif.Ieee
