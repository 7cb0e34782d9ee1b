import Verif.IeeeScoreSpec
import Verif.IeeeNnetLemmas
import Verif.IeeeFftBase

/-!
# Lemmas about rounding in the network
-/

namespace Verif.Ieee

open Verif Verif.Ieee.Spec Verif.Nnet Verif.Nnet.Spec

/-! ## Lists side by side -/

theorem beside_split {α β γ : Type} {R : α → β → Prop} {S : β → γ → Prop} {x : List α} {X : List γ}
    (h : List.Forall₂ (fun v V => ∃ r, R v r ∧ S r V) x X) : ∃ Q, List.Forall₂ R x Q ∧ List.Forall₂ S Q X := by
  induction h with
  | nil => exact ⟨[], .nil, .nil⟩
  | cons h _ ih =>
    obtain ⟨r, h1, h2⟩ := h
    obtain ⟨Q, k1, k2⟩ := ih
    exact ⟨r :: Q, .cons h1 k1, .cons h2 k2⟩

theorem beside_and {α β : Type} {R : α → β → Prop} {P : β → Prop} {x : List α} {X : List β} (h : List.Forall₂ R x X)
    (hp : ∀ V ∈ X, P V) : List.Forall₂ (fun v V => R v V ∧ P V) x X := by
  induction h with
  | nil => exact .nil
  | cons h _ ih =>
    exact .cons ⟨h, hp _ List.mem_cons_self⟩ (ih fun V hV => hp V (List.mem_cons_of_mem _ hV))

theorem beside_map {α β γ δ : Type} {R : α → β → Prop} {S : γ → δ → Prop} {f : α → γ} {g : β → δ} {x : List α} {X : List β}
    (h : List.Forall₂ R x X) (hf : ∀ v V, R v V → S (f v) (g V)) : List.Forall₂ S (x.map f) (X.map g) := by
  induction h with
  | nil => exact .nil
  | cons h _ ih => exact .cons (hf _ _ h) ih

theorem beside_zip {α β γ δ ε ζ : Type} {R : α → β → Prop} {S : γ → δ → Prop} {T : ε → ζ → Prop} {f : α → γ → ε} {g : β → δ → ζ}
    (hf : ∀ v V w W, R v V → S w W → T (f v w) (g V W)) {x : List α} {X : List β} (h : List.Forall₂ R x X) :
    ∀ {y : List γ} {Y : List δ}, List.Forall₂ S y Y → List.Forall₂ T (List.zipWith f x y) (List.zipWith g X Y) := by
  induction h with
  | nil => intro y Y _; exact .nil
  | cons h _ ih =>
    intro y Y h'
    cases h' with
    | nil => exact .nil
    | cons k ks => exact .cons (hf _ _ _ _ h k) (ih ks)

theorem beside_flat {α β γ : Type} {R : α → β → Prop} {f : γ → List α} {g : γ → List β} (l : List γ)
    (h : ∀ c ∈ l, List.Forall₂ R (f c) (g c)) : List.Forall₂ R (l.flatMap f) (l.flatMap g) := by
  induction l with
  | nil => exact .nil
  | cons c l ih =>
    rw [List.flatMap_cons, List.flatMap_cons]
    exact List.rel_append (h c List.mem_cons_self) (ih fun d hd => h d (List.mem_cons_of_mem _ hd))

theorem beside_at {α β : Type} {R : α → β → Prop} {x : List α} {X : List β} (hl : x.length = X.length)
    (h : ∀ (i : ℕ) (V : β), X[i]? = some V → ∃ v, x[i]? = some v ∧ R v V) : List.Forall₂ R x X := by
  induction X generalizing x with
  | nil =>
    cases x with
    | nil => exact .nil
    | cons a l => simp at hl
  | cons B X ih =>
    cases x with
    | nil => simp at hl
    | cons a l =>
      obtain ⟨v, hv, hr⟩ := h 0 B rfl
      obtain rfl : a = v := by simpa using hv
      refine .cons hr (ih (by simpa using hl) fun i V hV => ?_)
      obtain ⟨v, hv, hr⟩ := h (i + 1) V (by simpa using hV)
      exact ⟨v, by simpa using hv, hr⟩

/-! ## Products -/

theorem dotSize_le {K : ℝ} (hK : 0 ≤ K) (j : ℕ) : ∀ (Q : List ℝ) (V : List (List ℝ)), (∀ q ∈ Q, |q| ≤ K) →
    dotSize Q V j ≤ K * (V.map fun row => |row.getD j 0|).sum
  | [], V, _ => by
    have : 0 ≤ (V.map fun row => |row.getD j 0|).sum := List.sum_nonneg fun y hy => by
      obtain ⟨z, _, rfl⟩ := List.mem_map.mp hy
      exact abs_nonneg _
    show (0 : ℝ) ≤ _
    positivity
  | q :: Q, [], _ => by show (0 : ℝ) ≤ K * 0; simp
  | q :: Q, v :: V, h => by
    have ih := dotSize_le hK j Q V fun q hq => h q (List.mem_cons_of_mem _ hq)
    have h1 : |q| * |v.getD j 0| ≤ K * |v.getD j 0| := mul_le_mul_of_nonneg_right (h q List.mem_cons_self) (abs_nonneg _)
    show |q| * |v.getD j 0| + dotSize Q V j ≤ K * (|v.getD j 0| + (V.map fun row => |row.getD j 0|).sum)
    rw [mul_add]
    exact add_le_add h1 ih

theorem dot_near {e : ℝ} (j : ℕ) {Q X : List ℝ} (h : List.Forall₂ (fun q V => |q - V| ≤ e) Q X) : ∀ (V : List (List ℝ)),
    Q.length = V.length → |dot Q V j - dot X V j| ≤ e * (V.map fun row => |row.getD j 0|).sum := by
  induction h with
  | nil => intro V hV; cases V with
    | nil => show |(0 : ℝ) - 0| ≤ e * 0; simp
    | cons v V => simp at hV
  | @cons q p Q X h _ ih =>
    intro V hV
    cases V with
    | nil => simp at hV
    | cons v V =>
      have ih := ih V (by simpa using hV)
      show |q * v.getD j 0 + dot Q V j - (p * v.getD j 0 + dot X V j)| ≤ e * (|v.getD j 0| + (V.map fun row => |row.getD j 0|).sum)
      rw [mul_add]
      refine sum_err ?_ ih
      rw [← sub_mul, abs_mul]
      exact mul_le_mul_of_nonneg_right h (abs_nonneg _)

theorem dot_le (j : ℕ) : ∀ (Q : List ℝ) (V : List (List ℝ)), |dot Q V j| ≤ dotSize Q V j
  | [], V => by show |(0 : ℝ)| ≤ 0; simp
  | q :: Q, [] => by show |(0 : ℝ)| ≤ 0; simp
  | q :: Q, v :: V => by
    show |q * v.getD j 0 + dot Q V j| ≤ |q| * |v.getD j 0| + dotSize Q V j
    refine sum_le (le_of_eq (abs_mul _ _)) (dot_le j Q V)

/-! ## Layers -/

variable {lib : NnLib} {vm : List F32 → List (List F32) → List F32}

theorem close_values {e M : ℝ} {x : List F32} {X : List ℝ} (h : CloseTo e x X) (hM : ∀ v ∈ X, |v| ≤ M) :
    ∃ Q, List.Forall₂ Worth x Q ∧ List.Forall₂ (fun q V => |q - V| ≤ e) Q X ∧ ∀ q ∈ Q, |q| ≤ M + e := by
  obtain ⟨Q, h1, h2⟩ := beside_split h
  refine ⟨Q, h1, h2, ?_⟩
  clear h1 h
  induction h2 with
  | nil => intro q hq; cases hq
  | cons h _ ih =>
    intro q hq
    rcases List.mem_cons.mp hq with rfl | hq
    · exact near_le h (hM _ List.mem_cons_self)
    · exact ih (fun v hv => hM v (List.mem_cons_of_mem _ hv)) q hq

theorem linear_close (hl : ScoreLaws lib vm) {W : List (List F32)} {b : List F32} {V : List (List ℝ)} {c : List ℝ}
    {A B M e : ℝ} {x : List F32} {X : List ℝ} (hW : List.Forall₂ (List.Forall₂ Worth) W V) (hb : List.Forall₂ Worth b c)
    (h0 : W ≠ []) (hx : x.length = W.length) (hrow : ∀ row ∈ W, row.length = b.length) (hn : V.length ≤ 2 ^ 20) (hA : 0 ≤ A) (hB0 : 0 ≤ B)
    (hcol : ∀ j, j < c.length → (V.map fun row => |row.getD j 0|).sum ≤ A) (hB : ∀ v ∈ c, |v| ≤ B)
    (hM : ∀ v ∈ X, |v| ≤ M) (hfit : A * (M + e) + B + 1 ≤ 2 ^ 100) (hc : CloseTo e x X) :
    CloseTo (A * e + (V.length + 3) * (A * (M + e) + B + 1) / 2 ^ 23) (List.zipWith add (vm x W) b)
      (sharp X (.linear V c)) := by
  obtain ⟨Q, h1, h2, h3⟩ := close_values hc hM
  have hlV := hW.length_eq
  have hlb := hb.length_eq
  have hK : 0 ≤ M + e := by
    cases h1 with
    | nil => exact absurd (List.length_eq_zero_iff.mp hx.symm) h0
    | cons _ _ => exact (abs_nonneg _).trans (h3 _ List.mem_cons_self)
  have he : 0 ≤ e := by
    cases h2 with
    | nil => cases h1; exact absurd (List.length_eq_zero_iff.mp hx.symm) h0
    | cons h _ => exact (abs_nonneg _).trans h
  have hAK : 0 ≤ A * (M + e) := mul_nonneg hA hK
  have hvm : (vm x W).length = b.length := hl.rows.size x W b.length hx h0 hrow
  have hn' : (W.length : ℝ) ≤ 2 ^ 20 := by rw [hlV]; exact_mod_cast hn
  have hn0 : (0 : ℝ) ≤ W.length := Nat.cast_nonneg _
  -- the product
  have hprod : List.Forall₂ (fun v D => ∃ r, Worth v r ∧ |r - D| ≤ A * e + (W.length + 1) * (A * (M + e) + 1) / 2 ^ 23 ∧
      |r| ≤ A * (M + e) + (W.length + 1) * (A * (M + e) + 1) / 2 ^ 23) (vm x W) ((List.range c.length).map (dot X V)) := by
    refine beside_at (by rw [hvm, List.length_map, List.length_range, hlb]) fun j D hD => ?_
    have hj : j < c.length := by
      have := (List.getElem?_eq_some_iff.mp hD).1
      rwa [List.length_map, List.length_range] at this
    have eD : dot X V j = D := by
      rw [List.getElem?_map, List.getElem?_range hj] at hD
      exact Option.some.inj hD
    have hs : dotSize Q V j ≤ A * (M + e) := by
      refine (dotSize_le hK j Q V h3).trans ?_
      rw [mul_comm A]
      exact mul_le_mul_of_nonneg_left (hcol j hj) hK
    obtain ⟨v, r, e1, e2, e3⟩ := hl.product h1 hW h0 hx (by rw [hlV]; exact hn) hrow (S := A * (M + e)) (by linarith) j
      (by rw [hlb]; exact hj) hs
    have hd := dot_near j h2 V (by rw [← h1.length_eq, hx, hlV])
    have hd' : |dot Q V j - dot X V j| ≤ A * e := by
      refine hd.trans ?_
      rw [mul_comm A]
      exact mul_le_mul_of_nonneg_left (hcol j hj) he
    have hq : |dot Q V j| ≤ A * (M + e) := by
      refine le_trans ?_ hs
      clear hd hd' hs e3 h1 h2 hc
      exact dot_le j Q V
    refine ⟨v, e1, r, e2, ?_, near_le e3 hq⟩
    rw [← eD, add_comm]
    exact near_trans e3 hd'
  unfold sharp
  refine beside_zip ?_ hprod (beside_and hb hB)
  rintro v D u C ⟨r, h4, h5, h6⟩ ⟨h7, h8⟩
  have hsmall : ((W.length : ℝ) + 1) * (A * (M + e) + 1) / 2 ^ 23 ≤ (A * (M + e) + 1) / 4 := by
    rw [div_le_div_iff₀ (by norm_num) (by norm_num)]
    have := mul_le_mul_of_nonneg_right hn' (show 0 ≤ A * (M + e) + 1 by linarith)
    nlinarith
  have hsum : |r + C| ≤ 2 * (A * (M + e) + B + 1) := (sum_le h6 h8).trans (by linarith)
  obtain ⟨t, e1, e2⟩ := add_worth h4 h7 hsum ((show (1 : ℝ) / 2 ^ 100 ≤ 1 by norm_num).trans (by linarith))
    (by linarith [show (2 : ℝ) * 2 ^ 100 ≤ 2 ^ 120 by norm_num])
  refine ⟨t, e1, ?_⟩
  have h9 : |r + C - (D + C)| ≤ A * e + (W.length + 1) * (A * (M + e) + 1) / 2 ^ 23 := by
    rwa [show r + C - (D + C) = r - D by ring]
  refine (near_trans e2 h9).trans ?_
  rw [← hlV]
  have e4 : ((W.length : ℝ) + 3) * (A * (M + e) + B + 1) / 2 ^ 23 - (W.length + 1) * (A * (M + e) + 1) / 2 ^ 23
      = ((W.length + 1) * B) / 2 ^ 23 + 2 * (A * (M + e) + B + 1) / 2 ^ 23 := by ring
  have : 0 ≤ (((W.length : ℝ) + 1) * B) / 2 ^ 23 := by positivity
  have : 2 * (A * (M + e) + B + 1) / 2 ^ 24 ≤ 2 * (A * (M + e) + B + 1) / 2 ^ 23 := by
    rw [div_le_div_iff₀ (by norm_num) (by norm_num)]
    linarith
  linarith

theorem relu_close {e : ℝ} {x : List F32} {X : List ℝ} (h : CloseTo e x X) :
    CloseTo e (x.map fun v => if lt v (fit _ 0) then fit _ 0 else v) (sharp X .relu) := by
  refine beside_map h ?_
  rintro v V ⟨r, ⟨q, e1, rfl⟩, hr⟩
  have h0 : Is (fit binary32 0) 0 := fit_is rep_zero
  have hmax : |max 0 (q : ℝ) - max 0 V| ≤ e := by
    refine (abs_max_sub_max_le_max 0 (q : ℝ) 0 V).trans (max_le ?_ hr)
    rw [sub_zero, abs_zero]
    exact (abs_nonneg _).trans hr
  rw [lt_is e1 h0]
  by_cases hq : q < 0
  · rw [decide_eq_true hq, if_pos rfl]
    have hq' : (q : ℝ) ≤ 0 := by exact_mod_cast hq.le
    refine ⟨0, ⟨0, h0, by norm_num⟩, ?_⟩
    rwa [max_eq_left hq'] at hmax
  · rw [decide_eq_false hq, if_neg Bool.false_ne_true]
    have hq' : (0 : ℝ) ≤ q := by exact_mod_cast not_lt.mp hq
    refine ⟨q, ⟨q, e1, rfl⟩, ?_⟩
    rwa [max_eq_right hq'] at hmax

theorem norm_close {s t : List F32} {u w : List ℝ} {A B M e : ℝ} {x : List F32} {X : List ℝ} (hs : List.Forall₂ Worth s u)
    (ht : List.Forall₂ Worth t w) (hA : 0 ≤ A) (hB0 : 0 ≤ B) (hsA : ∀ v ∈ u, |v| ≤ A) (hB : ∀ v ∈ w, |v| ≤ B) (hM : ∀ v ∈ X, |v| ≤ M)
    (hfit : A * (M + e) + B + 1 ≤ 2 ^ 100) (hc : CloseTo e x X) :
    CloseTo (A * e + (A * (M + e) + B + 1) / 2 ^ 22) (List.zipWith add (List.zipWith mul x s) t)
      (sharp X (.batchNorm u w)) := by
  unfold sharp
  refine beside_zip (R := fun v V => ∃ r, Worth v r ∧ |r - V| ≤ A * e + (A * (M + e) + 1) / 2 ^ 24 ∧ 0 ≤ A * (M + e) ∧
      |r| ≤ 2 * (A * (M + e) + 1)) ?_ (beside_zip ?_ (beside_and hc hM) (beside_and hs hsA)) (beside_and ht hB)
  · rintro v V y Y ⟨r, h1, h2, h0, h3⟩ ⟨h4, h5⟩
    have hsum : |r + Y| ≤ 2 * (A * (M + e) + B + 1) := (sum_le h3 h5).trans (by linarith)
    obtain ⟨z, e1, e2⟩ := add_worth h1 h4 hsum ((show (1 : ℝ) / 2 ^ 100 ≤ 1 by norm_num).trans (by linarith))
      (by linarith [show (2 : ℝ) * 2 ^ 100 ≤ 2 ^ 120 by norm_num])
    refine ⟨z, e1, ?_⟩
    have h9 : |r + Y - (V + Y)| ≤ A * e + (A * (M + e) + 1) / 2 ^ 24 := by
      rwa [show r + Y - (V + Y) = r - V by ring]
    refine (near_trans e2 h9).trans ?_
    have e4 : (A * (M + e) + B + 1) / 2 ^ 22 = 2 * (A * (M + e) + B + 1) / 2 ^ 24 + (A * (M + e) + 1) / 2 ^ 24
        + (B / 2 ^ 24 + (A * (M + e) + B + 1) / 2 ^ 24) := by ring
    have : 0 ≤ B / 2 ^ 24 + (A * (M + e) + B + 1) / 2 ^ 24 := by positivity
    linarith
  · rintro v V y Y ⟨⟨r, h1, h2⟩, h3⟩ ⟨h4, h5⟩
    have he : 0 ≤ e := (abs_nonneg _).trans h2
    have hM0 : 0 ≤ M := (abs_nonneg _).trans h3
    have hK : 0 ≤ A * (M + e) := mul_nonneg hA (by linarith)
    have hr : |r| ≤ M + e := near_le h2 h3
    have hp : |r * Y| ≤ A * (M + e) + 1 := by
      have := mul_le' hr h5
      linarith
    obtain ⟨z, e1, e2⟩ := mul_worth h1 h4 hp ((show (1 : ℝ) / 2 ^ 100 ≤ 1 by norm_num).trans (by linarith))
      (by linarith [show (2 : ℝ) ^ 100 ≤ 2 ^ 120 by norm_num])
    refine ⟨z, e1, ?_, hK, ?_⟩
    · have h9 : |r * Y - V * Y| ≤ A * e := by
        rw [← sub_mul, mul_comm A]
        exact mul_le' h2 h5
      rw [add_comm]
      exact near_trans e2 h9
    · have := near_le e2 hp
      have : (A * (M + e) + 1) / 2 ^ 24 ≤ A * (M + e) + 1 := div_le_self (by linarith) (by norm_num)
      linarith

end Verif.Ieee
