import Verif.SrfftFft

/-!
# The complex and the real transform in exact arithmetic
-/

namespace Verif.Srfft

open Complex Finset

/-! ## In order, forward and backward -/

/-- The inverse transform, without the factor. -/
noncomputable def idft (m : ℕ) (f : ℕ → ℂ) (k : ℕ) : ℂ := ∑ j ∈ range m, f j * (starRingEnd ℂ) (root m (j * k))

/-- Real and imaginary part exchanged. -/
def swapC (z : ℂ) : ℂ := ⟨z.im, z.re⟩

theorem swapC_eq (z : ℂ) : swapC z = I * (starRingEnd ℂ) z := by
  apply Complex.ext <;> simp [swapC]

theorem swap_dft (m : ℕ) (f : ℕ → ℂ) (k : ℕ) : swapC (dft m (fun i => swapC (f i)) k) = idft m f k := by
  unfold dft idft
  rw [swapC_eq, map_sum, Finset.mul_sum]
  apply Finset.sum_congr rfl
  intro j _
  show I * (starRingEnd ℂ) (swapC (f j) * root m (j * k)) = _
  rw [swapC_eq, map_mul, map_mul, Complex.conj_conj, Complex.conj_I]
  linear_combination (-(f j * (starRingEnd ℂ) (root m (j * k)))) * Complex.I_mul_I

/-- The transform in the one or the other direction. -/
noncomputable def trans (forward : Bool) (m : ℕ) (f : ℕ → ℂ) : ℕ → ℂ := if forward then dft m f else idft m f

theorem core_ok {k : ℕ} (Z : ℕ → ℂ) :
    (fftRec realOps (table realOps k) k 0 (cx (2 ^ k) Z) >>= fun s => unshuffle (made realOps k) s) =
      .ok (cx (2 ^ k) (dft (2 ^ k) Z)) := by
  rw [fftRec_ok k 0 Z (Nat.le_refl k) (by omega), ok_bind]
  have val : ∀ i, i < 2 ^ k → after k 0 Z (rev k i) = dft (2 ^ k) Z i := by
    intro i hi
    have := rev_lt k i
    unfold after
    rw [if_pos (by omega), Nat.sub_zero, rev_rev k i hi]
    apply dft_congr
    intro j _
    rw [Nat.zero_add]
  unfold unshuffle
  rw [show (made realOps k).logn = k from rfl]
  by_cases hk : 1 < k
  · rw [if_pos hk]
    unfold cx
    show (bitReverse (vec (2 ^ (k - k / 2)) fun i => some (rev (k - k / 2) i)) k (vec (2 ^ k) fun i => (after k 0 Z i).re) >>=
      fun xr => bitReverse (vec (2 ^ (k - k / 2)) fun i => some (rev (k - k / 2) i)) k (vec (2 ^ k) fun i => (after k 0 Z i).im) >>=
      fun xi => .ok (xr, xi)) = _
    rw [bitReverse_ok, ok_bind, bitReverse_ok, ok_bind]
    congr 2
    · apply vec_congr
      intro i hi
      rw [val i hi]
    · apply vec_congr
      intro i hi
      rw [val i hi]
  · rw [if_neg hk]
    congr 1
    apply cx_congr
    intro i hi
    rw [← val i hi]
    have : k = 0 ∨ k = 1 := by omega
    rcases this with rfl | rfl
    · rw [Nat.pow_zero] at hi
      have : i = 0 := by omega
      subst this
      rfl
    · rw [Nat.pow_one] at hi
      have : i = 0 ∨ i = 1 := by omega
      rcases this with rfl | rfl <;> rfl

theorem complex2_ok {k : ℕ} (forward : Bool) (Z : ℕ → ℂ) :
    complex2 realOps (made realOps k) forward (cx (2 ^ k) Z) = .ok (cx (2 ^ k) (trans forward (2 ^ k) Z)) := by
  unfold complex2
  cases forward with
  | true =>
    have := core_ok (k := k) Z
    simp only [if_true]
    rw [show (made realOps k).tab = table realOps k from rfl, show (made realOps k).logn = k from rfl]
    rcases h : fftRec realOps (table realOps k) k 0 (cx (2 ^ k) Z) with e | s
    · rw [h] at this; cases this
    · rw [h, ok_bind] at this
      rw [ok_bind, this, ok_bind]
      rfl
  | false =>
    have := core_ok (k := k) (fun i => swapC (Z i))
    have e : ((cx (2 ^ k) Z).2, (cx (2 ^ k) Z).1) = cx (2 ^ k) (fun i => swapC (Z i)) := rfl
    simp only [Bool.false_eq_true, if_false]
    rw [e, show (made realOps k).tab = table realOps k from rfl, show (made realOps k).logn = k from rfl]
    rcases h : fftRec realOps (table realOps k) k 0 (cx (2 ^ k) (fun i => swapC (Z i))) with e | s
    · rw [h] at this; cases this
    · rw [h, ok_bind] at this
      rw [ok_bind, this, ok_bind]
      congr 1
      show cx (2 ^ k) (fun i => swapC (dft (2 ^ k) (fun i => swapC (Z i)) i)) = _
      apply cx_congr
      intro i _
      exact swap_dft _ _ _

/-! ## Interleaving -/

/-- Real and imaginary parts in turn. -/
def inter (Z : ℕ → ℂ) : ℕ → ℝ := fun p => if p % 2 = 0 then (Z (p / 2)).re else (Z (p / 2)).im

/-- Every array is of this form. -/
def pairs (X : ℕ → ℝ) : ℕ → ℂ := fun k => ⟨X (2 * k), X (2 * k + 1)⟩

theorem inter_pairs (X : ℕ → ℝ) : inter (pairs X) = X := by
  funext p
  unfold inter pairs
  split_ifs with h
  · show X (2 * (p / 2)) = X p
    rw [show 2 * (p / 2) = p by omega]
  · show X (2 * (p / 2) + 1) = X p
    rw [show 2 * (p / 2) + 1 = p by omega]

theorem inter_re (Z : ℕ → ℂ) (k : ℕ) : inter Z (2 * k) = (Z k).re := by
  unfold inter
  rw [if_pos (by omega), show 2 * k / 2 = k by omega]

theorem inter_im (Z : ℕ → ℂ) (k : ℕ) : inter Z (2 * k + 1) = (Z k).im := by
  unfold inter
  rw [if_neg (by omega), show (2 * k + 1) / 2 = k by omega]

theorem split_ok {L M n : ℕ} (hL : 2 * n ≤ L) (hM : n ≤ M) (Z : ℕ → ℂ) (B : ℕ → ℝ) :
    forN n splitStep (vec L (inter Z), vec M B) =
      .ok (vec L (fun k => if k < n then (Z k).re else inter Z k), vec M (fun k => if k < n then (Z k).im else B k)) := by
  have := forN_trace (n := n) (f := splitStep) (fun i => (vec L (fun k => if k < i then (Z k).re else inter Z k),
    vec M (fun k => if k < i then (Z k).im else B k))) ?_
  · have e : (vec L (fun k => if k < 0 then (Z k).re else inter Z k), vec M (fun k => if k < 0 then (Z k).im else B k)) =
        (vec L (inter Z), vec M B) := by simp
    rw [← e]
    exact this
  · intro i hi
    unfold splitStep
    simp only
    rw [aget_vec _ (by omega), ok_bind, aset_vec _ (by omega), ok_bind, aget_vec _ (by omega), ok_bind, aset_vec _ (by omega),
      ok_bind]
    have e1 : inter Z (i * 2) = (Z i).re := by rw [Nat.mul_comm, inter_re]
    have e2 : inter Z (i * 2 + 1) = (Z i).im := by rw [Nat.mul_comm, inter_im]
    congr 2
    · apply vec_congr
      intro k _
      rw [if_neg (show ¬ i * 2 < i by omega), e1]
      by_cases h : k = i
      · rw [if_pos h, if_pos (by omega), h]
      · rw [if_neg h]
        split_ifs <;> first | rfl | omega
    · apply vec_congr
      intro k _
      rw [if_neg (show ¬ i * 2 + 1 = i by omega), if_neg (show ¬ i * 2 + 1 < i by omega), e2]
      by_cases h : k = i
      · rw [if_pos h, if_pos (by omega), h]
      · rw [if_neg h]
        split_ifs <;> first | rfl | omega

theorem copyInto_ok {F : Type} {L M n a c : ℕ} (hL : a + n ≤ L) (hM : c + n ≤ M) (X : ℕ → F) (B : ℕ → F) :
    copyInto (vec L X) a (vec M B) c n = .ok (vec L (fun k => if a ≤ k ∧ k < a + n then B (c + (k - a)) else X k)) := by
  unfold copyInto
  have := forN_trace (n := n) (f := fun i d => do
    let v ← aget (vec M B) (c + i : ℕ)
    aset d (a + i : ℕ) v) (fun i => vec L (fun k => if a ≤ k ∧ k < a + i then B (c + (k - a)) else X k)) ?_
  · have e : vec L (fun k => if a ≤ k ∧ k < a + 0 then B (c + (k - a)) else X k) = vec L X := by
      apply vec_congr
      intro k _
      rw [if_neg (by omega)]
    rw [← e]
    exact this
  · intro i hi
    rw [aget_vec _ (by omega), ok_bind, aset_vec _ (by omega)]
    congr 1
    apply vec_congr
    intro k _
    by_cases h : k = a + i
    · rw [if_pos h, if_pos (by omega), h, show a + i - a = i by omega]
    · rw [if_neg h]
      split_ifs <;> first | rfl | omega

theorem vec_append {F : Type} {a b c : ℕ} (X Y Z : ℕ → F) :
    vec a X ++ vec b Y ++ vec c Z =
      vec (a + b + c) (fun k => if k < a then X k else if k < a + b then Y (k - a) else Z (k - (a + b))) := by
  apply eq_vec
  · rw [List.length_append, List.length_append, vec_length, vec_length, vec_length]
  · intro i hi
    have hl : (vec a X ++ vec b Y).length = a + b := by rw [List.length_append, vec_length, vec_length]
    by_cases h1 : i < a
    · rw [if_pos h1, List.getElem?_append_left (by omega), List.getElem?_append_left (by rw [vec_length]; omega), vec_get _ h1]
    · rw [if_neg h1]
      by_cases h2 : i < a + b
      · rw [if_pos h2, List.getElem?_append_left (by omega), List.getElem?_append_right (by rw [vec_length]; omega), vec_length,
          vec_get _ (by omega)]
      · rw [if_neg h2, List.getElem?_append_right (by omega), hl, vec_get _ (by omega)]

theorem vec_take {F : Type} {L n : ℕ} (h : n ≤ L) (X : ℕ → F) : (vec L X).take n = vec n X := by
  apply eq_vec
  · rw [List.length_take, vec_length]; omega
  · intro i hi
    rw [List.getElem?_take_of_lt hi, vec_get _ (by omega)]

theorem vec_drop {F : Type} {L n : ℕ} (X : ℕ → F) : (vec L X).drop n = vec (L - n) (fun i => X (n + i)) := by
  apply eq_vec
  · rw [List.length_drop, vec_length]
  · intro i hi
    rw [List.getElem?_drop, vec_get _ (by omega)]

theorem onHalves_ok {L k : ℕ} (hL : 2 * 2 ^ k ≤ L) (forward : Bool) (X : ℕ → ℝ) :
    onHalves realOps (made realOps k) forward (vec L X) =
      .ok (vec L (fun i =>
        if i < 2 ^ k then (trans forward (2 ^ k) (fun j => ⟨X j, X (2 ^ k + j)⟩) i).re
        else if i < 2 * 2 ^ k then (trans forward (2 ^ k) (fun j => ⟨X j, X (2 ^ k + j)⟩) (i - 2 ^ k)).im else X i)) := by
  unfold onHalves
  rw [show (made realOps k).n = 2 ^ k from rfl, vec_take (by omega), vec_drop, vec_take (by omega), vec_drop]
  have e : (vec (2 ^ k) X, vec (2 ^ k) (fun i => X (2 ^ k + i))) = cx (2 ^ k) (fun j => ⟨X j, X (2 ^ k + j)⟩) := rfl
  rw [e, complex2_ok, ok_bind]
  congr 1
  unfold cx
  simp only
  rw [vec_append, show 2 ^ k + 2 ^ k + (L - (2 ^ k + 2 ^ k)) = L by omega]
  apply vec_congr
  intro i _
  split_ifs <;> first | rfl | omega | (congr 1; omega)

theorem merge_ok {F : Type} {L M n : ℕ} (hL : 2 * n ≤ L) (hM : n ≤ M) (X B : ℕ → F) (hn : 1 ≤ n) :
    forN (n - 1) (mergeStep n (vec M B)) (vec L X) =
      .ok (vec L (fun p => if 2 ≤ p ∧ p < 2 * n then (if p % 2 = 0 then X (p / 2) else B (p / 2)) else X p)) := by
  have := forN_trace (n := n - 1) (f := mergeStep n (vec M B)) (fun i => vec L (fun p =>
    if 2 * (n - i) ≤ p ∧ p < 2 * n then (if p % 2 = 0 then X (p / 2) else B (p / 2)) else X p)) ?_
  · have e : vec L (fun p => if 2 * (n - 0) ≤ p ∧ p < 2 * n then (if p % 2 = 0 then X (p / 2) else B (p / 2)) else X p) =
        vec L X := by
      apply vec_congr
      intro k _
      rw [if_neg (by omega)]
    rw [← e, this, show n - (n - 1) = 1 by omega]
  · intro i hi
    unfold mergeStep
    simp only
    rw [aget_vec _ (by omega), ok_bind, aset_vec _ (by omega), ok_bind, aget_vec _ (by omega), ok_bind, aset_vec _ (by omega),
      if_neg (by omega)]
    congr 1
    apply vec_congr
    intro p _
    by_cases h1 : p = (n - 1 - i) * 2 + 1
    · rw [if_pos h1, if_pos (by omega), if_neg (by omega), show p / 2 = n - 1 - i by omega]
    · rw [if_neg h1]
      by_cases h2 : p = (n - 1 - i) * 2
      · rw [if_pos h2, if_pos (by omega), if_pos (by omega), show p / 2 = n - 1 - i by omega]
      · rw [if_neg h2]
        by_cases h3 : 2 * (n - i) ≤ p ∧ p < 2 * n
        · rw [if_pos h3, if_pos (show 2 * (n - (i + 1)) ≤ p ∧ p < 2 * n by omega)]
        · rw [if_neg h3, if_neg (show ¬ (2 * (n - (i + 1)) ≤ p ∧ p < 2 * n) by omega)]

/-- The complex transform. -/
theorem complexFFT_ok {L M k : ℕ} {size bufSize : Int} (hs : size = ((2 ^ k : ℕ) : Int) * 2)
    (hb : ((2 ^ k : ℕ) : Int) ≤ bufSize) (hL : 2 * 2 ^ k ≤ L) (hM : 2 ^ k ≤ M) (forward : Bool) (Z : ℕ → ℂ) (B : ℕ → ℝ) :
    complexFFT realOps (made realOps k) (vec L (inter Z)) size forward (vec M B) bufSize =
      .ok (vec L (inter (fun i => if i < 2 ^ k then trans forward (2 ^ k) Z i else Z i)),
        vec M (fun i => if i < 2 ^ k then (trans forward (2 ^ k) Z i).im else B i)) := by
  have hpos : 1 ≤ 2 ^ k := Nat.pow_pos (by omega)
  unfold complexFFT
  rw [show (made realOps k).n = 2 ^ k from rfl, decide_eq_true hs, cassert_true, ok_bind, decide_eq_true hb, cassert_true,
    ok_bind, split_ok hL hM, ok_bind]
  simp only
  rw [copyInto_ok (by omega) (by omega), ok_bind, onHalves_ok hL, ok_bind, copyInto_ok (by omega) (by omega), ok_bind]
  have eT : trans forward (2 ^ k) (fun j => (⟨if 2 ^ k ≤ j ∧ j < 2 ^ k + 2 ^ k then
        (if 0 + (j - 2 ^ k) < 2 ^ k then (Z (0 + (j - 2 ^ k))).im else B (0 + (j - 2 ^ k)))
          else if j < 2 ^ k then (Z j).re else inter Z j,
      if 2 ^ k ≤ 2 ^ k + j ∧ 2 ^ k + j < 2 ^ k + 2 ^ k then
        (if 0 + (2 ^ k + j - 2 ^ k) < 2 ^ k then (Z (0 + (2 ^ k + j - 2 ^ k))).im else B (0 + (2 ^ k + j - 2 ^ k)))
          else if 2 ^ k + j < 2 ^ k then (Z (2 ^ k + j)).re else inter Z (2 ^ k + j)⟩ : ℂ)) =
      trans forward (2 ^ k) Z := by
    have hj : ∀ j, j < 2 ^ k → (⟨if 2 ^ k ≤ j ∧ j < 2 ^ k + 2 ^ k then
        (if 0 + (j - 2 ^ k) < 2 ^ k then (Z (0 + (j - 2 ^ k))).im else B (0 + (j - 2 ^ k)))
          else if j < 2 ^ k then (Z j).re else inter Z j,
      if 2 ^ k ≤ 2 ^ k + j ∧ 2 ^ k + j < 2 ^ k + 2 ^ k then
        (if 0 + (2 ^ k + j - 2 ^ k) < 2 ^ k then (Z (0 + (2 ^ k + j - 2 ^ k))).im else B (0 + (2 ^ k + j - 2 ^ k)))
          else if 2 ^ k + j < 2 ^ k then (Z (2 ^ k + j)).re else inter Z (2 ^ k + j)⟩ : ℂ) = Z j := by
      intro j hj
      rw [if_neg (by omega), if_pos hj, if_pos (by omega), if_pos (by omega), show 0 + (2 ^ k + j - 2 ^ k) = j by omega]
    funext i
    unfold trans
    cases forward
    · simp only [Bool.false_eq_true, if_false]
      unfold idft
      apply Finset.sum_congr rfl
      intro j h
      exact congrArg (· * _) (hj j (Finset.mem_range.mp h))
    · simp only [if_true]
      exact dft_congr hj i
  rw [eT, merge_ok hL hM _ _ hpos, ok_bind]
  generalize trans forward (2 ^ k) Z = T
  rw [show (0 : Int) = ((0 : ℕ) : Int) from rfl, aget_vec _ (by omega), ok_bind, show (1 : Int) = ((1 : ℕ) : Int) from rfl,
    aset_vec _ (by omega), ok_bind]
  congr 2
  · apply vec_congr
    intro p _
    unfold inter
    simp only
    by_cases h1 : p = 1
    · subst h1
      simp [hpos]
    · rw [if_neg h1]
      by_cases h2 : 2 ≤ p ∧ p < 2 * 2 ^ k
      · rw [if_pos h2]
        have : p / 2 < 2 ^ k := by omega
        have e : 2 ^ k + (p / 2 - 0) - 2 ^ k = p / 2 := by omega
        by_cases hp : p % 2 = 0
        · rw [if_pos hp, if_pos hp, if_pos this, if_pos this]
        · rw [if_neg hp, if_neg hp, if_pos (by omega), if_neg (by omega), if_pos (by omega), if_pos this, e]
      · rw [if_neg h2]
        by_cases h0 : p = 0
        · subst h0
          rw [if_pos (by omega), if_pos (by omega), if_pos (by omega)]
        · rw [if_neg (show ¬ p < 2 ^ k by omega), if_neg (show ¬ p < 2 * 2 ^ k by omega),
            if_neg (show ¬ (2 ^ k ≤ p ∧ p < 2 ^ k + 2 ^ k) by omega), if_neg (show ¬ p < 2 ^ k by omega),
            if_neg (show ¬ p / 2 < 2 ^ k by omega)]
  · apply vec_congr
    intro i _
    by_cases h : i < 2 ^ k
    · rw [if_pos (by omega), if_neg (by omega), if_pos (by omega), if_pos h, show 2 ^ k + (i - 0) - 2 ^ k = i by omega]
    · rw [if_neg (by omega), if_neg h, if_neg h]

/-! ## The step between the complex and the real transform -/

/-- One element replaced. -/
def upd (k : ℕ) (u : ℂ) (Z : ℕ → ℂ) : ℕ → ℂ := fun i => if i = k then u else Z i

theorem upd_same (k : ℕ) (u : ℂ) (Z : ℕ → ℂ) : upd k u Z k = u := if_pos rfl

theorem upd_other {k i : ℕ} (u : ℂ) (Z : ℕ → ℂ) (h : i ≠ k) : upd k u Z i = Z i := if_neg h

theorem upd_upd (k : ℕ) (u v : ℂ) (Z : ℕ → ℂ) : upd k v (upd k u Z) = upd k v Z := by
  funext i
  unfold upd
  split_ifs <;> rfl

theorem get_re {L k : ℕ} (h : 2 * k + 1 < L) (Z : ℕ → ℂ) : aget (vec L (inter Z)) ((2 * k : ℕ) : Int) = .ok (Z k).re := by
  rw [aget_vec _ (by omega), inter_re]

theorem get_im {L k : ℕ} (h : 2 * k + 1 < L) (Z : ℕ → ℂ) :
    aget (vec L (inter Z)) ((2 * k + 1 : ℕ) : Int) = .ok (Z k).im := by
  rw [aget_vec _ (by omega), inter_im]

theorem set_both {L k : ℕ} (h : 2 * k + 1 < L) (Z : ℕ → ℂ) (a b : ℝ) :
    ∃ x, aset (vec L (inter Z)) ((2 * k : ℕ) : Int) a = .ok x ∧
      aget x ((2 * k + 1 : ℕ) : Int) = .ok (Z k).im ∧
      aset x ((2 * k + 1 : ℕ) : Int) b = .ok (vec L (inter (upd k ⟨a, b⟩ Z))) := by
  refine ⟨_, aset_vec _ (by omega) _, ?_, ?_⟩
  · rw [aget_vec _ (by omega), if_neg (by omega), inter_im]
  · rw [aset_vec _ (by omega)]
    congr 1
    apply vec_congr
    intro p _
    unfold inter upd
    by_cases h1 : p = 2 * k + 1
    · rw [if_pos h1, if_neg (by omega), if_pos (by omega)]
    · rw [if_neg h1]
      by_cases h2 : p = 2 * k
      · rw [if_pos h2, if_pos (by omega), if_pos (by omega)]
      · rw [if_neg h2, if_neg (show ¬ p / 2 = k by omega)]

theorem addProduct_ok {L k : ℕ} (h : 2 * k + 1 < L) (Z : ℕ → ℂ) (a b : ℂ) :
    addProduct realOps a.re a.im b.re b.im (2 * k) (vec L (inter Z)) = .ok (vec L (inter (upd k (Z k + b * a) Z))) := by
  unfold addProduct
  rw [get_re h, ok_bind]
  obtain ⟨x, h1, h2, h3⟩ := set_both h Z (realOps.add (Z k).re (realOps.sub (realOps.mul b.re a.re) (realOps.mul b.im a.im)))
    (realOps.add (Z k).im (realOps.add (realOps.mul b.re a.im) (realOps.mul b.im a.re)))
  rw [h1, ok_bind, h2, ok_bind, h3]
  congr 5

/-- `C_k` of the comment in the code. -/
noncomputable def Ck (n : ℕ) (B : ℕ → ℂ) (k : ℕ) : ℂ := (B k + (starRingEnd ℂ) (B (n - k))) / 2

/-- `D_k`. -/
noncomputable def Dk (n : ℕ) (B : ℕ → ℂ) (k : ℕ) : ℂ := -I * (B k - (starRingEnd ℂ) (B (n - k))) / 2

theorem Ck_dash {n k : ℕ} (h : k ≤ n) (B : ℕ → ℂ) : Ck n B (n - k) = (starRingEnd ℂ) (Ck n B k) := by
  unfold Ck
  rw [show n - (n - k) = k by omega, map_div₀, map_add, Complex.conj_conj, add_comm, map_ofNat]

theorem Dk_dash {n k : ℕ} (h : k ≤ n) (B : ℕ → ℂ) : Dk n B (n - k) = (starRingEnd ℂ) (Dk n B k) := by
  unfold Dk
  rw [show n - (n - k) = k by omega, map_div₀, map_mul, map_sub, map_neg, Complex.conj_conj, Complex.conj_I, map_ofNat]
  ring

theorem realStep_ok {L n i : ℕ} (hL : 2 * n ≤ L) (hi : 2 * (i + 1) ≤ n) (Z : ℕ → ℂ) (r w : ℂ) :
    realStep realOps n r.re r.im i (vec L (inter Z), w.re, w.im) =
      .ok (vec L (inter (fun p =>
        if p = i + 1 then Ck n Z (i + 1) + w * r * Dk n Z (i + 1)
        else if p = n - (i + 1) then
          (starRingEnd ℂ) (Ck n Z (i + 1)) - (starRingEnd ℂ) (w * r) * (starRingEnd ℂ) (Dk n Z (i + 1))
        else Z p)), (w * r).re, (w * r).im) := by
  unfold realStep
  have ew : complexMul realOps r.re r.im w.re w.im = ((w * r).re, (w * r).im) := by
    unfold complexMul
    simp [realOps]
  simp only
  rw [ew]
  generalize w * r = v
  have e2 : 2 * n - 2 * (i + 1) = 2 * (n - (i + 1)) := by omega
  rw [e2, get_re (by omega), ok_bind, get_re (by omega), ok_bind, get_im (by omega), ok_bind, get_im (by omega), ok_bind]
  generalize hk : i + 1 = k at *
  have hC : (⟨realOps.half (realOps.add (Z k).re (Z (n - k)).re), realOps.half (realOps.sub (Z k).im (Z (n - k)).im)⟩ : ℂ) =
      Ck n Z k := by
    unfold Ck
    apply Complex.ext <;> simp [realOps] <;> ring
  have hD : (⟨realOps.half (realOps.add (Z k).im (Z (n - k)).im),
      realOps.neg (realOps.half (realOps.sub (Z k).re (Z (n - k)).re))⟩ : ℂ) = Dk n Z k := by
    unfold Dk
    apply Complex.ext <;> simp [realOps] <;> ring
  have hCr : realOps.half (realOps.add (Z k).re (Z (n - k)).re) = (Ck n Z k).re := by rw [← hC]
  have hCi : realOps.half (realOps.sub (Z k).im (Z (n - k)).im) = (Ck n Z k).im := by rw [← hC]
  have hDr : realOps.half (realOps.add (Z k).im (Z (n - k)).im) = (Dk n Z k).re := by rw [← hD]
  have hDi : realOps.neg (realOps.half (realOps.sub (Z k).re (Z (n - k)).re)) = (Dk n Z k).im := by rw [← hD]
  rw [hCr, hCi, hDr, hDi]
  generalize Ck n Z k = C
  generalize Dk n Z k = D
  obtain ⟨x, h1, -, h3⟩ := set_both (L := L) (k := k) (by omega) Z C.re C.im
  rw [h1, ok_bind, h3, ok_bind, addProduct_ok (by omega), ok_bind, upd_same, upd_upd]
  unfold dashStep
  by_cases hd : n - k ≠ k
  · rw [if_pos hd]
    obtain ⟨y, g1, -, g3⟩ := set_both (L := L) (k := n - k) (by omega) (upd k (⟨C.re, C.im⟩ + v * D) Z) C.re
      (realOps.neg C.im)
    rw [g1, ok_bind, g3, ok_bind]
    have hp := addProduct_ok (L := L) (k := n - k) (by omega)
      (upd (n - k) ⟨C.re, realOps.neg C.im⟩ (upd k (⟨C.re, C.im⟩ + v * D) Z)) ((starRingEnd ℂ) D) (-(starRingEnd ℂ) v)
    have a1 : ((starRingEnd ℂ) D).re = D.re := rfl
    have a2 : ((starRingEnd ℂ) D).im = realOps.neg D.im := rfl
    have a3 : (-(starRingEnd ℂ) v).re = realOps.neg v.re := rfl
    have a4 : (-(starRingEnd ℂ) v).im = v.im := by simp
    rw [a1, a2, a3, a4] at hp
    rw [hp, ok_bind]
    congr 2
    apply vec_congr
    intro p _
    congr 1
    funext q
    rw [upd_same]
    unfold upd
    by_cases h1 : q = k
    · rw [if_pos h1, if_neg (by omega), if_neg (by omega), if_pos h1]
    · rw [if_neg h1, if_neg h1]
      by_cases h2 : q = n - k
      · rw [if_pos h2, if_pos h2]
        apply Complex.ext <;> simp [realOps] <;> ring
      · rw [if_neg h2, if_neg h2, if_neg h2]
  · rw [if_neg hd, ok_bind]
    congr 2
    apply vec_congr
    intro p _
    congr 1
    funext q
    unfold upd
    by_cases h1 : q = k
    · rw [if_pos h1, if_pos h1]
    · rw [if_neg h1, if_neg h1, if_neg (by omega)]

/-- The loop. -/
theorem realLoop_ok {L n : ℕ} (hL : 2 * n ≤ L) (B : ℕ → ℂ) (r : ℂ) (W : ℕ → ℂ)
    (hW : ∀ i, W (i + 1) = W i * r) (hdash : ∀ k, k ≤ n → W (n - k) = -(starRingEnd ℂ) (W k)) :
    forN (n / 2) (realStep realOps n r.re r.im) (vec L (inter B), (W 0).re, (W 0).im) =
      .ok (vec L (inter (fun k => if 1 ≤ k ∧ k < n then Ck n B k + W k * Dk n B k else B k)),
        (W (n / 2)).re, (W (n / 2)).im) := by
  let S : ℕ → ℕ → ℂ := fun i k => if (1 ≤ k ∧ k ≤ i) ∨ (n - i ≤ k ∧ k < n) then Ck n B k + W k * Dk n B k else B k
  have := forN_trace (n := n / 2) (f := realStep realOps n r.re r.im)
    (fun i => (vec L (inter (S i)), (W i).re, (W i).im)) ?_
  · have e0 : S 0 = B := by
      funext k
      show (if (1 ≤ k ∧ k ≤ 0) ∨ (n - 0 ≤ k ∧ k < n) then _ else B k) = B k
      rw [if_neg (by omega)]
    have e1 : S (n / 2) = fun k => if 1 ≤ k ∧ k < n then Ck n B k + W k * Dk n B k else B k := by
      funext k
      show (if (1 ≤ k ∧ k ≤ n / 2) ∨ (n - n / 2 ≤ k ∧ k < n) then _ else B k) = _
      by_cases h : 1 ≤ k ∧ k < n
      · rw [if_pos (by omega), if_pos h]
      · rw [if_neg (by omega), if_neg h]
    rw [e0, e1] at this
    exact this
  · intro i hi
    rw [realStep_ok hL (by omega)]
    have s1 : S i (i + 1) = B (i + 1) := if_neg (by omega)
    have s2 : S i (n - (i + 1)) = B (n - (i + 1)) := if_neg (by omega)
    have hC : Ck n (S i) (i + 1) = Ck n B (i + 1) := by unfold Ck; rw [s1, s2]
    have hD : Dk n (S i) (i + 1) = Dk n B (i + 1) := by unfold Dk; rw [s1, s2]
    rw [hC, hD, ← hW]
    congr 2
    apply vec_congr
    intro p _
    congr 1
    funext k
    show _ = if (1 ≤ k ∧ k ≤ i + 1) ∨ (n - (i + 1) ≤ k ∧ k < n) then _ else B k
    by_cases h1 : k = i + 1
    · rw [if_pos h1, if_pos (by omega), h1]
    · rw [if_neg h1]
      by_cases h2 : k = n - (i + 1)
      · rw [if_pos h2, if_pos (by omega), h2, Ck_dash (by omega), Dk_dash (by omega), hdash _ (by omega)]
        ring
      · rw [if_neg h2]
        show (if (1 ≤ k ∧ k ≤ i) ∨ (n - i ≤ k ∧ k < n) then _ else B k) = _
        by_cases h3 : (1 ≤ k ∧ k ≤ i) ∨ (n - i ≤ k ∧ k < n)
        · rw [if_pos h3, if_pos (by omega)]
        · rw [if_neg h3, if_neg (by omega)]

/-- The factor for frequency `k`. -/
noncomputable def factor (forward : Bool) (n k : ℕ) : ℂ :=
  if forward then root (2 * n) k else -(starRingEnd ℂ) (root (2 * n) k)

/-- The result of the middle part. -/
noncomputable def mid (forward : Bool) (n : ℕ) (B : ℕ → ℂ) (k : ℕ) : ℂ :=
  if k = 0 then (if forward then ⟨(B 0).re + (B 0).im, (B 0).re - (B 0).im⟩
    else ⟨((B 0).re + (B 0).im) / 2, ((B 0).re - (B 0).im) / 2⟩)
  else if k < n then Ck n B k + factor forward n k * Dk n B k else B k

theorem factor_dash (forward : Bool) {n k : ℕ} (hn : n ≠ 0) (h : k ≤ n) :
    factor forward n (n - k) = -(starRingEnd ℂ) (factor forward n k) := by
  have e : root (2 * n) (n - k) = -(starRingEnd ℂ) (root (2 * n) k) := by
    have h1 : root (2 * n) k * root (2 * n) (n - k) = -1 := by
      rw [← root_add, show k + (n - k) = n by omega, root_half hn]
    have h2 := root_conj (2 * n) k
    calc root (2 * n) (n - k) = root (2 * n) k * (starRingEnd ℂ) (root (2 * n) k) * root (2 * n) (n - k) := by rw [h2, one_mul]
      _ = (starRingEnd ℂ) (root (2 * n) k) * (root (2 * n) k * root (2 * n) (n - k)) := by ring
      _ = _ := by rw [h1]; ring
  unfold factor
  cases forward
  · simp only [Bool.false_eq_true, if_false]
    rw [e]
  · simp only [if_true]
    rw [e]

theorem middle_ok {L k : ℕ} (hL : 2 * 2 ^ k ≤ L) (forward : Bool) (B : ℕ → ℂ) :
    middle realOps (made realOps k) forward (vec L (inter B)) = .ok (vec L (inter (mid forward (2 ^ k) B))) := by
  have hpos : 1 ≤ 2 ^ k := Nat.pow_pos (by omega)
  unfold middle
  simp only
  rw [show (made realOps k).n = 2 ^ k from rfl]
  generalize hn : 2 ^ k = n at *
  have hr : ∃ r : ℂ, r.re = realOps.cos (realOps.rootAng (n * 2) (if forward then -1 else 1)) ∧
      r.im = realOps.sin (realOps.rootAng (n * 2) (if forward then -1 else 1)) ∧
      ∀ i, factor forward n (i + 1) = factor forward n i * r := by
    have e : (2 : ℝ) * Real.pi / ((n * 2 : ℕ) : ℝ) = ((1 : ℕ) : ℝ) * (2 * Real.pi) / ((2 * n : ℕ) : ℝ) := by
      push_cast
      ring
    cases forward
    · refine ⟨(starRingEnd ℂ) (root (2 * n) 1), ?_, ?_, ?_⟩
      · rw [Complex.conj_re, root_re, ← e]
        simp [realOps]
      · rw [Complex.conj_im, root_im, ← e]
        simp [realOps]
      · intro i
        unfold factor
        simp only [Bool.false_eq_true, if_false]
        rw [root_add, map_mul]
        ring
    · refine ⟨root (2 * n) 1, ?_, ?_, ?_⟩
      · rw [root_re, ← e]
        simp [realOps]
      · rw [root_im, ← e]
        simp [realOps]
      · intro i
        unfold factor
        simp only [if_true]
        rw [root_add]
  obtain ⟨r, hre, him, hstep⟩ := hr
  have w0 : factor forward n 0 = if forward then 1 else -1 := by
    unfold factor
    rw [root_zero]
    cases forward <;> simp
  have hw1 : realOps.ofInt (-(if forward then -1 else 1)) = (factor forward n 0).re := by
    rw [w0]
    cases forward <;> simp [realOps]
  have hw2 : realOps.ofInt 0 = (factor forward n 0).im := by
    rw [w0]
    cases forward <;> simp [realOps]
  rw [← hre, ← him, hw1, hw2, realLoop_ok hL B r (factor forward n) hstep (fun k hk => factor_dash forward (by omega) hk), ok_bind]
  unfold zeroStep
  simp only
  have g0 := get_re (L := L) (k := 0) (by omega)
    (fun k => if 1 ≤ k ∧ k < n then Ck n B k + factor forward n k * Dk n B k else B k)
  have g1 := get_im (L := L) (k := 0) (by omega)
    (fun k => if 1 ≤ k ∧ k < n then Ck n B k + factor forward n k * Dk n B k else B k)
  simp only [Nat.mul_zero, Nat.zero_add] at g0 g1
  rw [if_neg (by omega)] at g0 g1
  rw [show (0 : Int) = ((0 : ℕ) : Int) from rfl, show (1 : Int) = ((1 : ℕ) : Int) from rfl, g0, ok_bind, g1, ok_bind]
  obtain ⟨x, h1, -, h3⟩ := set_both (L := L) (k := 0) (by omega)
    (fun k => if 1 ≤ k ∧ k < n then Ck n B k + factor forward n k * Dk n B k else B k)
    (if forward then realOps.add (B 0).re (B 0).im else realOps.div2 (realOps.add (B 0).re (B 0).im))
    (if forward then realOps.sub (B 0).re (B 0).im else realOps.div2 (realOps.sub (B 0).re (B 0).im))
  simp only [Nat.mul_zero, Nat.zero_add] at h1 h3
  rw [h1, ok_bind, h3]
  congr 2
  congr 1
  funext q
  unfold mid upd
  simp only
  by_cases hq : q = 0
  · rw [if_pos hq, if_pos hq]
    cases forward <;> rfl
  · rw [if_neg hq, if_neg hq]
    by_cases hqn : q < n
    · rw [if_pos (by omega), if_pos hqn]
    · rw [if_neg (by omega), if_neg hqn]

theorem doubleAll_ok {L n : ℕ} (hL : 2 * n ≤ L) (Z : ℕ → ℂ) :
    doubleAll realOps (n * 2) (vec L (inter Z)) = .ok (vec L (inter (fun k => if k < n then 2 * Z k else Z k))) := by
  unfold doubleAll
  have := forN_trace (n := n * 2) (f := fun i x => do
    let v ← aget x (i : Int)
    aset x (i : Int) (realOps.twice v)) (fun i => vec L (fun p => if p < i then 2 * inter Z p else inter Z p)) ?_
  · have e : vec L (fun p => if p < 0 then 2 * inter Z p else inter Z p) = vec L (inter Z) := by
      apply vec_congr
      intro p _
      rw [if_neg (by omega)]
    rw [← e, this]
    congr 1
    apply vec_congr
    intro p _
    unfold inter
    simp only
    by_cases h : p / 2 < n
    · rw [if_pos h, if_pos (show p < n * 2 by omega)]
      split_ifs <;> simp
    · rw [if_neg h, if_neg (show ¬ p < n * 2 by omega)]
  · intro i hi
    rw [aget_vec _ (by omega), ok_bind, aset_vec _ (by omega)]
    congr 1
    apply vec_congr
    intro p _
    rw [if_neg (show ¬ i < i by omega)]
    by_cases h : p = i
    · rw [if_pos h, if_pos (by omega), h]
      simp only [realOps]
      norm_num
      ring
    · rw [if_neg h]
      split_ifs <;> first | rfl | omega

end Verif.Srfft
