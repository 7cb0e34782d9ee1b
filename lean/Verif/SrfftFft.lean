import Verif.SrfftLemmas
import Verif.SrfftDft
import Mathlib.Data.Real.Sqrt

/-!
# The recursion in exact arithmetic
-/

namespace Verif.Srfft

open Complex

/-- Exact arithmetic. -/
noncomputable def realOps : Ops ℝ where
  ofInt := fun n => (n : ℝ)
  add := fun a b => a + b
  sub := fun a b => a - b
  mul := fun a b => a * b
  neg := fun a => -a
  half := fun a => 0.5 * a
  twice := fun a => a * 2.0
  div2 := fun a => a / 2
  sqhalf := 1 / Real.sqrt 2
  ang := fun n m => n * (2 * Real.pi) / m
  rootAng := fun n sign => 2 * Real.pi / n * sign
  cos := Real.cos
  sin := Real.sin

/-- The arrays with the real and the imaginary parts of `Z`. -/
def cx (L : ℕ) (Z : ℕ → ℂ) : Cx ℝ := (vec L (fun i => (Z i).re), vec L (fun i => (Z i).im))

theorem cx_congr {L : ℕ} {Z Y : ℕ → ℂ} (h : ∀ i, i < L → Z i = Y i) : cx L Z = cx L Y := by
  unfold cx
  rw [vec_congr (fun i hi => by rw [h i hi]), vec_congr (f := fun i => (Z i).im) (g := fun i => (Y i).im) (fun i hi => by rw [h i hi])]

/-- Two elements replaced. -/
def upd2 (p q : ℕ) (u v : ℂ) (Z : ℕ → ℂ) : ℕ → ℂ := fun k => if k = p then u else if k = q then v else Z k

theorem cx_upd2 {L p q : ℕ} {u v : ℂ} {Z : ℕ → ℂ} {xr xi : List ℝ}
    (hr : xr = vec L (fun k => if k = p then u.re else if k = q then v.re else (Z k).re))
    (hi : xi = vec L (fun k => if k = p then u.im else if k = q then v.im else (Z k).im)) :
    (xr, xi) = cx L (upd2 p q u v Z) := by
  unfold cx upd2
  rw [hr, hi]
  congr 1 <;> apply vec_congr <;> intro k _ <;> split_ifs <;> rfl

theorem butterfly_ok {L p q : ℕ} (hp : p < L) (hq : q < L) (hpq : p ≠ q) (Z : ℕ → ℂ) :
    butterfly realOps p q (cx L Z) = .ok (cx L (upd2 p q (Z p + Z q) (Z p - Z q) Z)) := by
  unfold butterfly
  simp only [cx]
  rw [aget_vec _ hp, ok_bind, aget_vec _ hq, ok_bind, aset_vec _ hq, ok_bind, aset_vec _ hp, ok_bind, aget_vec _ hp, ok_bind,
    aget_vec _ hq, ok_bind, aset_vec _ hq, ok_bind, aset_vec _ hp, ok_bind]
  congr 1
  exact cx_upd2 rfl rfl

theorem cross_ok {L p q : ℕ} (hp : p < L) (hq : q < L) (hpq : p ≠ q) (Z : ℕ → ℂ) :
    cross realOps p q (cx L Z) = .ok (cx L (upd2 p q (Z p - I * Z q) (Z p + I * Z q) Z)) := by
  unfold cross
  simp only [cx]
  rw [aget_vec _ hp, ok_bind, aget_vec _ hq, ok_bind, aget_vec _ hp, ok_bind, aget_vec _ hq, ok_bind, aset_vec _ hp, ok_bind,
    aset_vec _ hq, ok_bind, aset_vec _ hp, ok_bind, aset_vec _ hq, ok_bind]
  congr 1
  apply cx_upd2
  · apply vec_congr
    intro k _
    split_ifs <;> simp [realOps] <;> ring
  · apply vec_congr
    intro k _
    split_ifs with h1 h2 <;> first | omega | simp [realOps]

theorem sqrt_half : 1 / Real.sqrt 2 = Real.sqrt 2 / 2 := by
  rw [div_eq_div_iff (by simp) (by norm_num), one_mul, Real.mul_self_sqrt (by norm_num)]

theorem root_eighth {a : ℕ} (ha : a ≠ 0) : root (8 * a) a = ⟨1 / Real.sqrt 2, -(1 / Real.sqrt 2)⟩ := by
  have h : (a : ℝ) ≠ 0 := Nat.cast_ne_zero.mpr ha
  have e : (a : ℝ) * (2 * Real.pi) / ((8 * a : ℕ) : ℝ) = Real.pi / 4 := by
    push_cast; field_simp; norm_num
  apply Complex.ext
  · rw [root_re, e, Real.cos_pi_div_four, sqrt_half]
  · rw [root_im, e, Real.sin_pi_div_four, sqrt_half]

theorem root_three_eighth {a : ℕ} (ha : a ≠ 0) :
    root (8 * a) (3 * a) = ⟨-(1 / Real.sqrt 2), -(1 / Real.sqrt 2)⟩ := by
  have h4 : root (8 * a) (2 * a) = -I := by
    have := root_quarter (q := 2 * a) (by omega)
    rwa [show 4 * (2 * a) = 8 * a by ring] at this
  rw [show 3 * a = a + 2 * a by ring, root_add, root_eighth ha, h4]
  apply Complex.ext <;> simp

theorem turn8_ok {L p q a : ℕ} (ha : a ≠ 0) (hp : p < L) (hq : q < L) (hpq : p ≠ q) (Z : ℕ → ℂ) :
    turn8 realOps p q (cx L Z) =
      .ok (cx L (upd2 p q (Z p * root (8 * a) a) (Z q * root (8 * a) (3 * a)) Z)) := by
  unfold turn8
  simp only [cx]
  rw [aget_vec _ hp, ok_bind, aget_vec _ hp, ok_bind, aset_vec _ hp, ok_bind, aset_vec _ hp, ok_bind, aget_vec _ hq, ok_bind,
    aget_vec _ hq, ok_bind, aset_vec _ hq, ok_bind, aset_vec _ hq, ok_bind, root_eighth ha, root_three_eighth ha]
  congr 1
  apply cx_upd2
  · apply vec_congr
    intro k _
    split_ifs with h1 h2 h3 h4 <;> first | omega | (simp only [realOps, Complex.mul_re]; try ring)
  · apply vec_congr
    intro k _
    split_ifs with h1 h2 h3 h4 <;> first | omega | (simp only [realOps, Complex.mul_im]; try ring)

theorem turn_ok {L p q m n : ℕ} (hp : p < L) (hq : q < L) (hpq : p ≠ q) (Z : ℕ → ℂ) :
    turn realOps (entry realOps m n) p q (cx L Z) =
      .ok (cx L (upd2 p q (Z p * root m n) (Z q * root m (3 * n)) Z)) := by
  unfold turn entry
  simp only [cx]
  rw [aget_vec _ hp, ok_bind, aget_vec _ hp, ok_bind, aset_vec _ hp, ok_bind, aset_vec _ hp, ok_bind, aget_vec _ hq, ok_bind,
    aget_vec _ hq, ok_bind, aset_vec _ hq, ok_bind, aset_vec _ hq, ok_bind]
  congr 1
  apply cx_upd2
  · apply vec_congr
    intro k _
    split_ifs with h1 h2 h3 h4 <;>
      first | omega | rfl | (simp only [realOps, Complex.mul_re, root_re, root_im]; push_cast; ring)
  · apply vec_congr
    intro k _
    split_ifs with h1 h2 h3 h4 <;>
      first | omega | rfl | (simp only [realOps, Complex.mul_im, root_re, root_im]; push_cast; ring)

/-! ## Loops over pairs -/

/-- A loop that replaces the pairs `(p0 + i, q0 + i)` one after another replaces each by the same function of the
original ones. -/
theorem forN_pairs {σ : Type} {n p0 q0 : ℕ} (g h : ℕ → ℂ → ℂ → ℂ) {f : ℕ → σ → Exec σ} (E : ℕ → (ℕ → ℂ) → σ)
    (hpq : p0 + n ≤ q0)
    (hf : ∀ i, i < n → ∀ Z, f i (E i Z) =
      .ok (E (i + 1) (upd2 (p0 + i) (q0 + i) (g i (Z (p0 + i)) (Z (q0 + i))) (h i (Z (p0 + i)) (Z (q0 + i))) Z)))
    (Z : ℕ → ℂ) :
    forN n f (E 0 Z) = .ok (E n (fun k =>
      if p0 ≤ k ∧ k < p0 + n then g (k - p0) (Z k) (Z (q0 + (k - p0)))
      else if q0 ≤ k ∧ k < q0 + n then h (k - q0) (Z (p0 + (k - q0))) (Z k) else Z k)) := by
  let S : ℕ → ℕ → ℂ := fun i k =>
    if p0 ≤ k ∧ k < p0 + i then g (k - p0) (Z k) (Z (q0 + (k - p0)))
    else if q0 ≤ k ∧ k < q0 + i then h (k - q0) (Z (p0 + (k - q0))) (Z k) else Z k
  have h0 : Z = S 0 := by
    funext k
    show Z k = if p0 ≤ k ∧ k < p0 + 0 then _ else if q0 ≤ k ∧ k < q0 + 0 then _ else Z k
    rw [if_neg (by omega), if_neg (by omega)]
  have := forN_trace (n := n) (f := f) (fun i => E i (S i)) ?_
  · rw [← h0] at this
    exact this
  · intro i hi
    rw [hf i hi]
    congr 2
    have e1 : S i (p0 + i) = Z (p0 + i) := by
      show (if p0 ≤ p0 + i ∧ p0 + i < p0 + i then _ else if q0 ≤ p0 + i ∧ p0 + i < q0 + i then _ else _) = _
      rw [if_neg (by omega), if_neg (by omega)]
    have e2 : S i (q0 + i) = Z (q0 + i) := by
      show (if p0 ≤ q0 + i ∧ q0 + i < p0 + i then _ else if q0 ≤ q0 + i ∧ q0 + i < q0 + i then _ else _) = _
      rw [if_neg (by omega), if_neg (by omega)]
    rw [e1, e2]
    funext k
    show (if k = p0 + i then _ else if k = q0 + i then _ else
        if p0 ≤ k ∧ k < p0 + i then _ else if q0 ≤ k ∧ k < q0 + i then _ else _) =
      if p0 ≤ k ∧ k < p0 + (i + 1) then _ else if q0 ≤ k ∧ k < q0 + (i + 1) then _ else _
    by_cases h1 : k = p0 + i
    · subst h1
      rw [if_pos rfl, if_pos (by omega), show p0 + i - p0 = i by omega]
    · rw [if_neg h1]
      by_cases h2 : k = q0 + i
      · subst h2
        rw [if_pos rfl, if_neg (by omega), if_pos (by omega), show q0 + i - q0 = i by omega]
      · rw [if_neg h2]
        split_ifs <;> first | rfl | omega

/-! ## The tables -/

theorem tableRow_get {F : Type} (o : Ops F) {a i : ℕ} (ha : 1 ≤ a) (hi : i < 2 * a - 1) (hne : i + 1 ≠ a) :
    (tableRow o (8 * a))[if i < a then i else i - 1]? = some (entry o (8 * a) (i + 1)) := by
  unfold tableRow
  rw [show 8 * a / 4 - 1 = 2 * a - 1 by omega, show 8 * a / 8 = a by omega]
  have e : (List.range (2 * a - 1)).filter (fun i => decide (i + 1 ≠ a)) =
      List.range (a - 1) ++ (List.range (a - 1)).map (fun i => a + i) := by
    rw [show 2 * a - 1 = (a - 1) + (1 + (a - 1)) by omega, List.range_add, List.range_add, List.filter_append]
    congr 1
    · apply List.filter_eq_self.mpr
      intro x hx
      have := List.mem_range.mp hx
      exact decide_eq_true (by omega)
    · rw [List.map_append, List.filter_append]
      have e1 : List.filter (fun i => decide (i + 1 ≠ a)) (List.map (fun x => a - 1 + x) (List.range 1)) = [] := by
        show List.filter _ [a - 1 + 0] = []
        rw [List.filter_cons_of_neg (by simp; omega), List.filter_nil]
      rw [e1, List.nil_append, List.map_map]
      have e2 : List.map ((fun x => a - 1 + x) ∘ fun x => 1 + x) (List.range (a - 1)) =
          List.map (fun i => a + i) (List.range (a - 1)) := by
        apply List.map_congr_left
        intro x _
        show a - 1 + (1 + x) = a + x
        omega
      rw [e2]
      apply List.filter_eq_self.mpr
      intro x hx
      obtain ⟨y, -, rfl⟩ := List.mem_map.mp hx
      exact decide_eq_true (by omega)
  rw [e, List.getElem?_map]
  by_cases hia : i < a
  · rw [if_pos hia, List.getElem?_append_left (by rw [List.length_range]; omega), List.getElem?_range (by omega)]
    rfl
  · rw [if_neg hia, List.getElem?_append_right (by rw [List.length_range]; omega), List.length_range, List.getElem?_map,
      List.getElem?_range (by omega)]
    show some (entry o (8 * a) (a + (i - 1 - (a - 1)) + 1)) = _
    congr 2
    omega

/-- Each of the six tables has as many elements as is allotted to it. -/
theorem tableRow_length {F : Type} (o : Ops F) {a : ℕ} (ha : 1 ≤ a) : (tableRow o (8 * a)).length = 8 * a / 4 - 2 := by
  unfold tableRow
  rw [List.length_map, show 8 * a / 4 - 1 = 2 * a - 1 by omega, show 8 * a / 8 = a by omega]
  have : ((List.range (2 * a - 1)).filter (fun i => decide (i + 1 ≠ a))).length +
      ((List.range (2 * a - 1)).filter (fun i => ! decide (i + 1 ≠ a))).length = 2 * a - 1 := by
    rw [← List.countP_eq_length_filter, ← List.countP_eq_length_filter]
    have := List.length_eq_countP_add_countP (fun i => decide (i + 1 ≠ a)) (l := List.range (2 * a - 1))
    rw [List.length_range] at this
    simpa using this.symm
  have h2 : ((List.range (2 * a - 1)).filter (fun i => ! decide (i + 1 ≠ a))) = [a - 1] := by
    have e : (fun i : ℕ => ! decide (i + 1 ≠ a)) = (fun i => i == a - 1) := by
      funext i
      by_cases h : i + 1 = a
      · rw [decide_eq_false (by omega)]; symm; simp; omega
      · rw [decide_eq_true h]; symm; simp; omega
    rw [e]
    rw [List.filter_beq, List.count_eq_one_of_mem List.nodup_range (List.mem_range.mpr (by omega))]
    rfl
  rw [h2] at this
  simp only [List.length_cons, List.length_nil] at this
  omega

theorem table_get {F : Type} (o : Ops F) {logn l : ℕ} (h : l + 3 ≤ logn) (h4 : 1 ≤ l) :
    rowFor (table o logn) (l + 3) = .ok (tableRow o (8 * 2 ^ l)) := by
  unfold rowFor table
  rw [if_pos (by omega)]
  apply aget_nat
  rw [List.getElem?_map, List.getElem?_range (by omega)]
  show some (tableRow o (2 ^ (l + 3 - 4 + 4))) = _
  rw [show l + 3 - 4 + 4 = l + 3 by omega, Nat.pow_add]
  congr 2
  omega

/-! ## Steps 3 and 4 -/

theorem twiddle_ok {L logn l b : ℕ} (hl : l + 3 ≤ logn) (hb : b + 8 * 2 ^ l ≤ L) (Z : ℕ → ℂ) :
    ∃ row c, rowFor (table realOps logn) (l + 3) = .ok row ∧
      forN (8 * 2 ^ l / 4 - 1) (twiddleStep realOps row (8 * 2 ^ l) b) (cx L Z, 0) =
        .ok (cx L (fun k =>
          if b + 4 * 2 ^ l ≤ k ∧ k < b + 6 * 2 ^ l then Z k * root (8 * 2 ^ l) (k - (b + 4 * 2 ^ l))
          else if b + 6 * 2 ^ l ≤ k ∧ k < b + 8 * 2 ^ l then Z k * root (8 * 2 ^ l) (3 * (k - (b + 6 * 2 ^ l)))
          else Z k), c) := by
  have ha : 1 ≤ 2 ^ l := Nat.pow_pos (by omega)
  obtain ⟨row, hrow, hget⟩ : ∃ row, rowFor (table realOps logn) (l + 3) = .ok row ∧
      ∀ i, i < 2 * 2 ^ l - 1 → i + 1 ≠ 2 ^ l →
        row[if i < 2 ^ l then i else i - 1]? = some (entry realOps (8 * 2 ^ l) (i + 1)) := by
    rcases Nat.eq_zero_or_pos l with rfl | h
    · exact ⟨[], rfl, fun i hi hne => by rw [Nat.pow_zero] at hi hne; omega⟩
    · exact ⟨_, table_get realOps hl h, fun i hi hne => tableRow_get realOps ha hi hne⟩
  refine ⟨row, if 8 * 2 ^ l / 4 - 1 < 2 ^ l then 8 * 2 ^ l / 4 - 1 else 8 * 2 ^ l / 4 - 1 - 1, hrow, ?_⟩
  clear hrow
  generalize hA : 2 ^ l = a at *
  have main := forN_pairs (n := 8 * a / 4 - 1) (p0 := b + 4 * a + 1) (q0 := b + 6 * a + 1)
    (f := twiddleStep realOps row (8 * a) b)
    (fun i z _ => z * root (8 * a) (i + 1)) (fun i _ z => z * root (8 * a) (3 * (i + 1)))
    (fun i Z => (cx L Z, if i < a then i else i - 1)) (by omega) ?_ Z
  · simp only [show (if 0 < a then 0 else 0 - 1) = 0 by split_ifs <;> rfl] at main
    rw [main]
    congr 2
    apply cx_congr
    intro k _
    by_cases h1 : b + 4 * a + 1 ≤ k ∧ k < b + 4 * a + 1 + (8 * a / 4 - 1)
    · rw [if_pos h1, if_pos (by omega), show k - (b + 4 * a + 1) + 1 = k - (b + 4 * a) by omega]
    · rw [if_neg h1]
      by_cases h2 : b + 6 * a + 1 ≤ k ∧ k < b + 6 * a + 1 + (8 * a / 4 - 1)
      · rw [if_pos h2, if_neg (by omega), if_pos (by omega), show k - (b + 6 * a + 1) + 1 = k - (b + 6 * a) by omega]
      · rw [if_neg h2]
        split_ifs with h3 h4
        · rw [show k - (b + 4 * a) = 0 by omega, root_zero, mul_one]
        · rw [show k - (b + 6 * a) = 0 by omega, Nat.mul_zero, root_zero, mul_one]
        · rfl
  · intro i hi Z
    have hp : b + 4 * a + 1 + i < L := by omega
    have hq : b + 6 * a + 1 + i < L := by omega
    have ep : b + 8 * a / 2 + (i + 1) = b + 4 * a + 1 + i := by omega
    have eq : b + 8 * a / 2 + 8 * a / 4 + (i + 1) = b + 6 * a + 1 + i := by omega
    unfold twiddleStep
    rw [show 8 * a / 8 = a by omega, ep, eq]
    by_cases hia : i + 1 = a
    · rw [if_pos hia, turn8_ok (a := a) (by omega) hp hq (by omega), ok_bind]
      simp only
      rw [hia, if_pos (by omega : i < a), if_neg (by omega : ¬ a < a), show a - 1 = i by omega]
    · rw [if_neg hia]
      simp only
      rw [aget_nat (hget i (by omega) hia), ok_bind, turn_ok hp hq (by omega), ok_bind]
      congr 2
      split_ifs <;> omega

/-! ## The recursion -/

/-- The elements `b` to `b + 2^l` replaced by their transform, in bit-reversed order. -/
noncomputable def after (l b : ℕ) (Z : ℕ → ℂ) : ℕ → ℂ := fun k =>
  if b ≤ k ∧ k < b + 2 ^ l then dft (2 ^ l) (fun j => Z (b + j)) (rev l (k - b)) else Z k

theorem fftRec_ok {L logn : ℕ} (l : ℕ) : ∀ (b : ℕ) (Z : ℕ → ℂ), l ≤ logn → b + 2 ^ l ≤ L →
    fftRec realOps (table realOps logn) l b (cx L Z) = .ok (cx L (after l b Z)) := by
  induction l using Nat.strongRecOn with
  | ind l ih =>
    intro b Z hl hb
    match l, ih, hl, hb with
    | 0, _, _, _ =>
      unfold fftRec
      congr 1
      apply cx_congr
      intro k _
      unfold after
      split_ifs with h
      · rw [Nat.pow_zero] at h ⊢
        have : k = b := by omega
        subst this
        unfold dft
        simp [root_zero]
      · rfl
    | 1, _, _, hb =>
      rw [Nat.pow_one] at hb
      unfold fftRec
      rw [butterfly_ok (by omega) (by omega) (by omega)]
      congr 1
      apply cx_congr
      intro k _
      unfold after upd2
      rw [Nat.pow_one]
      have d0 := dft_even one_ne_zero (fun j => Z (b + j)) 0
      have d1 := dft_odd one_ne_zero (fun j => Z (b + j)) 0
      simp only [Nat.mul_one, Nat.mul_zero, Nat.zero_add] at d0 d1
      have u : ∀ f : ℕ → ℂ, dft 1 f 0 = f 0 := by intro f; unfold dft; simp [root_zero]
      rw [u] at d0 d1
      by_cases h1 : k = b
      · subst h1
        rw [if_pos rfl, if_pos (by omega), Nat.sub_self, show rev 1 0 = 0 from rfl, d0]
        simp
      · rw [if_neg h1]
        by_cases h2 : k = b + 1
        · subst h2
          rw [if_pos rfl, if_pos (by omega), show b + 1 - b = 1 by omega, show rev 1 1 = 1 from rfl, d1, root_zero]
          simp
        · rw [if_neg h2, if_neg (by omega)]
    | 2, _, _, hb =>
      rw [show 2 ^ 2 = 4 from rfl] at hb
      unfold fftRec
      rw [butterfly_ok (by omega) (by omega) (by omega), ok_bind, butterfly_ok (by omega) (by omega) (by omega), ok_bind,
        butterfly_ok (by omega) (by omega) (by omega), ok_bind, cross_ok (by omega) (by omega) (by omega)]
      congr 1
      apply cx_congr
      intro k _
      unfold after
      rw [show 2 ^ 2 = 4 from rfl]
      have u : ∀ f : ℕ → ℂ, dft 1 f 0 = f 0 := by intro f; unfold dft; simp [root_zero]
      have d0 := dft_even two_ne_zero (fun j => Z (b + j)) 0
      have d2 := dft_even two_ne_zero (fun j => Z (b + j)) 1
      have d1 := dft_one one_ne_zero (fun j => Z (b + j)) 0
      have d3 := dft_three one_ne_zero (fun j => Z (b + j)) 0
      have e0 := dft_even one_ne_zero (fun n => Z (b + n) + Z (b + (n + 2))) 0
      have e1 := dft_odd one_ne_zero (fun n => Z (b + n) + Z (b + (n + 2))) 0
      simp only [Nat.mul_one, Nat.mul_zero, Nat.zero_add, Nat.reduceMul] at d0 d1 d2 d3 e0 e1
      rw [e0] at d0
      rw [e1] at d2
      rw [u] at d0 d1 d2 d3
      rw [root_zero] at d1 d2 d3
      by_cases hk : b ≤ k ∧ k < b + 4
      · rw [if_pos hk]
        have : k = b ∨ k = b + 1 ∨ k = b + 2 ∨ k = b + 3 := by omega
        rcases this with rfl | rfl | rfl | rfl
        · rw [Nat.sub_self, show rev 2 0 = 0 from rfl, d0]
          simp [upd2]
        · rw [show b + 1 - b = 1 by omega, show rev 2 1 = 2 from rfl, d2]
          simp [upd2]
        · rw [show b + 2 - b = 2 by omega, show rev 2 2 = 1 from rfl, d1]
          simp [upd2]
        · rw [show b + 3 - b = 3 by omega, show rev 2 3 = 3 from rfl, d3]
          simp [upd2]
      · rw [if_neg hk]
        unfold upd2
        rw [if_neg (by omega), if_neg (by omega), if_neg (by omega), if_neg (by omega), if_neg (by omega), if_neg (by omega),
          if_neg (by omega), if_neg (by omega)]
    | l + 3, ih, hl, hb =>
      have ha : 1 ≤ 2 ^ l := Nat.pow_pos (by omega)
      have p1 : 2 ^ (l + 1) = 2 * 2 ^ l := by rw [Nat.pow_succ]; omega
      have p2 : 2 ^ (l + 2) = 4 * 2 ^ l := by rw [Nat.pow_add]; omega
      have p3 : 2 ^ (l + 3) = 8 * 2 ^ l := by rw [Nat.pow_add]; omega
      rw [p3] at hb
      have ih2 := ih (l + 2) (by omega)
      have ih1 := ih (l + 1) (by omega)
      rw [p1] at ih1
      rw [p2] at ih2
      unfold fftRec
      simp only
      rw [p3]
      have s1 := forN_pairs (n := 8 * 2 ^ l / 2) (p0 := b) (q0 := b + 8 * 2 ^ l / 2)
        (f := fun n s => butterfly realOps (b + n) (b + 8 * 2 ^ l / 2 + n) s)
        (fun _ x y => x + y) (fun _ x y => x - y) (fun _ Z => cx L Z) (by omega)
        (fun i hi Z => butterfly_ok (by omega) (by omega) (by omega) Z) Z
      rw [s1, ok_bind]
      generalize hY : (fun k => if b ≤ k ∧ k < b + 8 * 2 ^ l / 2 then Z k + Z (b + 8 * 2 ^ l / 2 + (k - b)) else
        if b + 8 * 2 ^ l / 2 ≤ k ∧ k < b + 8 * 2 ^ l / 2 + 8 * 2 ^ l / 2 then
          Z (b + (k - (b + 8 * 2 ^ l / 2))) - Z k else Z k) = Y
      have s2 := forN_pairs (n := 8 * 2 ^ l / 4) (p0 := b + 8 * 2 ^ l / 2) (q0 := b + 8 * 2 ^ l / 2 + 8 * 2 ^ l / 4)
        (f := fun n s => cross realOps (b + 8 * 2 ^ l / 2 + n) (b + 8 * 2 ^ l / 2 + 8 * 2 ^ l / 4 + n) s)
        (fun _ x y => x - I * y) (fun _ x y => x + I * y) (fun _ Z => cx L Z) (by omega)
        (fun i hi Z => cross_ok (by omega) (by omega) (by omega) Z) Y
      rw [s2, ok_bind]
      generalize hX : (fun k => if b + 8 * 2 ^ l / 2 ≤ k ∧ k < b + 8 * 2 ^ l / 2 + 8 * 2 ^ l / 4 then
          Y k - I * Y (b + 8 * 2 ^ l / 2 + 8 * 2 ^ l / 4 + (k - (b + 8 * 2 ^ l / 2))) else
        if b + 8 * 2 ^ l / 2 + 8 * 2 ^ l / 4 ≤ k ∧ k < b + 8 * 2 ^ l / 2 + 8 * 2 ^ l / 4 + 8 * 2 ^ l / 4 then
          Y (b + 8 * 2 ^ l / 2 + (k - (b + 8 * 2 ^ l / 2 + 8 * 2 ^ l / 4))) + I * Y k else Y k) = X
      obtain ⟨row, c, hrow, s3⟩ := twiddle_ok (L := L) hl hb X
      rw [hrow, ok_bind, s3, ok_bind]
      generalize hW : (fun k => if b + 4 * 2 ^ l ≤ k ∧ k < b + 6 * 2 ^ l then X k * root (8 * 2 ^ l) (k - (b + 4 * 2 ^ l))
          else if b + 6 * 2 ^ l ≤ k ∧ k < b + 8 * 2 ^ l then X k * root (8 * 2 ^ l) (3 * (k - (b + 6 * 2 ^ l)))
          else X k) = W
      simp only
      rw [ih2 b W (by omega) (by omega), ok_bind, ih1 (b + 8 * 2 ^ l / 2) _ (by omega) (by omega), ok_bind,
        ih1 (b + 3 * (8 * 2 ^ l / 4)) _ (by omega) (by omega)]
      congr 1
      clear s1 s2 s3 hrow ih ih1 ih2
      -- the values
      have yv : ∀ k, Y k = if b ≤ k ∧ k < b + 8 * 2 ^ l / 2 then Z k + Z (b + 8 * 2 ^ l / 2 + (k - b)) else
        if b + 8 * 2 ^ l / 2 ≤ k ∧ k < b + 8 * 2 ^ l / 2 + 8 * 2 ^ l / 2 then
          Z (b + (k - (b + 8 * 2 ^ l / 2))) - Z k else Z k := fun k => by rw [← hY]
      have xv : ∀ k, X k = if b + 8 * 2 ^ l / 2 ≤ k ∧ k < b + 8 * 2 ^ l / 2 + 8 * 2 ^ l / 4 then
          Y k - I * Y (b + 8 * 2 ^ l / 2 + 8 * 2 ^ l / 4 + (k - (b + 8 * 2 ^ l / 2))) else
        if b + 8 * 2 ^ l / 2 + 8 * 2 ^ l / 4 ≤ k ∧ k < b + 8 * 2 ^ l / 2 + 8 * 2 ^ l / 4 + 8 * 2 ^ l / 4 then
          Y (b + 8 * 2 ^ l / 2 + (k - (b + 8 * 2 ^ l / 2 + 8 * 2 ^ l / 4))) + I * Y k else Y k := fun k => by rw [← hX]
      have wv : ∀ k, W k = if b + 4 * 2 ^ l ≤ k ∧ k < b + 6 * 2 ^ l then X k * root (8 * 2 ^ l) (k - (b + 4 * 2 ^ l))
          else if b + 6 * 2 ^ l ≤ k ∧ k < b + 8 * 2 ^ l then X k * root (8 * 2 ^ l) (3 * (k - (b + 6 * 2 ^ l)))
          else X k := fun k => by rw [← hW]
      clear hY hX hW
      have rl : ∀ i, i < 2 ^ (l + 2) → rev (l + 3) i = 2 * rev (l + 2) i := fun i hi => rev_low (l + 2) i hi
      have rm : ∀ i, i < 2 ^ (l + 1) → rev (l + 3) (i + 2 ^ (l + 2)) = 4 * rev (l + 1) i + 1 := fun i hi => by
        rw [rev_high (l + 2) i (by omega), rev_low (l + 1) i hi]; omega
      have rh : ∀ i, i < 2 ^ (l + 1) → rev (l + 3) (i + 2 ^ (l + 1) + 2 ^ (l + 2)) = 4 * rev (l + 1) i + 3 := fun i hi => by
        rw [rev_high (l + 2) _ (by omega), rev_high (l + 1) i hi]; omega
      rw [p1, p2] at rh
      rw [p1, p2] at rm
      rw [p2] at rl
      apply cx_congr
      intro k _
      unfold after
      rw [p1, p2, p3]
      have Y0 : ∀ j, j < 4 * 2 ^ l → Y (b + j) = Z (b + j) + Z (b + (j + 4 * 2 ^ l)) := by
        intro j hj
        rw [yv, if_pos (by omega)]
        congr 2
        omega
      have Y1 : ∀ j, j < 4 * 2 ^ l → Y (b + (j + 4 * 2 ^ l)) = Z (b + j) - Z (b + (j + 4 * 2 ^ l)) := by
        intro j hj
        rw [yv, if_neg (by omega), if_pos (by omega)]
        congr 2
        omega
      have W0 : ∀ j, j < 4 * 2 ^ l → W (b + j) = Z (b + j) + Z (b + (j + 4 * 2 ^ l)) := by
        intro j hj
        rw [wv, if_neg (by omega), if_neg (by omega), xv, if_neg (by omega), if_neg (by omega), Y0 j hj]
      have W1 : ∀ j, j < 2 * 2 ^ l → W (b + (4 * 2 ^ l + j)) =
          ((Z (b + j) - Z (b + (j + 4 * 2 ^ l))) -
            I * (Z (b + (j + 2 * 2 ^ l)) - Z (b + (j + 2 * 2 ^ l + 4 * 2 ^ l)))) * root (8 * 2 ^ l) j := by
        intro j hj
        rw [wv, if_pos (by omega), xv, if_pos (by omega), ← Y1 j (by omega), ← Y1 (j + 2 * 2 ^ l) (by omega)]
        rw [show b + 8 * 2 ^ l / 2 + 8 * 2 ^ l / 4 + (b + (4 * 2 ^ l + j) - (b + 8 * 2 ^ l / 2)) =
            b + (j + 2 * 2 ^ l + 4 * 2 ^ l) by omega, show b + (4 * 2 ^ l + j) - (b + 4 * 2 ^ l) = j by omega,
          show b + (4 * 2 ^ l + j) = b + (j + 4 * 2 ^ l) by omega]
      have W3 : ∀ j, j < 2 * 2 ^ l → W (b + (6 * 2 ^ l + j)) =
          ((Z (b + j) - Z (b + (j + 4 * 2 ^ l))) +
            I * (Z (b + (j + 2 * 2 ^ l)) - Z (b + (j + 2 * 2 ^ l + 4 * 2 ^ l)))) * root (8 * 2 ^ l) (3 * j) := by
        intro j hj
        rw [wv, if_neg (by omega), if_pos (by omega), xv, if_neg (by omega), if_pos (by omega), ← Y1 j (by omega),
          ← Y1 (j + 2 * 2 ^ l) (by omega)]
        rw [show b + 8 * 2 ^ l / 2 + (b + (6 * 2 ^ l + j) - (b + 8 * 2 ^ l / 2 + 8 * 2 ^ l / 4)) =
            b + (j + 4 * 2 ^ l) by omega, show b + (6 * 2 ^ l + j) - (b + 6 * 2 ^ l) = j by omega,
          show b + (6 * 2 ^ l + j) = b + (j + 2 * 2 ^ l + 4 * 2 ^ l) by omega]
      generalize 2 ^ l = a at *
      have e42 : 8 * a / 2 = 4 * a := by omega
      have e43 : 3 * (8 * a / 4) = 6 * a := by omega
      rw [e42, e43]
      by_cases c1 : b ≤ k ∧ k < b + 4 * a
      · rw [if_neg (by omega), if_neg (by omega), if_pos c1, if_pos (by omega), rl (k - b) (by omega),
          show 8 * a = 2 * (4 * a) by omega, dft_even (by omega)]
        exact dft_congr W0 _
      · by_cases c2 : b + 4 * a ≤ k ∧ k < b + 6 * a
        · rw [if_neg (by omega), if_pos (by omega), if_pos (by omega), show k - b = k - (b + 4 * a) + 4 * a by omega,
            rm _ (by omega), show 8 * a = 4 * (2 * a) by omega, dft_one (by omega)]
          apply dft_congr
          intro j hj
          rw [if_neg (by omega), Nat.add_assoc, W1 j hj, show 8 * a = 4 * (2 * a) by omega,
            show 2 * (2 * a) = 4 * a by omega]
        · by_cases c3 : b + 6 * a ≤ k ∧ k < b + 8 * a
          · rw [if_pos (by omega), if_pos (by omega), show k - b = k - (b + 6 * a) + 2 * a + 4 * a by omega,
              rh _ (by omega), show 8 * a = 4 * (2 * a) by omega, dft_three (by omega)]
            apply dft_congr
            intro j hj
            rw [if_neg (by omega), if_neg (by omega), Nat.add_assoc, W3 j hj, show 8 * a = 4 * (2 * a) by omega,
              show 2 * (2 * a) = 4 * a by omega]
          · rw [if_neg (by omega), if_neg (by omega), if_neg (by omega), if_neg (by omega), wv, if_neg (by omega),
              if_neg (by omega), xv, if_neg (by omega), if_neg (by omega), yv, if_neg (by omega), if_neg (by omega)]

end Verif.Srfft
