import Verif.NnetModel
import Mathlib.Analysis.SpecialFunctions.Log.Basic
import Mathlib.Analysis.SpecialFunctions.Sqrt
import Mathlib.Analysis.Complex.ExponentialBounds
import Mathlib.Tactic.Ring
import Mathlib.Tactic.Linarith
import Mathlib.Tactic.FieldSimp
import Mathlib.Tactic.Positivity

/-!
# Property C50: the softmax and normalise layers are normalised

Over the real numbers, and what is left of it when numbers of 2^128 or more become infinite.
-/

set_option linter.unusedSectionVars false

namespace Verif.Nnet

/-- A proper matrix can be allocated. -/
theorem resize_proper {F : Type} {old : List (List F)} {rows cols n w : Nat} (h1 : 0 < rows) (h2 : 0 < cols)
    (hc : cols ≤ w) (hr : rows ≤ n) (h : n * w ≤ 2147483647) : resize old (rows : Int) (cols : Int) = .ok () := by
  have := Nat.mul_le_mul hr hc
  have e : ((rows * cols : Nat) : Int) = (rows : Int) * cols := Int.natCast_mul ..
  unfold resize
  split
  · rfl
  · exact matInit_ok (by omega) (by omega) (by omega)

/-! ## Exact arithmetic -/

/-- Exact arithmetic; the matrix product does not matter here. -/
noncomputable def realOps (gemm : List (List ℝ) → List (List ℝ) → List (List ℝ)) : Ops ℝ where
  zero := 0
  negOne := -1
  add := (· + ·)
  sub := (· - ·)
  mul := (· * ·)
  div := (· / ·)
  lt a b := @decide (a < b) (Classical.propDecidable _)
  ofInt n := n
  expf := Real.exp
  exp := Real.exp
  log := Real.log
  rootOf d s := Real.sqrt (d / s)
  gemm := gemm

theorem foldl_add_sum (l : List ℝ) : ∀ a : ℝ, l.foldl (· + ·) a = a + l.sum := by
  induction l with
  | nil => intro a; simp
  | cons x l ih => intro a; rw [List.foldl_cons, ih, List.sum_cons]; ring

theorem foldl_exp_sum (l : List ℝ) : ∀ a : ℝ, l.foldl (fun s v => s + Real.exp v) a = a + (l.map Real.exp).sum := by
  induction l with
  | nil => intro a; simp
  | cons x l ih => intro a; rw [List.foldl_cons, ih, List.map_cons, List.sum_cons]; ring

theorem sum_exp_pos {x : List ℝ} (h : x ≠ []) : 0 < (x.map Real.exp).sum := by
  cases x with
  | nil => exact absurd rfl h
  | cons a l =>
    rw [List.map_cons, List.sum_cons]
    have : 0 ≤ (l.map Real.exp).sum := List.sum_nonneg (fun y hy => by
      obtain ⟨z, _, rfl⟩ := List.mem_map.mp hy
      exact (Real.exp_pos z).le)
    linarith [Real.exp_pos a]

theorem sum_map_div (l : List ℝ) (c : ℝ) : (l.map (· / c)).sum = l.sum / c := by
  induction l with
  | nil => simp
  | cons a l ih => rw [List.map_cons, List.sum_cons, List.sum_cons, ih, add_div]

theorem applySoftMax_real (g : List (List ℝ) → List (List ℝ) → List (List ℝ)) (x : List ℝ) :
    applySoftMax (realOps g) x = x.map fun v => Real.exp v / (x.map Real.exp).sum := by
  show (x.map Real.exp).map (fun v => v / (x.map Real.exp).foldl (· + ·) 0) = _
  rw [foldl_add_sum, zero_add, List.map_map]
  rfl

theorem applyLogSoftMax_real (g : List (List ℝ) → List (List ℝ) → List (List ℝ)) (x : List ℝ) :
    applyLogSoftMax (realOps g) x = x.map fun v => v - Real.log (x.map Real.exp).sum := by
  show x.map (fun v => v - Real.log (x.foldl (fun s v => s + Real.exp v) 0)) = _
  rw [foldl_exp_sum, zero_add]

theorem applyNormalize_real (g : List (List ℝ) → List (List ℝ) → List (List ℝ)) (d : ℝ) (x : List ℝ) :
    applyNormalize (realOps g) d x = x.map fun v => v * Real.sqrt (d / (x.map (· ^ 2)).sum) := by
  show x.map (fun v => v * Real.sqrt (d / (List.zipWith (· * ·) x x).foldl (· + ·) 0)) = _
  have : List.zipWith (· * ·) x x = x.map (· ^ 2) := by
    rw [List.zipWith_self]
    exact List.map_congr_left (fun a _ => (sq a).symm)
  rw [this, foldl_add_sum, zero_add]

/-- The outcome of a layer that treats the rows of a proper matrix one by one. -/
theorem rowwise {inp out : List (List ℝ)} {cols : Nat} (h0 : inp ≠ []) (hc : 0 < cols) (hw : ∀ r ∈ inp, r.length = cols)
    (hs : inp.length * cols ≤ 2147483647) : numCols inp = cols ∧ resize out inp.length (numCols inp) = .ok () := by
  have hn : numCols inp = cols := by
    cases inp with
    | nil => exact absurd rfl h0
    | cons r _ => exact hw r (by simp)
  refine ⟨hn, ?_⟩
  rw [hn]
  exact resize_proper (List.length_pos_iff.mpr h0) hc (le_refl _) (le_refl _) hs

/-- **C50, softmax layer.** Every entry of the output is positive, every row sums to one, and the entries are in
proportion to the exponentials of the input. -/
theorem C50_softmax (g : List (List ℝ) → List (List ℝ) → List (List ℝ)) (inp out : List (List ℝ)) (cols : Nat)
    (h0 : inp ≠ []) (hc : 0 < cols) (hw : ∀ r ∈ inp, r.length = cols) (hs : inp.length * cols ≤ 2147483647) :
    ∃ res, Layer.propagate (realOps g) inp out .softmax = .ok res ∧ res.length = inp.length ∧
      ∀ (i : Nat) (x : List ℝ), inp[i]? = some x → ∃ y, res[i]? = some y ∧ y.length = x.length ∧ (∀ p ∈ y, 0 < p) ∧
        y.sum = 1 ∧ ∃ c : ℝ, 0 < c ∧ ∀ (j : Nat) (v : ℝ), x[j]? = some v → y[j]? = some (c * Real.exp v) := by
  obtain ⟨hn, hr⟩ := rowwise (out := out) h0 hc hw hs
  refine ⟨inp.map (applySoftMax (realOps g)), ?_, by rw [List.length_map], ?_⟩
  · show (resize out inp.length (numCols inp) >>= fun _ => _) = _
    rw [hr]
    rfl
  · intro i x hx
    have hx0 : x ≠ [] := fun e => by
      have := hw x (List.mem_of_getElem? hx)
      rw [e] at this
      simp at this
      omega
    have hpos := sum_exp_pos hx0
    refine ⟨applySoftMax (realOps g) x, by rw [List.getElem?_map, hx]; rfl, ?_, ?_, ?_,
      1 / (x.map Real.exp).sum, div_pos one_pos hpos, ?_⟩
    · rw [applySoftMax_real, List.length_map]
    · rw [applySoftMax_real]
      intro p hp
      obtain ⟨v, _, rfl⟩ := List.mem_map.mp hp
      exact div_pos (Real.exp_pos v) hpos
    · rw [applySoftMax_real]
      have e : (x.map fun v => Real.exp v / (x.map Real.exp).sum) = (x.map Real.exp).map (· / (x.map Real.exp).sum) := by
        rw [List.map_map]; rfl
      rw [e, sum_map_div]
      exact div_self (ne_of_gt hpos)
    · intro j v hv
      rw [applySoftMax_real, List.getElem?_map, hv]
      show some _ = some _
      rw [div_mul_eq_mul_div, one_mul]

/-- **C50, log-softmax layer.** The output is the logarithm of the output of the softmax layer. -/
theorem C50_log_softmax (g : List (List ℝ) → List (List ℝ) → List (List ℝ)) (inp out out' : List (List ℝ)) (cols : Nat)
    (h0 : inp ≠ []) (hc : 0 < cols) (hw : ∀ r ∈ inp, r.length = cols) (hs : inp.length * cols ≤ 2147483647) :
    ∃ res sm, Layer.propagate (realOps g) inp out .logSoftmax = .ok res ∧
      Layer.propagate (realOps g) inp out' .softmax = .ok sm ∧ res = sm.map (fun r => r.map Real.log) := by
  obtain ⟨hn, hr⟩ := rowwise (out := out) h0 hc hw hs
  obtain ⟨_, hr'⟩ := rowwise (out := out') h0 hc hw hs
  refine ⟨inp.map (applyLogSoftMax (realOps g)), inp.map (applySoftMax (realOps g)), ?_, ?_, ?_⟩
  · show (resize out inp.length (numCols inp) >>= fun _ => _) = _
    rw [hr]
    rfl
  · show (resize out' inp.length (numCols inp) >>= fun _ => _) = _
    rw [hr']
    rfl
  · rw [List.map_map]
    apply List.map_congr_left
    intro x hx
    have hx0 : x ≠ [] := fun e => by
      have := hw x hx
      rw [e] at this
      simp at this
      omega
    show _ = (applySoftMax (realOps g) x).map Real.log
    rw [applyLogSoftMax_real, applySoftMax_real, List.map_map]
    apply List.map_congr_left
    intro v _
    show _ = Real.log (Real.exp v / _)
    rw [Real.log_div (ne_of_gt (Real.exp_pos v)) (ne_of_gt (sum_exp_pos hx0)), Real.log_exp]

/-- **C50, normalise layer.** A row with an entry other than zero is scaled by a positive factor, to mean square one. -/
theorem C50_normalize (g : List (List ℝ) → List (List ℝ) → List (List ℝ)) (inp out : List (List ℝ)) (cols : Nat)
    (h0 : inp ≠ []) (hc : 0 < cols) (hw : ∀ r ∈ inp, r.length = cols) (hs : inp.length * cols ≤ 2147483647) :
    ∃ res, Layer.propagate (realOps g) inp out .normalize = .ok res ∧ res.length = inp.length ∧
      ∀ (i : Nat) (x : List ℝ), inp[i]? = some x → (∃ v ∈ x, v ≠ 0) → ∃ y, res[i]? = some y ∧ y.length = x.length ∧
        (y.map (· ^ 2)).sum / (y.length : ℝ) = 1 ∧ ∃ c : ℝ, 0 < c ∧ y = x.map (c * ·) := by
  obtain ⟨hn, hr⟩ := rowwise (out := out) h0 hc hw hs
  refine ⟨inp.map (applyNormalize (realOps g) (numCols inp : ℤ)), ?_, by rw [List.length_map], ?_⟩
  · show (resize out inp.length (numCols inp) >>= fun _ => _) = _
    rw [hr]
    rfl
  · intro i x hx hv
    have hlen := hw x (List.mem_of_getElem? hx)
    have hsq : ∀ l : List ℝ, 0 ≤ (l.map (· ^ 2)).sum := fun l => List.sum_nonneg (fun y hy => by
      obtain ⟨z, _, rfl⟩ := List.mem_map.mp hy
      exact sq_nonneg z)
    have hpos : 0 < (x.map (· ^ 2)).sum := by
      obtain ⟨v, hv, hv0⟩ := hv
      clear hx hlen
      induction x with
      | nil => cases hv
      | cons a l ih =>
        rw [List.map_cons, List.sum_cons]
        rcases List.mem_cons.mp hv with h | h
        · have : 0 < a ^ 2 := by rw [← h]; positivity
          linarith [hsq l]
        · linarith [ih h, sq_nonneg a]
    have hcols : (0 : ℝ) < cols := by exact_mod_cast hc
    have hdiv : 0 < (cols : ℝ) / (x.map (· ^ 2)).sum := div_pos hcols hpos
    have hrow : applyNormalize (realOps g) ((numCols inp : ℤ) : ℝ) x =
        x.map (Real.sqrt ((cols : ℝ) / (x.map (· ^ 2)).sum) * ·) := by
      rw [applyNormalize_real, hn]
      apply List.map_congr_left
      intro v _
      rw [Int.cast_natCast, mul_comm]
    refine ⟨_, by rw [List.getElem?_map, hx]; rfl, ?_, ?_, Real.sqrt ((cols : ℝ) / (x.map (· ^ 2)).sum), Real.sqrt_pos.mpr hdiv,
      hrow⟩
    · rw [hrow, List.length_map]
    · rw [hrow, List.length_map, hlen, List.map_map]
      have : ∀ (c : ℝ) (l : List ℝ), (l.map ((· ^ 2) ∘ (c * ·))).sum = c ^ 2 * (l.map (· ^ 2)).sum := by
        intro c l
        induction l with
        | nil => simp
        | cons a l ih =>
          rw [List.map_cons, List.sum_cons, List.map_cons, List.sum_cons, ih]
          show (c * a) ^ 2 + _ = _
          ring
      rw [this, Real.sq_sqrt hdiv.le]
      field_simp

/-- A matrix that meets the hypotheses. -/
example : ([[1, -1], [0, 2]] : List (List ℝ)) ≠ [] ∧ (∀ r ∈ ([[1, -1], [0, 2]] : List (List ℝ)), r.length = 2) ∧
    (∀ r ∈ ([[1, -1], [0, 2]] : List (List ℝ)), ∃ v ∈ r, v ≠ 0) := by
  refine ⟨by simp, by simp, ?_⟩
  intro r hr
  simp only [List.mem_cons, List.not_mem_nil, or_false] at hr
  rcases hr with rfl | rfl
  · exact ⟨1, by simp, by norm_num⟩
  · exact ⟨2, by simp, by norm_num⟩

/-! ## Numbers that overflow -/

/-- A real number, an infinity (`true`: the negative one) or NaN. -/
inductive Big where
  | num (x : ℝ)
  | inf (neg : Bool)
  | nan

open Classical in
/-- A result of 2^128 or more does not fit in a `float`. -/
noncomputable def Big.fit (x : ℝ) : Big := if |x| < 2 ^ 128 then .num x else .inf (decide (x < 0))

/-- Addition. -/
noncomputable def Big.add : Big → Big → Big
  | .nan, _ => .nan
  | _, .nan => .nan
  | .num a, .num b => .fit (a + b)
  | .inf s, .num _ => .inf s
  | .num _, .inf s => .inf s
  | .inf s, .inf t => if s = t then .inf s else .nan

/-- Change of sign. -/
noncomputable def Big.neg : Big → Big
  | .nan => .nan
  | .num a => .num (-a)
  | .inf s => .inf (!s)

open Classical in
/-- Multiplication. -/
noncomputable def Big.mul : Big → Big → Big
  | .nan, _ => .nan
  | _, .nan => .nan
  | .num a, .num b => .fit (a * b)
  | .inf s, .num b => if b = 0 then .nan else .inf (xor s (decide (b < 0)))
  | .num a, .inf s => if a = 0 then .nan else .inf (xor s (decide (a < 0)))
  | .inf s, .inf t => .inf (xor s t)

open Classical in
/-- Division (the sign of a zero divisor is not modelled). -/
noncomputable def Big.div : Big → Big → Big
  | .nan, _ => .nan
  | _, .nan => .nan
  | .num a, .num b => if b = 0 then (if a = 0 then .nan else .inf (decide (a < 0))) else .fit (a / b)
  | .inf s, .num b => .inf (xor s (decide (b < 0)))
  | .num _, .inf _ => .num 0
  | .inf _, .inf _ => .nan

/-- The exponential function. -/
noncomputable def Big.exp : Big → Big
  | .nan => .nan
  | .num a => .fit (Real.exp a)
  | .inf true => .num 0
  | .inf false => .inf false

open Classical in
/-- The logarithm. -/
noncomputable def Big.log : Big → Big
  | .nan => .nan
  | .num a => if a < 0 then .nan else if a = 0 then .inf true else .num (Real.log a)
  | .inf true => .nan
  | .inf false => .inf false

open Classical in
/-- The square root. -/
noncomputable def Big.sqrt : Big → Big
  | .nan => .nan
  | .num a => if a < 0 then .nan else .num (Real.sqrt a)
  | .inf true => .nan
  | .inf false => .inf false

open Classical in
/-- Comparison. -/
noncomputable def Big.lt : Big → Big → Bool
  | .num a, .num b => decide (a < b)
  | .num _, .inf s => !s
  | .inf s, .num _ => s
  | .inf s, .inf t => s && !t
  | _, _ => false

/-- Arithmetic with overflow, otherwise exact. -/
noncomputable def bigOps (gemm : List (List Big) → List (List Big) → List (List Big)) : Ops Big where
  zero := .num 0
  negOne := .num (-1)
  add := Big.add
  sub a b := Big.add a (Big.neg b)
  mul := Big.mul
  div := Big.div
  lt := Big.lt
  ofInt n := .num n
  expf := Big.exp
  exp := Big.exp
  log := Big.log
  rootOf d s := Big.sqrt (Big.div d s)
  gemm := gemm

/-- An exponential is a number or plus infinity. -/
theorem exp_cases (a : ℝ) : (Big.exp (.num a) = .num (Real.exp a) ∧ Real.exp a < 2 ^ 128) ∨ Big.exp (.num a) = .inf false := by
  unfold Big.exp Big.fit
  simp only
  by_cases h : |Real.exp a| < 2 ^ 128
  · left
    rw [if_pos h]
    rw [abs_of_pos (Real.exp_pos a)] at h
    exact ⟨rfl, h⟩
  · right
    rw [if_neg h, decide_eq_false (not_lt.mpr (Real.exp_pos a).le)]

/-- 89 is too large for the exponential function. -/
theorem exp_big {a : ℝ} (h : 89 ≤ a) : Big.exp (.num a) = .inf false := by
  rcases exp_cases a with ⟨_, h'⟩ | h'
  · exfalso
    have h1 : (2 : ℝ) ^ 128 = Real.exp (128 * Real.log 2) := by
      rw [show (128 : ℝ) * Real.log 2 = ((128 : ℕ) : ℝ) * Real.log 2 by norm_num, Real.exp_nat_mul,
        Real.exp_log (by norm_num)]
    rw [h1, Real.exp_lt_exp] at h'
    have := Real.log_two_lt_d9
    linarith
  · exact h'

/-- A sum that has become infinite stays so. -/
theorem sum_inf (l : List ℝ) : (l.map (fun a => Big.exp (.num a))).foldl Big.add (.inf false) = .inf false := by
  induction l with
  | nil => rfl
  | cons a l ih =>
    rw [List.map_cons, List.foldl_cons]
    rcases exp_cases a with ⟨h, _⟩ | h
    · rw [h]; exact ih
    · rw [h]
      show List.foldl Big.add (if false = false then Big.inf false else Big.nan) _ = _
      rw [if_pos rfl]
      exact ih

/-- A sum of exponentials one of which overflows. -/
theorem sum_overflow (l : List ℝ) : ∀ acc : ℝ, 0 ≤ acc → (∃ a ∈ l, 89 ≤ a) →
    (l.map (fun a => Big.exp (.num a))).foldl Big.add (.num acc) = .inf false := by
  induction l with
  | nil => rintro _ _ ⟨a, h, _⟩; cases h
  | cons a l ih =>
    rintro acc hacc ⟨b, hb, hbig⟩
    rw [List.map_cons, List.foldl_cons]
    rcases exp_cases a with ⟨h, hlt⟩ | h
    · rw [h]
      show List.foldl Big.add (Big.fit (acc + Real.exp a)) _ = _
      have hp := Real.exp_pos a
      unfold Big.fit
      by_cases hf : |acc + Real.exp a| < 2 ^ 128
      · rw [if_pos hf]
        apply ih _ (by linarith)
        rcases List.mem_cons.mp hb with e | hb
        · rw [← e, exp_big hbig] at h
          cases h
        · exact ⟨b, hb, hbig⟩
      · rw [if_neg hf, decide_eq_false (by linarith)]
        exact sum_inf l
    · rw [h]
      exact sum_inf l

/-- **C50 fails for large inputs.** Neither softmax subtracts the largest entry first.  In a row with an entry of 89 or
more the softmax layer turns that entry into NaN, and the log-softmax layer turns every entry into minus infinity. -/
theorem C50_overflow (g : List (List Big) → List (List Big) → List (List Big)) (x : List ℝ) {b : ℝ} {j : Nat}
    (hb : x[j]? = some b) (hbig : 89 ≤ b) (out : List (List Big)) (hs : x.length ≤ 2147483647) :
    (∃ y, Layer.propagate (bigOps g) [x.map .num] out .softmax = .ok [y] ∧ y[j]? = some .nan) ∧
    Layer.propagate (bigOps g) [x.map .num] out .logSoftmax = .ok [x.map fun _ => .inf true] := by
  have hx0 : 0 < x.length := by
    have := (List.getElem?_eq_some_iff.mp hb).1
    omega
  have hr : resize out ([x.map Big.num].length : Nat) (numCols [x.map Big.num] : Nat) = .ok () := by
    apply resize_proper (n := 1) (w := x.length) (by simp)
    · show 0 < (x.map Big.num).length
      rw [List.length_map]; exact hx0
    · show (x.map Big.num).length ≤ _
      rw [List.length_map]
    · simp
    · omega
  have hmem : ∃ a ∈ x, 89 ≤ a := ⟨b, List.mem_of_getElem? hb, hbig⟩
  have hsum := sum_overflow x 0 le_rfl hmem
  constructor
  · refine ⟨applySoftMax (bigOps g) (x.map .num), ?_, ?_⟩
    · show (resize out _ _ >>= fun _ => _) = _
      rw [hr]
      rfl
    · show (((x.map Big.num).map Big.exp).map (fun v => Big.div v (((x.map Big.num).map Big.exp).foldl Big.add (.num 0))))[j]? = _
      rw [show (x.map Big.num).map Big.exp = x.map (fun a => Big.exp (.num a)) by rw [List.map_map]; rfl,
        List.getElem?_map, List.getElem?_map, hb]
      show some (Big.div (Big.exp (.num b)) ((x.map (fun a => Big.exp (.num a))).foldl Big.add (.num 0))) = _
      rw [hsum, exp_big hbig]
      rfl
  · show (resize out _ _ >>= fun _ => _) = _
    rw [hr]
    show Except.ok [(x.map Big.num).map (fun v => Big.add v (Big.neg (Big.log ((x.map Big.num).foldl
      (fun s v => Big.add s (Big.exp v)) (.num 0)))))] = _
    have e : (x.map Big.num).foldl (fun s v => Big.add s (Big.exp v)) (.num 0) = .inf false := by
      rw [List.foldl_map, ← hsum, List.foldl_map]
    rw [e, List.map_map]
    rfl

/-- **C50 fails for zero rows.** A row of zeros becomes a row of NaN in the normalise layer. -/
theorem C50_zero_row (g : List (List Big) → List (List Big) → List (List Big)) (n : Nat) (hn : 0 < n)
    (hs : n ≤ 2147483647) (out : List (List Big)) :
    Layer.propagate (bigOps g) [List.replicate n (.num 0)] out .normalize = .ok [List.replicate n .nan] := by
  have hr : resize out ([List.replicate n (Big.num 0)].length : Nat) (numCols [List.replicate n (Big.num 0)] : Nat) =
      .ok () := by
    apply resize_proper (n := 1) (w := n) (by simp)
    · show 0 < (List.replicate n (Big.num 0)).length
      rw [List.length_replicate]; exact hn
    · show (List.replicate n (Big.num 0)).length ≤ _
      rw [List.length_replicate]
    · simp
    · omega
  show (resize out _ _ >>= fun _ => _) = _
  rw [hr]
  have hfit : Big.fit 0 = .num 0 := by
    unfold Big.fit
    rw [if_pos (by norm_num)]
  have hm : Big.mul (.num 0) (.num 0) = .num 0 := by
    show Big.fit (0 * 0) = _
    rw [mul_zero]; exact hfit
  have ha : Big.add (.num 0) (.num 0) = .num 0 := by
    show Big.fit (0 + 0) = _
    rw [add_zero]; exact hfit
  have hz : (List.zipWith Big.mul (List.replicate n (Big.num 0)) (List.replicate n (Big.num 0))).foldl Big.add (.num 0) =
      .num 0 := by
    rw [List.zipWith_replicate, min_self, hm]
    clear hr hn hs
    induction n with
    | zero => rfl
    | succ n ih => rw [List.replicate_succ, List.foldl_cons, ha, ih]
  show Except.ok [(List.replicate n (Big.num 0)).map (fun v => Big.mul v (Big.sqrt (Big.div (.num _) ((List.zipWith Big.mul
    (List.replicate n (Big.num 0)) (List.replicate n (Big.num 0))).foldl Big.add (.num 0)))))] = _
  rw [hz, List.map_replicate]
  have hc : numCols [List.replicate n (Big.num 0)] = n := List.length_replicate ..
  rw [hc]
  have hd : Big.div (.num ((n : ℤ) : ℝ)) (.num 0) = .inf false := by
    have : (0 : ℝ) < ((n : ℤ) : ℝ) := by exact_mod_cast hn
    unfold Big.div
    simp only
    rw [if_pos trivial, if_neg (ne_of_gt this), decide_eq_false (not_lt.mpr this.le)]
  rw [hd]
  show Except.ok [List.replicate n (if (0 : ℝ) = 0 then Big.nan else _)] = _
  rw [if_pos rfl]

/-- A row that meets the hypotheses of `C50_overflow`. -/
example : ([3, 90, -5] : List ℝ)[1]? = some 90 ∧ (89 : ℝ) ≤ 90 := ⟨rfl, by norm_num⟩

end Verif.Nnet
