import Verif.QuantModel
import Mathlib.Algebra.Order.Floor.Ring
import Mathlib.Data.Rat.Floor
import Mathlib.Tactic.Ring
import Mathlib.Tactic.Linarith
import Mathlib.Tactic.FieldSimp
import Mathlib.Tactic.Positivity

/-!
# Property C47: error of the eight-bit quantisation
-/

set_option linter.unusedSectionVars false

namespace Verif.Quant

variable {K : Type} [Field K] [LinearOrder K] [IsStrictOrderedRing K] [FloorRing K]

/-- Rounding half away from zero. -/
def roundAway (x : K) : Int := if 0 ≤ x then ⌊x + 1 / 2⌋ else -⌊-x + 1 / 2⌋

/-- Exact arithmetic. -/
def exact (K : Type) [Field K] [LinearOrder K] [IsStrictOrderedRing K] [FloorRing K] : Ops K K where
  fltMax := 2 ^ 128 - 2 ^ 104
  fltMin := 1 / 2 ^ 126
  lt a b := decide (a < b)
  fsub := (· - ·)
  fadd := (· + ·)
  fdiv := (· / ·)
  fneg a := -a
  ofInt n := n
  roundF := roundAway
  toD := id
  toF := id
  ddiv := (· / ·)
  d255 := 255
  isZero a := decide (a = 0)
  roundD := roundAway

/-! ## Lemmas -/

/-- Rounding moves by at most one half. -/
theorem round_near (x : K) : |(roundAway x : K) - x| ≤ 1 / 2 := by
  unfold roundAway
  rw [abs_le]
  by_cases h : 0 ≤ x
  · rw [if_pos h]
    have h1 := Int.floor_le (x + 1 / 2)
    have h2 := Int.lt_floor_add_one (x + 1 / 2)
    constructor <;> linarith
  · rw [if_neg h]
    have h1 := Int.floor_le (-x + 1 / 2)
    have h2 := Int.lt_floor_add_one (-x + 1 / 2)
    push_cast
    constructor <;> linarith

theorem round_mono_bounds {x : K} (h0 : 0 ≤ x) (h1 : x ≤ 255) : 0 ≤ roundAway x ∧ roundAway x ≤ 255 := by
  unfold roundAway
  rw [if_pos h0]
  refine ⟨Int.floor_nonneg.mpr (by linarith), ?_⟩
  have : ⌊x + 1 / 2⌋ < 256 := Int.floor_lt.mpr (by push_cast; linarith)
  omega

/-- The smallest and the largest value, the latter starting from a positive number. -/
theorem findMinMax_spec (data : List K) {lo hi : K} (h0 : data ≠ []) (hlo : lo ∈ data) (hlo' : ∀ v ∈ data, lo ≤ v)
    (hmax : ∀ v ∈ data, v ≤ 2 ^ 128 - 2 ^ 104) (hhi : hi ∈ data ∨ hi = 1 / 2 ^ 126) (hhi' : ∀ v ∈ data, v ≤ hi)
    (hmin : 1 / 2 ^ 126 ≤ hi) : findMinMax (exact K) data = (lo, hi) := by
  have key : ∀ (l : List K) (a b : K), l.foldl (fun (mm : K × K) v => (if (exact K).lt v mm.1 then v else mm.1,
      if (exact K).lt mm.2 v then v else mm.2)) (a, b) = (l.foldl min a, l.foldl max b) := by
    intro l
    induction l with
    | nil => intro a b; rfl
    | cons v l ih =>
      intro a b
      rw [List.foldl_cons, List.foldl_cons, List.foldl_cons]
      have e1 : (if (exact K).lt v a then v else a) = min a v := by
        show (if decide (v < a) = true then v else a) = min a v
        by_cases h : v < a
        · rw [if_pos (decide_eq_true h), min_eq_right h.le]
        · rw [if_neg (by rw [decide_eq_true_eq]; exact h), min_eq_left (not_lt.mp h)]
      have e2 : (if (exact K).lt b v then v else b) = max b v := by
        show (if decide (b < v) = true then v else b) = max b v
        by_cases h : b < v
        · rw [if_pos (decide_eq_true h), max_eq_right h.le]
        · rw [if_neg (by rw [decide_eq_true_eq]; exact h), max_eq_left (not_lt.mp h)]
      rw [e1, e2, ih]
  have kmin : ∀ (l : List K) (a : K), (∀ v ∈ l, lo ≤ v) → lo ≤ a → (lo ∈ l ∨ a = lo) → l.foldl min a = lo := by
    intro l
    induction l with
    | nil => intro a _ _ h; rcases h with h | h
             · cases h
             · exact h
    | cons v l ih =>
      intro a hl ha h
      rw [List.foldl_cons]
      apply ih
      · exact fun w hw => hl w (by simp [hw])
      · exact le_min ha (hl v (by simp))
      · rcases h with h | h
        · rcases List.mem_cons.mp h with h | h
          · right; rw [← h]; exact min_eq_right ha
          · left; exact h
        · right; rw [h]; exact min_eq_left (hl v (by simp))
  have kmax : ∀ (l : List K) (a : K), (∀ v ∈ l, v ≤ hi) → a ≤ hi → (hi ∈ l ∨ a = hi) → l.foldl max a = hi := by
    intro l
    induction l with
    | nil => intro a _ _ h; rcases h with h | h
             · cases h
             · exact h
    | cons v l ih =>
      intro a hl ha h
      rw [List.foldl_cons]
      apply ih
      · exact fun w hw => hl w (by simp [hw])
      · exact max_le ha (hl v (by simp))
      · rcases h with h | h
        · rcases List.mem_cons.mp h with h | h
          · right; rw [← h]; exact max_eq_right ha
          · left; exact h
        · right; rw [h]; exact max_eq_left (hl v (by simp))
  unfold findMinMax
  rw [key]
  show (data.foldl min (2 ^ 128 - 2 ^ 104 : K), data.foldl max (1 / 2 ^ 126 : K)) = (lo, hi)
  rw [kmin data _ hlo' (hmax lo hlo) (.inl hlo), kmax data _ hhi' hmin]
  rcases hhi with h | h
  · exact .inl h
  · exact .inr h.symm

/-- One element: the code is in range and off by at most half a step. -/
theorem quantOne_exact {lo hi scale : K} {zp : Int} (hs : scale = (hi - lo) / 255) (hpos : 0 < scale)
    (hzp : |(zp : K) - -lo / scale| ≤ 1 / 2) {v : K} (h1 : lo ≤ v) (h2 : v ≤ hi) :
    ∃ q : Nat, quantOne (exact K) ⟨scale, zp⟩ v = .ok q ∧ q ≤ 255 ∧ |((q : K) - zp) * scale - v| ≤ scale / 2 := by
  have hne : scale ≠ 0 := ne_of_gt hpos
  rw [abs_le] at hzp
  let x := v / scale + (zp : K)
  let y := max 0 (min x 255)
  have hlo : -lo / scale = -(lo / scale) := by ring
  have hhi : hi / scale = 255 + lo / scale := by
    have hrw : hi = 255 * scale + lo := by rw [hs]; ring
    rw [hrw]
    field_simp
  have hv1 : lo / scale ≤ v / scale := div_le_div_of_nonneg_right h1 hpos.le
  have hv2 : v / scale ≤ 255 + lo / scale := by rw [← hhi]; exact div_le_div_of_nonneg_right h2 hpos.le
  have hx1 : -(1 / 2) ≤ x := by show _ ≤ v / scale + (zp : K); linarith [hzp.1]
  have hx2 : x ≤ 255 + 1 / 2 := by show v / scale + (zp : K) ≤ _; linarith [hzp.2]
  have hy0 : 0 ≤ y := le_max_left _ _
  have hy1 : y ≤ 255 := max_le (by norm_num) (min_le_right _ _)
  have hn := round_mono_bounds hy0 hy1
  have hq : quantOne (exact K) ⟨scale, zp⟩ v = .ok (roundAway y).toNat := by
    unfold quantOne
    have e1 : (if (exact K).lt ((exact K).ofInt 255) ((exact K).fadd ((exact K).fdiv v scale) ((exact K).ofInt zp))
        then (exact K).ofInt 255 else (exact K).fadd ((exact K).fdiv v scale) ((exact K).ofInt zp)) = min x 255 := by
      show (if decide (((255 : Int) : K) < x) = true then ((255 : Int) : K) else x) = min x 255
      rw [show ((255 : Int) : K) = 255 by norm_num]
      by_cases h : 255 < x
      · rw [if_pos (decide_eq_true h), min_eq_right h.le]
      · rw [if_neg (by rw [decide_eq_true_eq]; exact h), min_eq_left (not_lt.mp h)]
    simp only
    rw [e1]
    have e2 : (if (exact K).lt ((exact K).ofInt 0) (min x 255) then min x 255 else (exact K).ofInt 0) = y := by
      show (if decide (((0 : Int) : K) < min x 255) = true then min x 255 else ((0 : Int) : K)) = max 0 (min x 255)
      rw [Int.cast_zero]
      by_cases h : 0 < min x 255
      · rw [if_pos (decide_eq_true h), max_eq_right h.le]
      · rw [if_neg (by rw [decide_eq_true_eq]; exact h), max_eq_left (not_lt.mp h)]
    rw [e2]
    show (if 0 ≤ roundAway y ∧ roundAway y ≤ 255 then (Except.ok (roundAway y).toNat : Exec Nat) else _) = _
    rw [if_pos hn]
  have hcast : (((roundAway y).toNat : Nat) : K) = ((roundAway y : Int) : K) := by
    rw [← Int.cast_natCast, Int.toNat_of_nonneg hn.1]
  refine ⟨_, hq, by omega, ?_⟩
  rw [hcast]
  have hnear : |((roundAway y : Int) : K) - x| ≤ 1 / 2 := by
    by_cases c1 : x < 0
    · have hy : y = 0 := by
        show max 0 (min x 255) = 0
        exact max_eq_left ((min_le_left _ _).trans c1.le)
      rw [hy, show roundAway (0 : K) = 0 by unfold roundAway; rw [if_pos le_rfl]; norm_num, Int.cast_zero, abs_le]
      constructor <;> linarith
    · by_cases c2 : 255 < x
      · have hy : y = 255 := by
          show max 0 (min x 255) = 255
          rw [min_eq_right c2.le]
          exact max_eq_right (by norm_num)
        have hr : roundAway (255 : K) = 255 := by
          unfold roundAway
          rw [if_pos (by norm_num), Int.floor_eq_iff]
          push_cast
          constructor <;> norm_num
        rw [hy, hr, abs_le]
        push_cast
        constructor <;> linarith
      · have hy : y = x := by
          show max 0 (min x 255) = x
          rw [min_eq_left (not_lt.mp c2), max_eq_right (not_lt.mp c1)]
        rw [hy]
        exact round_near x
  have hv : v = (x - zp) * scale := by
    show v = (v / scale + (zp : K) - zp) * scale
    field_simp
    ring
  have hd : (((roundAway y : Int) : K) - zp) * scale - v = (((roundAway y : Int) : K) - x) * scale := by
    rw [hv]; ring
  rw [hd, abs_mul, abs_of_pos hpos]
  have := mul_le_mul_of_nonneg_right hnear hpos.le
  linarith

/-! ## C47 -/

/-- What `Quantize` does in exact arithmetic, with the zero point. -/
theorem quantize_exact (rows cols : Int) (data : List K) (hr : 0 < rows) (hc : 0 < cols)
    (hsize : rows * cols ≤ 2147483647) (hlen : (data.length : Int) = rows * cols) {lo hi : K} (hlo : lo ∈ data)
    (hlo' : ∀ v ∈ data, lo ≤ v) (hmax : ∀ v ∈ data, v ≤ 2 ^ 128 - 2 ^ 104) (hhi : hi ∈ data ∨ hi = 1 / 2 ^ 126)
    (hhi' : ∀ v ∈ data, v ≤ hi) (hmin : 1 / 2 ^ 126 ≤ hi) (hlt : lo < hi)
    (hfit : |255 * lo / (hi - lo)| ≤ 2147483647 - 1 / 2) :
    ∃ (q : List Nat) (p : Params K), quantize (exact K) rows cols cols data = .ok (q, p) ∧ p.scale = (hi - lo) / 255 ∧
      p.zeroPoint = roundAway (-lo / ((hi - lo) / 255)) ∧
      q.length = data.length ∧ ∀ (i : Nat) (v : K), data[i]? = some v → ∃ n : Nat, q[i]? = some n ∧ n ≤ 255 ∧
        |((n : K) - p.zeroPoint) * p.scale - v| ≤ p.scale / 2 := by
  have hne : data ≠ [] := fun h => by rw [h] at hlo; cases hlo
  have hpos : 0 < (hi - lo) / 255 := div_pos (by linarith) (by norm_num)
  have hmm := findMinMax_spec data hne hlo hlo' hmax hhi hhi' hmin
  have hsub : hi - lo ≠ 0 := ne_of_gt (by linarith)
  have hzr : -lo / ((hi - lo) / 255) = -(255 * lo / (hi - lo)) := by field_simp
  have hnear := round_near (-lo / ((hi - lo) / 255))
  have hin : InI32 (roundAway (-lo / ((hi - lo) / 255))) := by
    rw [hzr] at hnear ⊢
    rw [abs_le] at hnear hfit
    constructor
    · have : ((-2147483648 : Int) : K) ≤ (roundAway (-(255 * lo / (hi - lo))) : K) := by
        push_cast; linarith [hnear.1, hfit.2]
      exact_mod_cast this
    · have : (roundAway (-(255 * lo / (hi - lo))) : K) ≤ ((2147483647 : Int) : K) := by
        push_cast; linarith [hnear.2, hfit.1]
      exact_mod_cast this
  have hp : computeParams (exact K) data = .ok ⟨(hi - lo) / 255, roundAway (-lo / ((hi - lo) / 255))⟩ := by
    unfold computeParams
    rw [hmm]
    show (if decide ((hi - lo) / 255 = 0) = true then (Except.error .ub : Exec (Params K)) else _) = _
    rw [if_neg (by rw [decide_eq_true_eq]; exact ne_of_gt hpos)]
    show (i32 (roundAway (-lo / ((hi - lo) / 255))) >>= fun zp => _) = _
    rw [i32_of hin, ok_bind]
    rfl
  have hone : ∀ l : List K, (∀ v ∈ l, lo ≤ v ∧ v ≤ hi) →
      ∃ q : List Nat, l.mapM (quantOne (exact K) ⟨(hi - lo) / 255, roundAway (-lo / ((hi - lo) / 255))⟩) = .ok q ∧
        q.length = l.length ∧ ∀ (i : Nat) (v : K), l[i]? = some v → ∃ n : Nat, q[i]? = some n ∧ n ≤ 255 ∧
          |((n : K) - (roundAway (-lo / ((hi - lo) / 255)) : Int)) * ((hi - lo) / 255) - v| ≤ (hi - lo) / 255 / 2 := by
    intro l
    induction l with
    | nil => intro _; exact ⟨[], rfl, rfl, fun i v h => by cases h⟩
    | cons w l ih =>
      intro hl
      obtain ⟨n, g1, g2, g3⟩ := quantOne_exact (hi := hi) rfl hpos hnear (hl w (by simp)).1 (hl w (by simp)).2
      obtain ⟨q, g4, g5, g6⟩ := ih (fun v hv => hl v (by simp [hv]))
      refine ⟨n :: q, ?_, by rw [List.length_cons, List.length_cons, g5], ?_⟩
      · rw [List.mapM_cons, g1, ok_bind, g4]
        rfl
      · intro i v hv
        cases i with
        | zero =>
          rw [List.getElem?_cons_zero] at hv
          cases hv
          exact ⟨n, rfl, g2, g3⟩
        | succ i =>
          rw [List.getElem?_cons_succ] at hv
          exact g6 i v hv
  obtain ⟨q, h1, h2, h3⟩ := hone data (fun v hv => ⟨hlo' v hv, hhi' v hv⟩)
  refine ⟨q, ⟨(hi - lo) / 255, roundAway (-lo / ((hi - lo) / 255))⟩, ?_, rfl, rfl, h2, h3⟩
  unfold quantize
  rw [decide_eq_true rfl, cassert_true, ok_bind, decide_eq_true (by omega), cassert_true, ok_bind,
    i32_of (by have := Int.mul_pos hr hc; rw [Int.mul_comm]; exact ⟨by omega, hsize⟩), ok_bind,
    if_neg (by rw [hlen, Int.mul_comm]; omega)]
  have ht : data.take (cols * rows).toNat = data := by
    apply List.take_of_length_le
    rw [Int.mul_comm, ← hlen]
    omega
  rw [ht, hp, ok_bind, matInit_ok hr hc hsize, ok_bind, h1, ok_bind]

/-- **C47.** Exact arithmetic.  For a matrix without padding whose entries are between `lo` (its smallest entry) and `hi`
(its largest entry, or 2^-126 if there is no larger one): the quantised entries `q` recover the original ones up to half
a step `(hi - lo) / 255`.

Partial: the property demands this of every matrix with `lo < hi`, but the zero point `-255 lo / (hi - lo)` must fit in an
`int32_t` (see `C47_fails`). -/
theorem C47_error_partial (rows cols : Int) (data : List K) (hr : 0 < rows) (hc : 0 < cols)
    (hsize : rows * cols ≤ 2147483647) (hlen : (data.length : Int) = rows * cols) {lo hi : K} (hlo : lo ∈ data)
    (hlo' : ∀ v ∈ data, lo ≤ v) (hmax : ∀ v ∈ data, v ≤ 2 ^ 128 - 2 ^ 104) (hhi : hi ∈ data ∨ hi = 1 / 2 ^ 126)
    (hhi' : ∀ v ∈ data, v ≤ hi) (hmin : 1 / 2 ^ 126 ≤ hi) (hlt : lo < hi)
    (hfit : |255 * lo / (hi - lo)| ≤ 2147483647 - 1 / 2) :
    ∃ (q : List Nat) (p : Params K), quantize (exact K) rows cols cols data = .ok (q, p) ∧ p.scale = (hi - lo) / 255 ∧
      q.length = data.length ∧ ∀ (i : Nat) (v : K), data[i]? = some v → ∃ n : Nat, q[i]? = some n ∧ n ≤ 255 ∧
        |((n : K) - p.zeroPoint) * p.scale - v| ≤ p.scale / 2 := by
  obtain ⟨q, p, h1, h2, -, h3⟩ := quantize_exact rows cols data hr hc hsize hlen hlo hlo' hmax hhi hhi' hmin hlt hfit
  exact ⟨q, p, h1, h2, h3⟩

/-- **C47 fails** for numbers far from zero compared to their range: 10^10 and 10^10 + 1024, both of which are `float`s,
have a zero point of about -2.5 * 10^9, whose conversion to `int32_t` is undefined. -/
theorem C47_fails : quantize (exact Rat) 1 2 2 [10000000000, 10000001024] = .error .ub := by decide +kernel

/-- The same goes for every constant matrix of a positive value (at least 2^-126). -/
theorem C47_constant (c : K) (hc : 1 / 2 ^ 126 ≤ c) (hm : c ≤ 2 ^ 128 - 2 ^ 104) (rows cols : Int) (hr : 0 < rows)
    (hcol : 0 < cols) (hsize : rows * cols ≤ 2147483647) :
    quantize (exact K) rows cols cols (List.replicate (rows * cols).toNat c) = .error .ub := by
  have hp := Int.mul_pos hr hcol
  have hmem : ∀ v ∈ List.replicate (rows * cols).toNat c, v = c := fun v hv => (List.mem_replicate.mp hv).2
  have hcm : c ∈ List.replicate (rows * cols).toNat c := List.mem_replicate.mpr ⟨by omega, rfl⟩
  have hmm := findMinMax_spec (List.replicate (rows * cols).toNat c) (lo := c) (hi := c)
    (fun h => by rw [h] at hcm; cases hcm) hcm (fun v hv => (hmem v hv).ge)
    (fun v hv => by rw [hmem v hv]; exact hm) (.inl hcm) (fun v hv => (hmem v hv).le) hc
  unfold quantize
  rw [decide_eq_true rfl, cassert_true, ok_bind, decide_eq_true (by omega), cassert_true, ok_bind,
    i32_of (by rw [Int.mul_comm]; exact ⟨by omega, hsize⟩), ok_bind,
    if_neg (by rw [List.length_replicate, Int.mul_comm]; omega), List.take_of_length_le (by
      rw [List.length_replicate, Int.mul_comm])]
  unfold computeParams
  rw [hmm]
  show ((if decide ((c - c) / 255 = 0) = true then (Except.error .ub : Exec (Params K)) else _) >>= _) = _
  rw [if_pos (by rw [sub_self, zero_div]; exact decide_eq_true rfl)]
  rfl

/-- A matrix that meets the hypotheses of `C47_error_partial`, and its codes. -/
example : (quantize (exact Rat) 2 2 2 [-1, 0, 1 / 3, 3]).map (fun r => (r.1, r.2.zeroPoint)) =
    .ok ([0, 64, 85, 255], 64) ∧ |255 * (-1 : Rat) / (3 - -1)| ≤ 2147483647 - 1 / 2 := by
  refine ⟨by decide +kernel, ?_⟩
  norm_num

/-- For negative numbers the step is not a 255th of their range, because the search for the largest entry starts from a
positive number: here the two ends of the range get the same code. -/
theorem C47_negative : (quantize (exact Rat) 1 2 2 [-1001, -1000]).map (fun r => (r.1, r.2.zeroPoint)) =
    .ok ([0, 0], 255) := by
  decide +kernel

/-- A matrix of negative numbers: the largest entry is not the upper end of the range. -/
example : (quantize (exact Rat) 1 2 2 [-4, -2]).map (fun r => (r.1, r.2.zeroPoint)) = .ok ([0, 128], 255) := by
  decide +kernel

end Verif.Quant
