import Verif.QmulModel
import Verif.QuantProps
import Mathlib.Algebra.BigOperators.Intervals
import Mathlib.Algebra.Order.BigOperators.Group.Finset
import Mathlib.Algebra.Order.BigOperators.Ring.Finset
import Mathlib.Tactic.Positivity

/-!
# Property C81: products of quantised matrices
-/

set_option linter.unusedSectionVars false

namespace Verif.Quant

open Finset

variable {K : Type} [Field K] [LinearOrder K] [IsStrictOrderedRing K] [FloorRing K]

/-! ## Specification -/

/-- Element `(i, j)` of a matrix of `cols` columns given by its elements row by row. -/
def Spec.el (data : List K) (cols i j : Nat) : K := data.getD (i * cols + j) 0

/-- Element `(i, j)` of the product of an `m × k` and a `k × n` matrix. -/
def Spec.prod (A B : List K) (k n i j : Nat) : K := ∑ l ∈ range k, Spec.el A k i l * Spec.el B n l j

/-- How much element `(i, j)` may be off when the steps of the two quantisations are `sa` and `sb`. -/
def Spec.slack (A B : List K) (k n : Nat) (sa sb : K) (i j : Nat) : K :=
  ∑ l ∈ range k, (|Spec.el A k i l| * (sb / 2) + |Spec.el B n l j| * (sa / 2) + sa * sb / 4)

/-- The largest distance of a byte from the zero point, and at least 255. -/
def Spec.reach (z : Int) : Int := max 255 (max |z| |255 - z|)

/-- The entries of a matrix are between `lo`, the smallest, and `hi`, the largest (or 2^-126 if that is larger), and the
zero point fits an `int32_t`. -/
structure Spec.Range (data : List K) (lo hi : K) : Prop where
  lo_mem : lo ∈ data
  lo_le : ∀ v ∈ data, lo ≤ v
  hi_mem : hi ∈ data ∨ hi = 1 / 2 ^ 126
  le_hi : ∀ v ∈ data, v ≤ hi
  least : 1 / 2 ^ 126 ≤ hi
  most : ∀ v ∈ data, v ≤ 2 ^ 128 - 2 ^ 104
  lt : lo < hi
  fits : |255 * lo / (hi - lo)| ≤ 2147483647 - 1 / 2

/-! ## Integers -/

theorem abs_sum_le {k : Nat} {g : Nat → Int} {M : Int} (h : ∀ l < k, |g l| ≤ M) : |∑ l ∈ range k, g l| ≤ k * M := by
  refine (abs_sum_le_sum_abs _ _).trans ((sum_le_card_nsmul _ _ M fun l hl => h l (mem_range.mp hl)).trans ?_)
  rw [card_range, nsmul_eq_mul]

theorem i32_abs {x P : Int} (h : |x| ≤ P) (hP : P ≤ 2147483647) : i32 x = .ok x := by
  rw [abs_le] at h
  exact i32_of ⟨by omega, by omega⟩

theorem sum32_ok {f : Nat → Exec Int} {g : Nat → Int} {M : Int} (hM : 0 ≤ M) : ∀ (k : Nat), (∀ l < k, f l = .ok (g l)) →
    (∀ l < k, |g l| ≤ M) → k * M ≤ 2147483647 → sum32 f k = .ok (∑ l ∈ range k, g l)
  | 0, _, _, _ => rfl
  | k + 1, h, hg, hk => by
    have e : ((k + 1 : Nat) : Int) * M = k * M + M := by push_cast; ring
    have ih := sum32_ok hM k (fun l hl => h l (by omega)) (fun l hl => hg l (by omega)) (by omega)
    unfold sum32
    rw [ih, ok_bind, h k (by omega), ok_bind, sum_range_succ]
    refine i32_abs (P := ((k + 1 : Nat) : Int) * M) ?_ hk
    rw [← sum_range_succ]
    exact abs_sum_le hg

theorem reach_facts (z : Int) : 255 ≤ Spec.reach z ∧ |z| ≤ Spec.reach z ∧
    ∀ x : Int, 0 ≤ x → x ≤ 255 → |x - z| ≤ Spec.reach z := by
  unfold Spec.reach
  refine ⟨le_max_left _ _, (le_max_left _ _).trans (le_max_right _ _), fun x h0 h1 => ?_⟩
  have a1 := le_abs_self z
  have a2 := neg_abs_le z
  have a3 := le_abs_self (255 - z)
  have a4 := neg_abs_le (255 - z)
  have b1 : |z| ≤ max 255 (max |z| |255 - z|) := (le_max_left _ _).trans (le_max_right _ _)
  have b2 : |255 - z| ≤ max 255 (max |z| |255 - z|) := (le_max_right _ _).trans (le_max_right _ _)
  rw [abs_le]
  constructor <;> omega

theorem reach_small {z : Int} (h0 : 0 ≤ z) (h1 : z ≤ 255) : Spec.reach z = 255 := by
  unfold Spec.reach
  rw [abs_of_nonneg h0, abs_of_nonneg (by omega)]
  omega

theorem gemmEntry_ok {a b : List Nat} {lda ldb zA zB : Int} {k i j : Nat} {x y : Nat → Int}
    (hx : ∀ l < k, byteAt a lda i l = .ok (x l)) (hy : ∀ l < k, byteAt b ldb l j = .ok (y l))
    (hx0 : ∀ l < k, 0 ≤ x l ∧ x l ≤ 255) (hy0 : ∀ l < k, 0 ≤ y l ∧ y l ≤ 255)
    (hk : (k : Int) * (Spec.reach zA * Spec.reach zB) ≤ 2147483647) :
    gemmEntry a b (-zA) (-zB) lda ldb k i j = .ok (∑ l ∈ range k, (x l - zA) * (y l - zB)) := by
  obtain ⟨ra, za, da⟩ := reach_facts zA
  obtain ⟨rb, zb, db⟩ := reach_facts zB
  generalize Spec.reach zA = RA at *
  generalize Spec.reach zB = RB at *
  have big : ∀ {u v : Int}, |u| ≤ RA → |v| ≤ RB → |u * v| ≤ RA * RB := fun {u v} hu hv => by
    rw [abs_mul]
    exact mul_le_mul hu hv (abs_nonneg v) (by omega)
  have h0 : (0 : Int) ≤ RA * RB := mul_nonneg (by omega) (by omega)
  have small : ∀ {u : Int}, 0 ≤ u → u ≤ 255 → |u| ≤ 255 := fun {u} h1 h2 => by rw [abs_le]; constructor <;> omega
  have one : |(1 : Int)| ≤ RA := by rw [abs_one]; omega
  have one' : |(1 : Int)| ≤ RB := by rw [abs_one]; omega
  have xa : ∀ l < k, |x l| ≤ RA := fun l hl => (small (hx0 l hl).1 (hx0 l hl).2).trans ra
  have yb : ∀ l < k, |y l| ≤ RB := fun l hl => (small (hy0 l hl).1 (hy0 l hl).2).trans rb
  have nzb : |(-zB)| ≤ RB := by rw [abs_neg]; exact zb
  have nza : |(-zA)| ≤ RA := by rw [abs_neg]; exact za
  have e1 : (∑ l ∈ range k, x l) * -zB = ∑ l ∈ range k, x l * -zB := by rw [sum_mul]
  have e2 : (∑ l ∈ range k, x l * y l) + ∑ l ∈ range k, x l * -zB = ∑ l ∈ range k, x l * (y l - zB) := by
    rw [← sum_add_distrib]; exact sum_congr rfl fun l _ => by ring
  have e3 : -zB * (k : Int) = ∑ l ∈ range k, 1 * -zB := by rw [sum_const, card_range, nsmul_eq_mul]; ring
  have e4 : (∑ l ∈ range k, y l) + ∑ l ∈ range k, 1 * -zB = ∑ l ∈ range k, 1 * (y l - zB) := by
    rw [← sum_add_distrib]; exact sum_congr rfl fun l _ => by ring
  have e5 : (∑ l ∈ range k, 1 * (y l - zB)) * -zA = ∑ l ∈ range k, -zA * (y l - zB) := by
    rw [sum_mul]; exact sum_congr rfl fun l _ => by ring
  have e6 : (∑ l ∈ range k, x l * (y l - zB)) + ∑ l ∈ range k, -zA * (y l - zB) =
      ∑ l ∈ range k, (x l - zA) * (y l - zB) := by
    rw [← sum_add_distrib]; exact sum_congr rfl fun l _ => by ring
  unfold gemmEntry
  rw [sum32_ok (g := fun l => x l * y l) h0 k (fun l hl => by simp only [hx l hl, hy l hl, ok_bind])
      (fun l hl => big (xa l hl) (yb l hl)) hk, ok_bind,
    sum32_ok (g := x) h0 k hx (fun l hl => by have := big (xa l hl) one'; rwa [mul_one] at this) hk, ok_bind,
    sum32_ok (g := y) h0 k hy (fun l hl => by have := big one (yb l hl); rwa [one_mul] at this) hk, ok_bind,
    e1, i32_abs (abs_sum_le fun l hl => big (xa l hl) nzb) hk, ok_bind,
    e2, i32_abs (abs_sum_le fun l hl => big (xa l hl) (db _ (hy0 l hl).1 (hy0 l hl).2)) hk, ok_bind,
    e3, i32_abs (abs_sum_le fun l _ => big one nzb) hk, ok_bind,
    e4, i32_abs (abs_sum_le fun l hl => big one (db _ (hy0 l hl).1 (hy0 l hl).2)) hk, ok_bind,
    e5, i32_abs (abs_sum_le fun l hl => big nza (db _ (hy0 l hl).1 (hy0 l hl).2)) hk, ok_bind,
    e6, i32_abs (abs_sum_le fun l hl => big (da _ (hx0 l hl).1 (hx0 l hl).2) (db _ (hy0 l hl).1 (hy0 l hl).2)) hk]

/-! ## Storing -/

/-- The elements before position `p` are set as `g` says, the others are those of `mem`. -/
def Stored {F : Type} (n : Nat) (g : Nat → Nat → F) (mem : List (Option F)) (p : Nat) (mem' : List (Option F)) : Prop :=
  mem'.length = mem.length ∧ (∀ q, p ≤ q → mem'[q]? = mem[q]?) ∧
    ∀ i j, j < n → i * n + j < p → mem'[i * n + j]? = some (some (g i j))

theorem storeRow_ok {F : Type} {n i : Nat} {f : Nat → Nat → Exec F} {g : Nat → Nat → F} {mem : List (Option F)}
    (hf : ∀ j < n, f i j = .ok (g i j)) (hm : i * n + n ≤ mem.length) :
    ∀ (c : Nat), c ≤ n → ∀ mem1, Stored n g mem (i * n) mem1 →
      ∃ mem2, (List.range c).foldlM (fun mem j => do
        let x ← f i j
        storeAt mem ((i : Int) * (n : Int) + j) x) mem1 = (.ok mem2 : Exec _) ∧ Stored n g mem (i * n + c) mem2
  | 0, _, mem1, h => ⟨mem1, rfl, h⟩
  | c + 1, hc, mem1, h => by
    obtain ⟨mem2, h1, h2, h3, h4⟩ := storeRow_ok hf hm c (by omega) mem1 h
    rw [List.range_succ, List.foldlM_append, h1]
    refine ⟨mem2.set (i * n + c) (some (g i c)), ?_, by rw [List.length_set, h2], ?_, ?_⟩
    · rw [ok_bind]
      rw [List.foldlM_cons, hf c (by omega), ok_bind]
      show (storeAt mem2 ((i : Int) * (n : Int) + (c : Nat)) (g i c) >>= fun m => pure m) = _
      rw [bind_pure]
      unfold storeAt
      have e : ((i : Int) * (n : Int) + (c : Nat)) = ((i * n + c : Nat) : Int) := by push_cast; ring
      rw [e, if_pos ⟨by omega, by rw [h2]; omega⟩, Int.toNat_natCast]
    · intro q hq
      rw [List.getElem?_set_ne (by omega), h3 q (by omega)]
    · intro i' j hj hp
      by_cases e : i' * n + j = i * n + c
      · have : i' = i ∧ j = c := by
          have hn : 0 < n := by omega
          have d1 : (i' * n + j) / n = i' := by
            rw [Nat.mul_comm, Nat.mul_add_div hn, Nat.div_eq_of_lt hj, Nat.add_zero]
          have d2 : (i * n + c) / n = i := by
            rw [Nat.mul_comm, Nat.mul_add_div hn, Nat.div_eq_of_lt (by omega), Nat.add_zero]
          have : i' = i := by rw [← d1, e, d2]
          subst this
          exact ⟨rfl, by omega⟩
        rw [e, this.1, this.2, List.getElem?_set_self (by rw [h2]; omega)]
      · rw [List.getElem?_set_ne (fun h => e h.symm)]
        exact h4 i' j hj (by omega)

theorem storeAll_ok {F : Type} {m n : Nat} {f : Nat → Nat → Exec F} {g : Nat → Nat → F} {mem : List (Option F)}
    (hf : ∀ i j, i < m → j < n → f i j = .ok (g i j)) (hm : m * n ≤ mem.length) :
    ∃ mem', storeAll m n (n : Int) f mem = .ok mem' ∧ Stored n g mem (m * n) mem' := by
  have key : ∀ r, r ≤ m → ∃ mem', storeAll r n (n : Int) f mem = .ok mem' ∧ Stored n g mem (r * n) mem' := by
    intro r
    induction r with
    | zero =>
      intro _
      exact ⟨mem, rfl, rfl, fun q _ => rfl, fun i j _ h => by omega⟩
    | succ r ih =>
      intro hr
      obtain ⟨mem1, h1, h2⟩ := ih (by omega)
      have e : (r + 1) * n = r * n + n := Nat.succ_mul r n
      have hle : (r + 1) * n ≤ m * n := Nat.mul_le_mul_right n hr
      obtain ⟨mem2, h3, h4⟩ := storeRow_ok (f := f) (fun j hj => hf r j (by omega) hj) (by omega) n (Nat.le_refl n) mem1 h2
      refine ⟨mem2, ?_, by rw [e]; exact h4⟩
      unfold storeAll at h1 ⊢
      rw [List.range_succ, List.foldlM_append, h1, ok_bind, List.foldlM_cons, h3, ok_bind]
      rfl
  exact key m (Nat.le_refl m)

/-! ## C81 -/

theorem zero_point_range {data : List K} {lo hi : K} (h : Spec.Range data lo hi) (h0 : lo ≤ 0) :
    0 ≤ roundAway (-lo / ((hi - lo) / 255)) ∧ roundAway (-lo / ((hi - lo) / 255)) ≤ 255 := by
  have hp : (0 : K) < hi := lt_of_lt_of_le (by positivity) h.least
  have hs : 0 < (hi - lo) / 255 := div_pos (by linarith [h.lt]) (by norm_num)
  refine round_mono_bounds (div_nonneg (by linarith) hs.le) ?_
  rw [div_le_iff₀ hs]
  linarith

theorem mul_near {a b a' b' sa sb : K} (ha : |a' - a| ≤ sa / 2) (hb : |b' - b| ≤ sb / 2) :
    |a' * b' - a * b| ≤ |a| * (sb / 2) + |b| * (sa / 2) + sa * sb / 4 := by
  have e : a' * b' - a * b = a * (b' - b) + b * (a' - a) + (a' - a) * (b' - b) := by ring
  have h1 : |a * (b' - b)| ≤ |a| * (sb / 2) := by rw [abs_mul]; exact mul_le_mul_of_nonneg_left hb (abs_nonneg a)
  have h2 : |b * (a' - a)| ≤ |b| * (sa / 2) := by rw [abs_mul]; exact mul_le_mul_of_nonneg_left ha (abs_nonneg b)
  have h3 : |(a' - a) * (b' - b)| ≤ sa * sb / 4 := by
    rw [abs_mul]
    have := mul_le_mul ha hb (abs_nonneg _) ((abs_nonneg _).trans ha)
    linarith
  rw [e]
  exact (abs_add_le _ _).trans (add_le_add ((abs_add_le _ _).trans (add_le_add h1 h2)) h3)

/-- **C81.**  Exact arithmetic.  Two matrices without padding are quantised and their bytes multiplied: element `(i, j)`
of the result differs from that of the product of the matrices by at most the slack of the two steps.  Nothing else in
the memory of the result changes.

Partial: the property demands this whenever the matrices can be quantised, but the sums must fit an `int32_t`
(`C81_overflow_fails`), a matrix must have more than one element (`C81_single_refused`) and the result must not have
padding (`C81_padding_fails`). -/
theorem C81_error_partial {m k n : Nat} {A B : List K} (hA : A.length = m * k) (hB : B.length = k * n)
    {loA hiA loB hiB : K} (rA : Spec.Range A loA hiA) (rB : Spec.Range B loB hiB)
    (hAs : 1 < m * k) (hBs : 1 < k * n) (hAl : m * k ≤ 2147483647) (hBl : k * n ≤ 2147483647)
    {qa qb : List Nat} {pa pb : Params K} (ha : quantize (exact K) m k k A = .ok (qa, pa))
    (hb : quantize (exact K) k n n B = .ok (qb, pb))
    (hk : (k : Int) * (Spec.reach pa.zeroPoint * Spec.reach pb.zeroPoint) ≤ 2147483647)
    (mem : List (Option K)) (hm : m * n ≤ mem.length) :
    ∃ mem', matMatU8 (fun x : Int => (x : K)) (· * ·) ⟨m, k, k, qa⟩ pa ⟨k, n, n, qb⟩ pb ⟨m, n, n, mem⟩ = .ok mem' ∧
      mem'.length = mem.length ∧ (∀ p, m * n ≤ p → mem'[p]? = mem[p]?) ∧
      ∀ i j, i < m → j < n → ∃ c, mem'[i * n + j]? = some (some c) ∧
        |c - Spec.prod A B k n i j| ≤ Spec.slack A B k n pa.scale pb.scale i j := by
  have pos : ∀ {x y : Nat}, 1 < x * y → 0 < x ∧ 0 < y := by
    intro x y h
    constructor
    · rcases Nat.eq_zero_or_pos x with e | e
      · rw [e, Nat.zero_mul] at h; omega
      · exact e
    · rcases Nat.eq_zero_or_pos y with e | e
      · rw [e, Nat.mul_zero] at h; omega
      · exact e
  obtain ⟨m0, k0⟩ := pos hAs
  obtain ⟨-, n0⟩ := pos hBs
  obtain ⟨qa', pa', g1, g2, g3, g4, g5⟩ := quantize_exact (m : Int) (k : Int) A (by omega) (by omega)
    (by exact_mod_cast hAl) (by rw [hA]; push_cast; rfl) rA.lo_mem rA.lo_le rA.most rA.hi_mem rA.le_hi rA.least rA.lt rA.fits
  obtain ⟨qb', pb', f1, f2, f3, f4, f5⟩ := quantize_exact (k : Int) (n : Int) B (by omega) (by omega)
    (by exact_mod_cast hBl) (by rw [hB]; push_cast; rfl) rB.lo_mem rB.lo_le rB.most rB.hi_mem rB.le_hi rB.least rB.lt rB.fits
  rw [ha] at g1
  cases g1
  rw [hb] at f1
  cases f1
  have small : ∀ {data : List K} {lo hi : K}, Spec.Range data lo hi →
      -2147483647 ≤ roundAway (-lo / ((hi - lo) / 255)) ∧ roundAway (-lo / ((hi - lo) / 255)) ≤ 2147483647 := by
    intro data lo hi r
    have hsub : hi - lo ≠ 0 := ne_of_gt (by linarith [r.lt])
    have hzr : -lo / ((hi - lo) / 255) = -(255 * lo / (hi - lo)) := by field_simp
    have hnear := round_near (-lo / ((hi - lo) / 255))
    have hfit := r.fits
    rw [hzr] at hnear ⊢
    rw [abs_le] at hnear hfit
    constructor
    · have : ((-2147483647 : Int) : K) ≤ (roundAway (-(255 * lo / (hi - lo))) : K) := by
        push_cast; linarith [hnear.1, hfit.2]
      exact_mod_cast this
    · have : (roundAway (-(255 * lo / (hi - lo))) : K) ≤ ((2147483647 : Int) : K) := by
        push_cast; linarith [hnear.2, hfit.1]
      exact_mod_cast this
  have idx : ∀ {x y i j : Nat}, i < x → j < y → i * y + j < x * y := by
    intro x y i j hi hj
    have := Nat.mul_le_mul_right y (show i + 1 ≤ x by omega)
    rw [Nat.succ_mul] at this
    omega
  -- the bytes
  have ea : ∀ i l, i < m → l < k → ∃ x : Nat, byteAt qa k i l = .ok (x : Int) ∧ x ≤ 255 ∧
      |((x : K) - pa.zeroPoint) * pa.scale - Spec.el A k i l| ≤ pa.scale / 2 := by
    intro i l hi hl
    have hlt : i * k + l < A.length := by rw [hA]; exact idx hi hl
    obtain ⟨x, h1, h2, h3⟩ := g5 (i * k + l) A[i * k + l] (List.getElem?_eq_getElem hlt)
    refine ⟨x, ?_, h2, ?_⟩
    · unfold byteAt
      rw [show ((i : Int) * (k : Int) + (l : Nat)) = ((i * k + l : Nat) : Int) by push_cast; ring, aget_nat h1, ok_bind]
    · unfold Spec.el
      rw [List.getD_eq_getElem?_getD, List.getElem?_eq_getElem hlt]
      exact h3
  have eb : ∀ l j, l < k → j < n → ∃ x : Nat, byteAt qb n l j = .ok (x : Int) ∧ x ≤ 255 ∧
      |((x : K) - pb.zeroPoint) * pb.scale - Spec.el B n l j| ≤ pb.scale / 2 := by
    intro i l hi hl
    have hlt : i * n + l < B.length := by rw [hB]; exact idx hi hl
    obtain ⟨x, h1, h2, h3⟩ := f5 (i * n + l) B[i * n + l] (List.getElem?_eq_getElem hlt)
    refine ⟨x, ?_, h2, ?_⟩
    · unfold byteAt
      rw [show ((i : Int) * (n : Int) + (l : Nat)) = ((i * n + l : Nat) : Int) by push_cast; ring, aget_nat h1, ok_bind]
    · unfold Spec.el
      rw [List.getD_eq_getElem?_getD, List.getElem?_eq_getElem hlt]
      exact h3
  -- one element
  have entry : ∀ i j, ∃ c : K, i < m → j < n → ((do
      let s ← gemmEntry qa qb (-pa.zeroPoint) (-pb.zeroPoint) k n k i j
      .ok ((s : K) * (pa.scale * pb.scale)) : Exec K) = .ok c ∧
        |c - Spec.prod A B k n i j| ≤ Spec.slack A B k n pa.scale pb.scale i j) := by
    intro i j
    by_cases hij : i < m ∧ j < n
    · obtain ⟨hi, hj⟩ := hij
      have hx : ∀ l, ∃ x : Nat, l < k → byteAt qa k i l = .ok (x : Int) ∧ x ≤ 255 ∧
          |((x : K) - pa.zeroPoint) * pa.scale - Spec.el A k i l| ≤ pa.scale / 2 := by
        intro l
        by_cases hl : l < k
        · obtain ⟨x, h⟩ := ea i l hi hl; exact ⟨x, fun _ => h⟩
        · exact ⟨0, fun h => absurd h hl⟩
      have hy : ∀ l, ∃ x : Nat, l < k → byteAt qb n l j = .ok (x : Int) ∧ x ≤ 255 ∧
          |((x : K) - pb.zeroPoint) * pb.scale - Spec.el B n l j| ≤ pb.scale / 2 := by
        intro l
        by_cases hl : l < k
        · obtain ⟨x, h⟩ := eb l j hl hj; exact ⟨x, fun _ => h⟩
        · exact ⟨0, fun h => absurd h hl⟩
      choose x hx using hx
      choose y hy using hy
      refine ⟨∑ l ∈ range k, (((x l : K) - pa.zeroPoint) * pa.scale) * (((y l : K) - pb.zeroPoint) * pb.scale),
        fun _ _ => ⟨?_, ?_⟩⟩
      · rw [gemmEntry_ok (x := fun l => (x l : Int)) (y := fun l => (y l : Int)) (fun l hl => (hx l hl).1)
          (fun l hl => (hy l hl).1) (fun l hl => ⟨by omega, by have := (hx l hl).2.1; omega⟩)
          (fun l hl => ⟨by omega, by have := (hy l hl).2.1; omega⟩) hk, ok_bind]
        refine congrArg _ ?_
        push_cast
        rw [sum_mul]
        exact sum_congr rfl fun l _ => by ring
      · unfold Spec.prod Spec.slack
        rw [← sum_sub_distrib]
        refine (abs_sum_le_sum_abs _ _).trans (sum_le_sum fun l hl => ?_)
        have hl := mem_range.mp hl
        exact mul_near (hx l hl).2.2 (hy l hl).2.2
    · exact ⟨0, fun h1 h2 => absurd ⟨h1, h2⟩ hij⟩
  choose c hc using entry
  obtain ⟨mem', h1, h2, h3, h4⟩ := storeAll_ok (g := c) (mem := mem) (fun i j hi hj => (hc i j hi hj).1) hm
  refine ⟨mem', ?_, h2, h3, fun i j hi hj => ⟨c i j, h4 i j hj (idx hi hj), (hc i j hi hj).2⟩⟩
  unfold matMatU8
  have sA := small rA
  have sB := small rB
  rw [← g3] at sA
  rw [← f3] at sB
  have cA : ((k : Int) * (m : Int)) = ((m * k : Nat) : Int) := by push_cast; ring
  have cB : ((n : Int) * (k : Int)) = ((k * n : Nat) : Int) := by push_cast; ring
  rw [decide_eq_true ⟨rfl, rfl, rfl⟩, cassert_true, ok_bind, cA, i32_of ⟨by omega, by omega⟩, ok_bind,
    decide_eq_true (by omega), cassert_true, ok_bind, cB, i32_of ⟨by omega, by omega⟩, ok_bind,
    decide_eq_true (by omega), cassert_true, ok_bind, i32_of ⟨by omega, by omega⟩, ok_bind,
    i32_of ⟨by omega, by omega⟩, ok_bind]
  exact h1

/-- **C81, numbers of both signs.**  If the entries of both matrices are on both sides of zero, up to 33025 terms can be
summed. -/
theorem C81_error_around_zero {m k n : Nat} {A B : List K} (hA : A.length = m * k) (hB : B.length = k * n)
    {loA hiA loB hiB : K} (rA : Spec.Range A loA hiA) (rB : Spec.Range B loB hiB) (zA : loA ≤ 0) (zB : loB ≤ 0)
    (hk : k ≤ 33025) (hAs : 1 < m * k) (hBs : 1 < k * n) (hAl : m * k ≤ 2147483647) (hBl : k * n ≤ 2147483647)
    (mem : List (Option K)) (hm : m * n ≤ mem.length) :
    ∃ qa pa qb pb, quantize (exact K) m k k A = .ok (qa, pa) ∧ quantize (exact K) k n n B = .ok (qb, pb) ∧
      ∃ mem', matMatU8 (fun x : Int => (x : K)) (· * ·) ⟨m, k, k, qa⟩ pa ⟨k, n, n, qb⟩ pb ⟨m, n, n, mem⟩ = .ok mem' ∧
        mem'.length = mem.length ∧ (∀ p, m * n ≤ p → mem'[p]? = mem[p]?) ∧
        ∀ i j, i < m → j < n → ∃ c, mem'[i * n + j]? = some (some c) ∧
          |c - Spec.prod A B k n i j| ≤ Spec.slack A B k n ((hiA - loA) / 255) ((hiB - loB) / 255) i j := by
  have m0 : 0 < m := by rcases Nat.eq_zero_or_pos m with e | e; · rw [e, Nat.zero_mul] at hAs; omega
                        · exact e
  have k0 : 0 < k := by rcases Nat.eq_zero_or_pos k with e | e; · rw [e, Nat.zero_mul] at hBs; omega
                        · exact e
  have n0 : 0 < n := by rcases Nat.eq_zero_or_pos n with e | e; · rw [e, Nat.mul_zero] at hBs; omega
                        · exact e
  obtain ⟨qa, pa, g1, g2, g3, -, -⟩ := quantize_exact (m : Int) (k : Int) A (by omega) (by omega)
    (by exact_mod_cast hAl) (by rw [hA]; push_cast; rfl) rA.lo_mem rA.lo_le rA.most rA.hi_mem rA.le_hi rA.least rA.lt rA.fits
  obtain ⟨qb, pb, f1, f2, f3, -, -⟩ := quantize_exact (k : Int) (n : Int) B (by omega) (by omega)
    (by exact_mod_cast hBl) (by rw [hB]; push_cast; rfl) rB.lo_mem rB.lo_le rB.most rB.hi_mem rB.le_hi rB.least rB.lt rB.fits
  refine ⟨qa, pa, qb, pb, g1, f1, ?_⟩
  obtain ⟨a1, a2⟩ := zero_point_range rA zA
  obtain ⟨b1, b2⟩ := zero_point_range rB zB
  have := C81_error_partial hA hB rA rB hAs hBs hAl hBl g1 f1
    (by rw [g3, f3, reach_small a1 a2, reach_small b1 b2]; omega) mem hm
  rwa [g2, f2] at this

/-- **C81 fails** for numbers far from zero: a row of 40 numbers 0 and 1 by a column of numbers 1000 and 1001.  The zero
point of the column is -255000, and the sum overflows. -/
theorem C81_overflow_fails :
    (do
      let a ← quantize (exact Rat) 1 40 40 (0 :: List.replicate 39 1)
      let b ← quantize (exact Rat) 40 1 1 (1000 :: List.replicate 39 1001)
      matMatU8 (fun x : Int => (x : Rat)) (· * ·) ⟨1, 40, 40, a.1⟩ a.2 ⟨40, 1, 1, b.1⟩ b.2 ⟨1, 1, 1, [none]⟩) =
    .error .ub := by
  decide +kernel

/-- A matrix of one element is refused, although it can be quantised. -/
theorem C81_single_refused {F : Type} (ofInt : Int → F) (mul : F → F → F) (A B : ByteMat) (pa pb : Params F)
    (C : FloatMat F) (h : A.rows = 1 ∧ A.cols = 1) : matMatU8 ofInt mul A pa B pb C = .error .assert := by
  unfold matMatU8
  by_cases hd : A.cols = B.rows ∧ A.rows = C.rows ∧ B.cols = C.cols
  · rw [decide_eq_true hd, cassert_true, ok_bind, h.1, h.2]
    rfl
  · rw [decide_eq_false hd]
    rfl

example : ∃ r, quantize (exact Rat) 1 1 1 [-1] = .ok r := ⟨([0], ⟨(1 / 2 ^ 126 + 1) / 255, 255⟩), by decide +kernel⟩

/-- **C81 fails** if the rows of the result are further apart than its columns: element `(1, 0)` is not set. -/
theorem C81_padding_fails :
    (do
      let a ← quantize (exact Rat) 2 1 1 [-1, 1]
      let b ← quantize (exact Rat) 1 2 2 [0, 1]
      matMatU8 (fun x : Int => (x : Rat)) (· * ·) ⟨2, 1, 1, a.1⟩ a.2 ⟨1, 2, 2, b.1⟩ b.2
        ⟨2, 2, 4, List.replicate 8 none⟩).map (fun mem : List (Option Rat) => (mem[1 * 4 + 0]?, mem.length)) = .ok (some none, 8) := by
  decide +kernel

/-- The hypotheses of `C81_error_around_zero` can be met. -/
example : Spec.Range ([-1, 1] : List Rat) (-1) 1 ∧ Spec.Range ([0, 1] : List Rat) 0 1 := by
  refine ⟨⟨by decide, by decide, .inl (by decide), by decide, by decide +kernel, by decide +kernel, by decide, ?_⟩,
    ⟨by decide, by decide, .inl (by decide), by decide, by decide +kernel, by decide +kernel, by decide, ?_⟩⟩
  · norm_num
  · norm_num

/-- The hypotheses of `C81_error_partial` for numbers away from zero: zero points 0 and -1000. -/
example : ∃ qa qb pa pb, quantize (exact Rat) 1 2 2 [0, 1] = .ok (qa, pa) ∧
    quantize (exact Rat) 2 1 1 [200, 251] = .ok (qb, pb) ∧
    (2 : Int) * (Spec.reach pa.zeroPoint * Spec.reach pb.zeroPoint) ≤ 2147483647 :=
  ⟨[0, 255], [0, 255], ⟨1 / 255, 0⟩, ⟨1 / 5, -1000⟩, by decide +kernel, by decide +kernel, by decide⟩

end Verif.Quant
