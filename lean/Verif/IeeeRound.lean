import Mathlib.Data.Rat.Floor
import Mathlib.Tactic.Linarith
import Mathlib.Tactic.Positivity
import Mathlib.Tactic.Ring
import Mathlib.Tactic.FieldSimp

/-!
# Rounding to `float` and `double`

The numbers of the two types the code computes with, and rounding to the nearest of them, as IEEE 754 has it.
`/repo` names the types (`src/decoder.cc` 97-420) and leaves the arithmetic to the machine.
-/

namespace Verif.Ieee

/-- Stands for `float` and `double` (`src/decoder.cc` 97-102, 181-236): digits of the significand, exponent of the smallest
positive number, and the power of two above all numbers. -/
structure Format where
  prec : Nat
  low : Int
  top : Int
deriving DecidableEq, Repr

/-- `float`, as in `src/decoder.cc` 97-102. -/
def binary32 : Format := ⟨24, -149, 128⟩

/-- `double`, as in `src/decoder.cc` 181. -/
def binary64 : Format := ⟨53, -1074, 1024⟩

/-- Powers of two, for the formats of `src/decoder.cc` 97-102 and 181. -/
def pow2 : Int → Rat
  | .ofNat n => ((2 ^ n : Nat) : Rat)
  | .negSucc n => 1 / ((2 ^ (n + 1) : Nat) : Rat)

/-- A whole number of at most `prec` binary digits times a power of two: a number of the format, were there no largest. -/
def Grid (f : Format) (q : Rat) : Prop := ∃ m k : Int, |m| < 2 ^ f.prec ∧ f.low ≤ k ∧ q = m * pow2 k

/-- A number of the format. -/
def Rep (f : Format) (q : Rat) : Prop := Grid f q ∧ |q| < pow2 f.top

/-- Binary exponent of a number that is not zero; part of the rounding of every operation of `src/decoder.cc` 97-420. -/
def ilog (q : Rat) : Int :=
  let e : Int := (Nat.log2 q.num.natAbs : Int) - (Nat.log2 q.den : Int)
  if pow2 e * (q.den : Rat) ≤ (q.num.natAbs : Rat) then e else e - 1

/-- The nearest whole number, of two the even one; part of the rounding of every operation of `src/decoder.cc` 97-420. -/
def near (y : Rat) : Int :=
  let n := ⌊y⌋
  let r := y - n
  if r < 1 / 2 then n else if 1 / 2 < r then n + 1 else if n % 2 = 0 then n else n + 1

/-- Distance of the numbers of the format around `q`, as an exponent; part of the rounding of every operation of
`src/decoder.cc` 97-420. -/
def unit (f : Format) (q : Rat) : Int := max (ilog q - ((f.prec : Int) - 1)) f.low

/-- Rounding to the nearest number of the format, were there no largest; part of every operation of `src/decoder.cc`
97-420. -/
def round (f : Format) (q : Rat) : Rat := if q = 0 then 0 else (near (q / pow2 (unit f q)) : Rat) * pow2 (unit f q)

/-! ## Lemmas -/

theorem pow2_eq (k : Int) : pow2 k = (2 : Rat) ^ k := by
  cases k with
  | ofNat n => simp [pow2]
  | negSucc n => simp [pow2, zpow_negSucc]

theorem pow2_pos (k : Int) : 0 < pow2 k := by rw [pow2_eq]; exact zpow_pos (by norm_num) k

theorem pow2_add (a b : Int) : pow2 (a + b) = pow2 a * pow2 b := by
  simp only [pow2_eq]; exact zpow_add₀ (by norm_num) a b

theorem pow2_le {a b : Int} (h : a ≤ b) : pow2 a ≤ pow2 b := by
  simp only [pow2_eq]; exact zpow_le_zpow_right₀ (by norm_num) h

theorem pow2_nat (n : Nat) : pow2 n = ((2 ^ n : Int) : Rat) := by
  rw [pow2_eq]; push_cast; rw [zpow_natCast]

theorem pow2_one : pow2 1 = 2 := by rw [pow2_eq]; norm_num

theorem pow2_zero : pow2 0 = 1 := by rw [pow2_eq]; norm_num

/-- A power of two is a whole multiple of every smaller one. -/
theorem pow2_mul {a b : Int} (h : a ≤ b) : ∃ n : Nat, b = a + n ∧ pow2 b = ((2 ^ n : Int) : Rat) * pow2 a := by
  obtain ⟨n, rfl⟩ := Int.le.dest h
  exact ⟨n, rfl, by rw [pow2_add, pow2_nat, mul_comm]⟩

theorem ilog_spec {q : Rat} (h : q ≠ 0) : pow2 (ilog q) ≤ |q| ∧ |q| < pow2 (ilog q + 1) := by
  have hn : q.num.natAbs ≠ 0 := by simpa using h
  have hd : q.den ≠ 0 := q.den_nz
  have hdq : (0 : Rat) < q.den := by exact_mod_cast q.den_pos
  have habs : |q| = (q.num.natAbs : Rat) / (q.den : Rat) := by
    conv_lhs => rw [← Rat.num_div_den q]
    rw [abs_div, abs_of_pos hdq]
    congr 1
    rw [← Int.cast_abs, Int.abs_eq_natAbs]; simp
  have n1 : ((2 ^ (Nat.log2 q.num.natAbs) : Nat) : Rat) ≤ q.num.natAbs := by exact_mod_cast Nat.log2_self_le hn
  have n2 : (q.num.natAbs : Rat) < ((2 ^ (Nat.log2 q.num.natAbs + 1) : Nat) : Rat) := by
    exact_mod_cast Nat.lt_log2_self
  have d1 : ((2 ^ (Nat.log2 q.den) : Nat) : Rat) ≤ q.den := by exact_mod_cast Nat.log2_self_le hd
  have d2 : (q.den : Rat) < ((2 ^ (Nat.log2 q.den + 1) : Nat) : Rat) := by exact_mod_cast Nat.lt_log2_self
  generalize hN : (q.num.natAbs : Rat) = N at *
  generalize hD : (q.den : Rat) = D at *
  generalize ha : Nat.log2 q.num.natAbs = a at *
  generalize hb : Nat.log2 q.den = b at *
  have e1 : ((2 ^ a : Nat) : Rat) = pow2 a := by rw [pow2_nat]; push_cast; rfl
  have e2 : ((2 ^ (a + 1) : Nat) : Rat) = pow2 a * 2 := by rw [pow2_nat]; push_cast; ring
  have e3 : ((2 ^ b : Nat) : Rat) = pow2 b := by rw [pow2_nat]; push_cast; rfl
  have e4 : ((2 ^ (b + 1) : Nat) : Rat) = pow2 b * 2 := by rw [pow2_nat]; push_cast; ring
  rw [e1] at n1; rw [e2] at n2; rw [e3] at d1; rw [e4] at d2
  have hab : pow2 ((a : Int) - b) * pow2 b = pow2 a := by rw [← pow2_add]; congr 1; omega
  have hp := pow2_pos ((a : Int) - b)
  have hpb := pow2_pos (b : Int)
  unfold ilog
  simp only [hN, hD, ha, hb]
  rw [habs]
  split
  · rename_i hle
    refine ⟨(le_div_iff₀ hdq).2 hle, (div_lt_iff₀ hdq).2 ?_⟩
    rw [pow2_add, pow2_one]
    calc N < pow2 a * 2 := n2
      _ = pow2 ((a : Int) - b) * 2 * pow2 b := by rw [← hab]; ring
      _ ≤ pow2 ((a : Int) - b) * 2 * D := by gcongr
  · rename_i hle
    have hle := not_le.1 hle
    refine ⟨(le_div_iff₀ hdq).2 ?_, (div_lt_iff₀ hdq).2 ?_⟩
    · have : pow2 ((a : Int) - b) = pow2 ((a : Int) - b - 1) * 2 := by
        rw [← pow2_one, ← pow2_add]; congr 1; omega
      calc pow2 ((a : Int) - b - 1) * D ≤ pow2 ((a : Int) - b - 1) * (pow2 b * 2) := by
            have := pow2_pos ((a : Int) - b - 1); gcongr
        _ = pow2 a := by rw [← hab, this]; ring
        _ ≤ N := n1
    · rw [show (a : Int) - b - 1 + 1 = a - b by omega]; exact hle

theorem near_err (y : Rat) : |(near y : Rat) - y| ≤ 1 / 2 := by
  have h1 := Int.floor_le y
  have h2 := Int.lt_floor_add_one y
  unfold near
  simp only
  split
  · rename_i h
    rw [abs_le]; constructor <;> linarith
  · rename_i h
    split
    · push_cast
      rw [abs_le]; constructor <;> linarith
    · rename_i g
      split
      · rw [abs_le]; constructor <;> linarith
      · push_cast
        rw [abs_le]; constructor <;> linarith

/-- The nearest whole number is the nearest whole number. -/
theorem near_best (y : Rat) (z : Int) : |(near y : Rat) - y| ≤ |(z : Rat) - y| := by
  by_cases h : z = near y
  · rw [h]
  · have h1 := near_err y
    have h2 : (1 : Rat) ≤ |(z : Rat) - near y| := by
      rw [← Int.cast_sub, ← Int.cast_abs]
      exact_mod_cast Int.one_le_abs (sub_ne_zero.2 h)
    have h3 : |(z : Rat) - near y| ≤ |(z : Rat) - y| + |(near y : Rat) - y| := by
      rw [abs_sub_comm (near y : Rat) y]; exact abs_sub_le _ _ _
    linarith

theorem near_neg_abs (y : Rat) (n : Nat) (h : |y| ≤ (n : Rat)) : |near y| ≤ (n : Int) := by
  have h1 := near_err y
  have h2 : |(near y : Rat)| ≤ n + 1 / 2 := by
    calc |(near y : Rat)| = |((near y : Rat) - y) + y| := by ring_nf
      _ ≤ |(near y : Rat) - y| + |y| := abs_add_le _ _
      _ ≤ _ := by linarith
  have h3 : (|near y| : Rat) < ((n + 1 : Int) : Rat) := by push_cast; linarith
  have : |near y| < (n : Int) + 1 := by exact_mod_cast h3
  omega

theorem round_grid (f : Format) (hp : 0 < f.prec) (q : Rat) : Grid f (round f q) := by
  unfold round
  split
  · exact ⟨0, f.low, by simp, le_refl _, by simp⟩
  · rename_i h
    obtain ⟨h1, h2⟩ := ilog_spec h
    have hk : f.low ≤ unit f q := le_max_right _ _
    have hu : ilog q + 1 ≤ unit f q + f.prec := by
      have : ilog q - ((f.prec : Int) - 1) ≤ unit f q := le_max_left _ _
      omega
    have h3 : |q / pow2 (unit f q)| ≤ ((2 ^ f.prec : Nat) : Rat) := by
      rw [abs_div, abs_of_pos (pow2_pos _), div_le_iff₀ (pow2_pos _)]
      have h4 := pow2_le hu
      rw [pow2_add (unit f q), pow2_nat] at h4
      push_cast at h4 ⊢
      linarith
    have h5 := near_neg_abs _ _ h3
    push_cast at h5
    rcases lt_or_eq_of_le h5 with h5 | h5
    · exact ⟨_, _, h5, hk, rfl⟩
    · -- the next power of two
      obtain ⟨n, hn⟩ : ∃ n, f.prec = n + 1 := ⟨f.prec - 1, by omega⟩
      have e1 : pow2 (unit f q + 1) = pow2 (unit f q) * 2 := by rw [pow2_add, pow2_one]
      have e2 : (2 : Int) ^ f.prec = 2 ^ n * 2 := by rw [hn, pow_succ]
      have e3 : (2 : Int) ^ n < 2 ^ f.prec := by
        rw [e2]; have : (0 : Int) < 2 ^ n := by positivity
        omega
      rcases abs_eq (by positivity : (0 : Int) ≤ 2 ^ f.prec) |>.1 h5 with h6 | h6
      · refine ⟨2 ^ n, unit f q + 1, by rwa [abs_of_pos (by positivity)], by omega, ?_⟩
        rw [h6, e1, e2]; push_cast; ring
      · refine ⟨-2 ^ n, unit f q + 1, by rwa [abs_neg, abs_of_pos (by positivity)], by omega, ?_⟩
        rw [h6, e1, e2]; push_cast; ring

/-- Every number between which and `q` lies a multiple of the unit is no nearer than the rounded one. -/
theorem round_mul (f : Format) {q : Rat} (h : q ≠ 0) (m : Int) :
    |round f q - q| ≤ |(m : Rat) * pow2 (unit f q) - q| := by
  have hu := pow2_pos (unit f q)
  have e : ∀ z : Int, |(z : Rat) * pow2 (unit f q) - q| = |(z : Rat) - q / pow2 (unit f q)| * pow2 (unit f q) := by
    intro z
    conv_rhs => rw [← abs_of_pos hu, ← abs_mul]
    rw [abs_of_pos hu, sub_mul, div_mul_cancel₀ _ hu.ne']
  unfold round
  rw [if_neg h, e, e]
  exact mul_le_mul_of_nonneg_right (near_best _ _) hu.le

/-- Rounding gives the nearest number. -/
theorem round_nearest (f : Format) (hp : 0 < f.prec) (q : Rat) {g : Rat} (hg : Grid f g) : |round f q - q| ≤ |g - q| := by
  by_cases h : q = 0
  · subst h; simp [round]
  obtain ⟨m, j, hm, hj, rfl⟩ := hg
  by_cases hk : unit f q ≤ j
  · obtain ⟨n, _, hn⟩ := pow2_mul hk
    rw [hn, ← mul_assoc, ← Int.cast_mul]
    exact round_mul f h _
  · have hk := not_le.1 hk
    obtain ⟨h1, h2⟩ := ilog_spec h
    have hu : unit f q = ilog q - ((f.prec : Int) - 1) := by
      unfold unit at hk ⊢
      rcases max_cases (ilog q - ((f.prec : Int) - 1)) f.low with ⟨h3, _⟩ | ⟨h3, _⟩ <;> omega
    have hg : |(m : Rat) * pow2 j| ≤ pow2 (ilog q) := by
      rw [abs_mul, abs_of_pos (pow2_pos j), ← Int.cast_abs]
      have h3 : ((|m| : Int) : Rat) ≤ ((2 ^ f.prec : Int) : Rat) := by exact_mod_cast hm.le
      calc ((|m| : Int) : Rat) * pow2 j ≤ ((2 ^ f.prec : Int) : Rat) * pow2 j :=
            mul_le_mul_of_nonneg_right h3 (pow2_pos j).le
        _ = pow2 (f.prec + j) := by rw [pow2_add, pow2_nat]
        _ ≤ pow2 (ilog q) := pow2_le (by omega)
    obtain ⟨n, _, hn⟩ := pow2_mul (show unit f q ≤ ilog q by omega)
    rcases lt_or_gt_of_ne h with hq | hq
    · have h4 := round_mul f h (-2 ^ n)
      rw [Int.cast_neg, neg_mul, ← hn] at h4
      refine h4.trans ?_
      rw [abs_of_neg hq] at h1
      rw [abs_of_nonneg (by linarith), abs_of_nonneg (by linarith [(abs_le.1 hg).1])]
      linarith [(abs_le.1 hg).1]
    · have h4 := round_mul f h (2 ^ n)
      rw [← hn] at h4
      refine h4.trans ?_
      rw [abs_of_pos hq] at h1
      rw [abs_of_nonpos (by linarith), abs_of_nonpos (by linarith [(abs_le.1 hg).2])]
      linarith [(abs_le.1 hg).2]

theorem round_self {f : Format} (hp : 0 < f.prec) {q : Rat} (h : Grid f q) : round f q = q := by
  have := round_nearest f hp q h
  rw [sub_self, abs_zero] at this
  exact sub_eq_zero.1 (abs_eq_zero.1 (le_antisymm this (abs_nonneg _)))

/-- Rounding respects order. -/
theorem round_mono (f : Format) (hp : 0 < f.prec) {a b : Rat} (h : a ≤ b) : round f a ≤ round f b := by
  by_contra hc
  have hc := not_le.1 hc
  have h1 := round_nearest f hp a (round_grid f hp b)
  have h2 := round_nearest f hp b (round_grid f hp a)
  have h3 : (round f a + round f b) / 2 ≤ a := by
    by_contra hx
    have hx := not_le.1 hx
    rcases abs_cases (round f a - a) with ⟨e1, _⟩ | ⟨e1, _⟩ <;> rcases abs_cases (round f b - a) with ⟨e2, _⟩ | ⟨e2, _⟩ <;>
      rw [e1, e2] at h1 <;> linarith
  have h4 : b ≤ (round f a + round f b) / 2 := by
    by_contra hx
    have hx := not_le.1 hx
    rcases abs_cases (round f a - b) with ⟨e1, _⟩ | ⟨e1, _⟩ <;> rcases abs_cases (round f b - b) with ⟨e2, _⟩ | ⟨e2, _⟩ <;>
      rw [e1, e2] at h2 <;> linarith
  have : a = b := by linarith
  rw [this] at hc
  exact lt_irrefl _ hc

theorem near_neg (y : Rat) : near (-y) = -near y := by
  have h1 := Int.floor_le y
  have h2 := Int.lt_floor_add_one y
  by_cases hi : y = ⌊y⌋
  · have e : ⌊-y⌋ = -⌊y⌋ := by
      conv_lhs => rw [hi, ← Int.cast_neg]
      exact Int.floor_intCast _
    unfold near
    simp only [e]
    push_cast
    rw [if_pos (by linarith), if_pos (by linarith)]
  · have h3 : (⌊y⌋ : Rat) < y := lt_of_le_of_ne h1 (Ne.symm hi)
    have e : ⌊-y⌋ = -⌊y⌋ - 1 := by
      rw [Int.floor_eq_iff]; push_cast; constructor <;> linarith
    unfold near
    simp only [e]
    push_cast
    by_cases c1 : y - ⌊y⌋ < 1 / 2
    · rw [if_neg (by linarith), if_pos (by linarith), if_pos c1]; ring
    · by_cases c2 : 1 / 2 < y - ⌊y⌋
      · rw [if_pos (by linarith), if_neg c1, if_pos c2]; ring
      · rw [if_neg (by linarith), if_neg (by linarith), if_neg c1, if_neg c2]
        split <;> split <;> omega

theorem ilog_neg (q : Rat) : ilog (-q) = ilog q := by simp [ilog]

theorem round_neg (f : Format) (q : Rat) : round f (-q) = -round f q := by
  unfold round unit
  simp only [ilog_neg, neg_eq_zero]
  split
  · simp
  · rw [neg_div, near_neg]; push_cast; ring

theorem round_zero (f : Format) : round f 0 = 0 := by simp [round]

/-- How far rounding moves a number: by half a unit in its last place, or half the smallest number. -/
theorem round_err (f : Format) (q : Rat) : |round f q - q| ≤ max (|q| * pow2 (-f.prec)) (pow2 (f.low - 1)) := by
  by_cases h : q = 0
  · subst h; rw [round_zero]; simp [(pow2_pos _).le]
  have hu := pow2_pos (unit f q)
  have h1 : |round f q - q| ≤ pow2 (unit f q - 1) := by
    unfold round
    rw [if_neg h]
    have e : (near (q / pow2 (unit f q)) : Rat) * pow2 (unit f q) - q =
        ((near (q / pow2 (unit f q)) : Rat) - q / pow2 (unit f q)) * pow2 (unit f q) := by
      rw [sub_mul, div_mul_cancel₀ _ hu.ne']
    have e2 : pow2 (unit f q) = pow2 (unit f q - 1) * 2 := by rw [← pow2_one, ← pow2_add]; congr 1; omega
    have := near_err (q / pow2 (unit f q))
    rw [e, abs_mul, abs_of_pos hu]
    calc _ ≤ 1 / 2 * pow2 (unit f q) := mul_le_mul_of_nonneg_right this hu.le
      _ = _ := by rw [e2]; ring
  refine h1.trans ?_
  rcases max_cases (ilog q - ((f.prec : Int) - 1)) f.low with ⟨h3, _⟩ | ⟨h3, _⟩
  · refine le_max_of_le_left ?_
    rw [show unit f q - 1 = ilog q + (-f.prec) by unfold unit; omega, pow2_add]
    exact mul_le_mul_of_nonneg_right (ilog_spec h).1 (pow2_pos _).le
  · refine le_max_of_le_right (le_of_eq ?_)
    rw [show unit f q = f.low from h3]

end Verif.Ieee
