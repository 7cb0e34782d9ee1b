import Verif.BeamMainSpec
import Verif.IeeeFbankProps
import Verif.IeeeNnetLemmas

/-!
# C100: no audio makes the acoustic scores infinite or NaN
-/

namespace Verif.Ieee

open Verif Verif.Ieee.Spec Verif.Fbank Verif.Fbank.Spec Verif.Nnet Verif.Nnet.Spec Verif.Main.Spec

variable {lib : Lib} {nlib : NnLib} {vm : List F32 → List (List F32) → List F32}

theorem between_atMost {v : F32} (h : Between (-16) 89 v) : AtMost 7 v := by
  obtain ⟨q, eq, h1, h2⟩ := h
  exact ⟨q, eq, abs_le.mpr ⟨by linarith, by linarith⟩⟩

theorem edge_mem {F : Type} {fs : List (List F)} (h : fs ≠ []) (t : ℤ) : edge fs t ∈ fs := by
  unfold edge
  split
  · cases fs with
    | nil => exact absurd rfl h
    | cons x fs => exact List.mem_cons_self
  · cases e : fs[t.toNat]? with
    | some x => exact List.mem_of_getElem? e
    | none =>
      rw [Option.getD_none, List.getLastD_eq_getLast?, List.getLast?_eq_some_getLast h]
      exact List.getLast_mem h

theorem minus_prior {a d : ℕ} (h : max a d + 1 ≤ 126) {x y : F32} (hx : AtMost a x) (hy : AtMost d y) :
    AtMost (max a d + 1) ((nnet nlib).add x ((nnet nlib).mul (nnet nlib).negOne y)) := by
  refine mag_add' h hx ?_
  have h1 : AtMost 0 (nnet nlib).negOne := by
    have hr : Rep binary32 (-1) := by have := rep_minus (rep_small (n := 1) (by norm_num)); simpa using this
    exact ⟨-1, fit_is hr, by norm_num⟩
  have := mag_mul (f := binary32) (a := 0) (b := d) (by rw [top32]; omega) h1 hy
  rw [Nat.zero_add] at this
  exact this

/-- C100, for the audio at hand.  A network of the kind the converter writes, whose weights and logarithms of priors are
numbers: if no layer gets a vector it cannot cope with, then there are acoustic scores, and all of them are numbers no larger
than a bound told from the weights.  Missing: the vectors a layer cannot cope with (see `C100_normalize` and C86). -/
theorem C100_scores_partial (hl : LibLaws lib) (hn : NnLaws nlib vm) {r : Stt.Rec F32 F64} (ho : make (fbank lib) = .ok r.fb)
    (hc : r.conv = fun n : ℤ => fit binary32 (n : ℚ)) (hnn : r.nn = nnet nlib) {e L R w : ℕ}
    (hb : Built r.am.layers 40 e L R w) (hw : w ≤ 2147483647) {a d : ℕ} (hg : GrowsTo r.am.layers 7 a)
    (hp : ∀ v ∈ r.am.logPrior, AtMost d v) (had : max a d + 1 ≤ 126) {b : ℕ} (hb' : b = 1 ∨ b = 2 ∨ b = 4)
    (data : List UInt8)
    (hcope : ∀ feats, (frames ((Pcm.Spec.samples b data).map r.conv)).mapM (row r.fb) = .ok feats → feats ≠ [] →
      CopesAll r.nn vm r.am.layers (edge feats)) :
    ∃ rows, Scores r vm b data rows ∧ ∀ row ∈ rows, ∀ v ∈ row, AtMost (max a d + 1) v := by
  rw [hc] at hcope
  rw [hnn] at hcope
  obtain ⟨feats, h1, h2, h3⟩ := C99_finite hl ho hb' data _ rfl
  let f : ℤ → List F32 := fun t => List.zipWith (fun x y => r.nn.add x (r.nn.mul r.nn.negOne y))
    (series r.nn vm r.am.layers (edge feats) t) r.am.logPrior
  refine ⟨(List.range (numFrames ((Pcm.Spec.samples b data).map r.conv).length)).map fun t : ℕ => f (t : ℤ), ⟨feats, ?_, ?_, ?_⟩, ?_⟩
  · rw [hc]; exact h1
  · rw [List.length_map, List.length_range]
  · intro t ht
    rw [List.length_map, List.length_range] at ht
    rw [List.getElem?_map, List.getElem?_range ht]
    rfl
  · intro row hrow v hv
    obtain ⟨t, ht, rfl⟩ := List.mem_map.mp hrow
    have hne : feats ≠ [] := by
      rintro rfl
      have := List.mem_range.mp ht
      unfold frames at h2
      rw [List.length_map, List.length_range, List.length_nil] at h2
      rw [hc, ← h2] at this
      omega
    have hx : ∀ t, (edge feats t).length = 40 ∧ ∀ v ∈ edge feats t, AtMost 7 v := fun t =>
      ⟨(h3 _ (edge_mem hne t)).1, fun v hv => between_atMost ((h3 _ (edge_mem hne t)).2 v hv)⟩
    have hs := series_mag hn hb hw hg hx (hcope feats h1 hne) t
    have hv : v ∈ List.zipWith (fun x y => (nnet nlib).add x ((nnet nlib).mul (nnet nlib).negOne y))
      (series (nnet nlib) vm r.am.layers (edge feats) t) r.am.logPrior := by rw [← hnn]; exact hv
    exact zipWith_all (P := AtMost a) (Q := AtMost d) (R := AtMost (max a d + 1)) (fun _ _ h1 h2 => minus_prior had h1 h2)
      hs.2 hp v hv

/-- C100, for all audio.  If the network has no normalise layer, and softmax layers only where the weights keep the numbers
below 64: whatever the audio is, there are acoustic scores, and all of them are numbers no larger than a bound told from the
weights. -/
theorem C100_all (hl : LibLaws lib) (hn : NnLaws nlib vm) {r : Stt.Rec F32 F64} (ho : make (fbank lib) = .ok r.fb)
    (hc : r.conv = fun n : ℤ => fit binary32 (n : ℚ)) (hnn : r.nn = nnet nlib) {e L R w : ℕ}
    (hb : Built r.am.layers 40 e L R w) (hw : w ≤ 2147483647) {a d : ℕ} (hg : Robust r.am.layers 7 a)
    (hp : ∀ v ∈ r.am.logPrior, AtMost d v) (had : max a d + 1 ≤ 126) {b : ℕ} (hb' : b = 1 ∨ b = 2 ∨ b = 4)
    (data : List UInt8) :
    ∃ rows, Scores r vm b data rows ∧ ∀ row ∈ rows, ∀ v ∈ row, AtMost (max a d + 1) v := by
  refine C100_scores_partial hl hn ho hc hnn hb hw (robust_grows hg) hp had hb' data fun feats hf hne => ?_
  rw [hnn]
  obtain ⟨feats', h1, -, h3⟩ := C99_finite hl ho hb' data _ rfl
  rw [hc] at hf
  have hff : feats' = feats := Except.ok.inj (h1.symm.trans hf)
  rw [← hff] at hne ⊢
  exact robust_copes hn hb hw hg fun t =>
    ⟨(h3 _ (edge_mem hne t)).1, fun v hv => between_atMost ((h3 _ (edge_mem hne t)).2 v hv)⟩

/-! ## The normalise layer -/

theorem relu_zero {v : F32} {q : ℚ} (h : Is v q) (h0 : q ≤ 0) :
    Is (if (nnet nlib).lt v (nnet nlib).zero then (nnet nlib).zero else v) 0 := by
  split
  · exact nzero_is
  · rename_i hlt
    have e : (nnet nlib).lt v (nnet nlib).zero = decide (q < 0) := lt_is h nzero_is
    rw [e, decide_eq_true_eq, not_lt] at hlt
    rw [← le_antisymm h0 hlt]
    exact h

theorem sum_zeros : ∀ (l : List F32) (acc : F32), Is acc 0 → (∀ v ∈ l, Is v 0) → Is (l.foldl add acc) 0
  | [], _, h, _ => h
  | v :: l, acc, h, h1 => by
    refine sum_zeros l (add acc v) ?_ fun w hw => h1 w (List.mem_cons_of_mem _ hw)
    rw [add_is h (h1 v List.mem_cons_self), _root_.add_zero]
    exact fit_is rep_zero

theorem div_zero {x y : F64} {p : ℚ} (h1 : Is x p) (h2 : Is y 0) (hp : 0 < p) : div x y = .inf false := by
  obtain ⟨_, rfl⟩ := h1
  obtain ⟨_, rfl⟩ := h2
  show (if (0 : ℚ) = 0 then (if p = 0 then Fl.nan else .inf (decide (p < 0))) else fit binary64 (p / 0)) = _
  rw [if_pos rfl, if_neg hp.ne', decide_eq_false hp.le.not_gt]

/-- C100, what is false.  If none of the numbers a rectifier gets is above zero, the normalise layer behind it makes a vector
of NaN, for it divides by the sum of the squares, which is zero (`src/nnet.cc` 166-173).  No network with such layers has
numbers for scores whatever the weights are. -/
theorem C100_normalize (hn : NnLaws nlib vm) {x : List F32} (hd : x.length ≤ 2147483647)
    (hx : ∀ v ∈ x, ∃ q, Is v q ∧ q ≤ 0) :
    ∀ v ∈ pointwise (nnet nlib) vm (pointwise (nnet nlib) vm x .relu) .normalize, v = .nan := by
  have hz : ∀ v ∈ pointwise (nnet nlib) vm x .relu, Is v 0 := by
    intro v hv
    obtain ⟨w, hw, rfl⟩ := List.mem_map.mp hv
    obtain ⟨q, eq, h0⟩ := hx w hw
    exact relu_zero eq h0
  have hlen : (pointwise (nnet nlib) vm x .relu).length = x.length := List.length_map _
  generalize pointwise (nnet nlib) vm x .relu = y at hz hlen
  intro v hv
  obtain ⟨w, hw, rfl⟩ := List.mem_map.mp hv
  have hsum : Is ((y.map fun w => mul w w).foldl add (nnet nlib).zero) 0 := by
    refine sum_zeros _ _ nzero_is fun u hu => ?_
    obtain ⟨z, hz', rfl⟩ := List.mem_map.mp hu
    rw [mul_is (hz z hz') (hz z hz'), mul_zero]
    exact fit_is rep_zero
  have hy : 1 ≤ y.length := List.length_pos_of_mem hw
  obtain ⟨D, eD, hD, -⟩ := fit_between (f := binary32) (lo := 1) (hi := 2 ^ 31) (q := ((y.length : ℤ) : ℚ))
    (by have := rep_small (n := 1) (by norm_num); simpa using this) (rep_pow (by rw [top32]; omega))
    (by push_cast; exact_mod_cast hy) (by
      have : (y.length : ℚ) ≤ 2147483647 := by rw [hlen]; exact_mod_cast hd
      push_cast
      linarith)
  have hroot : (nnet nlib).rootOf ((nnet nlib).ofInt y.length) ((y.map fun w => mul w w).foldl add (nnet nlib).zero) =
      .inf false := by
    have h1 := div_zero (double_is eD) (double_is hsum) (by linarith)
    have h2 : (nnet nlib).rootOf ((nnet nlib).ofInt y.length) ((y.map fun w => mul w w).foldl add (nnet nlib).zero) =
        single (nlib.sqrt (div (double (fit binary32 ((y.length : ℤ) : ℚ)))
          (double ((y.map fun w => mul w w).foldl add (nnet nlib).zero)))) := rfl
    rw [h2, h1, hn.sqrtInf]
    rfl
  have e2 : mul w ((nnet nlib).rootOf ((nnet nlib).ofInt y.length) ((y.map fun w => mul w w).foldl add (nnet nlib).zero)) =
      .nan := by
    rw [hroot]
    obtain ⟨h0, rfl⟩ := hz w hw
    rfl
  exact e2

/-- C100, what is false, for whole networks.  An affine layer whose offsets are so far below zero that no features make up for
it, a rectifier and a normalise layer: all weights are numbers, but whatever the audio is, all scores are NaN. -/
theorem C100_nan (hl : LibLaws lib) (hn : NnLaws nlib vm) {r : Stt.Rec F32 F64} (ho : make (fbank lib) = .ok r.fb)
    (hc : r.conv = fun n : ℤ => fit binary32 (n : ℚ)) (hnn : r.nn = nnet nlib) {W : List (List F32)} {bias : List F32}
    (hlay : r.am.layers = [.linear W bias, .relu, .normalize]) {k m d : ℕ} (hk : k + m ≤ 125) (hd : d ≤ 125) (hm : m ≤ 23)
    (h40 : W.length = 40) (h2m : 40 ≤ 2 ^ m) (hbl : bias.length ≤ 2147483647) (hW : ∀ y ∈ W, ∀ v ∈ y, Times 7 k v)
    (hbias : ∀ v ∈ bias, ∃ q, Is v q ∧ |q| ≤ 2 ^ d ∧ q ≤ -2 ^ (k + m)) {b : ℕ} (hb' : b = 1 ∨ b = 2 ∨ b = 4)
    (data : List UInt8) (rows : List (List F32)) (hs : Scores r vm b data rows) : ∀ row ∈ rows, ∀ v ∈ row, v = .nan := by
  obtain ⟨feats, g1, g2, g3⟩ := hs
  rw [hc] at g1 g2
  obtain ⟨feats', h1, h2, h3⟩ := C99_finite hl ho hb' data _ rfl
  have hff : feats' = feats := Except.ok.inj (h1.symm.trans g1)
  subst hff
  intro row hrow v hv
  obtain ⟨t, ht, et⟩ := List.mem_iff_getElem.mp hrow
  have hne : feats' ≠ [] := by
    rintro rfl
    unfold frames at h2
    rw [List.length_map, List.length_range, List.length_nil] at h2
    rw [g2, ← h2] at ht
    omega
  have e1 := g3 t ht
  rw [List.getElem?_eq_getElem ht, et, hnn, hlay] at e1
  rw [Option.some.inj e1] at hv
  have hx : ∀ v ∈ pointwise (nnet nlib) vm (edge feats' t) (.linear W bias), ∃ q, Is v q ∧ q ≤ 0 := by
    refine zipWith_all (P := AtMost (k + m)) (Q := fun v => ∃ q, Is v q ∧ |q| ≤ 2 ^ d ∧ q ≤ -2 ^ (k + m))
      (R := fun v => ∃ q, Is v q ∧ q ≤ 0) ?_ ?_ hbias
    · rintro x y ⟨p, ep, hp⟩ ⟨q, eq, hq, hq'⟩
      obtain ⟨s, es, -⟩ := mag_add' (by omega) ⟨p, ep, hp⟩ ⟨q, eq, hq⟩
      refine ⟨s, es, ?_⟩
      rw [add_is ep eq] at es
      have h4 := round_mono binary32 (by decide) (show p + q ≤ 0 by have := (abs_le.mp hp).2; linarith)
      rwa [round_zero, ← is_round es] at h4
    · exact hn.product ((h3 _ (edge_mem hne t)).1.trans h40.symm) (by omega) hm (by omega)
        (fun v hv => between_atMost ((h3 _ (edge_mem hne t)).2 v hv)) hW
  have hnan := C100_normalize hn (x := pointwise (nnet nlib) vm (edge feats' t) (.linear W bias)) (by
    show (List.zipWith _ _ _).length ≤ _
    rw [List.length_zipWith]
    omega) hx
  refine zipWith_all (P := fun v => v = .nan) (Q := fun _ => True) (R := fun v => v = .nan) ?_ hnan (fun _ _ => trivial) v hv
  rintro _ y rfl -
  rfl

/-! ## A library -/

/-- The largest multiple of 2^-120 that is not above a real number. -/
noncomputable def cutFine (r : ℝ) : ℚ := (⌊r * 2 ^ 120⌋ : ℚ) / 2 ^ 120

theorem cutFine_le {q : ℚ} {r : ℝ} (h : r ≤ q) : cutFine r ≤ q := by
  have h1 := Int.floor_le (r * 2 ^ 120)
  have : (cutFine r : ℝ) ≤ q := by
    unfold cutFine
    push_cast
    rw [div_le_iff₀ (by positivity)]
    exact h1.trans (mul_le_mul_of_nonneg_right h (by positivity))
  exact_mod_cast this

theorem le_cutFine {n : ℤ} {r : ℝ} (h : (n : ℝ) / 2 ^ 120 ≤ r) : (n : ℚ) / 2 ^ 120 ≤ cutFine r := by
  unfold cutFine
  refine div_le_div_of_nonneg_right ?_ (by positivity)
  have : n ≤ ⌊r * 2 ^ 120⌋ := Int.le_floor.mpr ((div_le_iff₀ (by positivity)).mp h)
  exact_mod_cast this

/-- An exponential function that is right up to 2^-120 before it is rounded. -/
noncomputable def someExp : F32 → F32
  | .num q _ => fit _ (cutFine (Real.exp q))
  | _ => .nan

/-- A root: the power of two below it. -/
def someRoot : F64 → F64
  | .num q _ => if q ≤ 0 then fit _ 0 else fit _ (pow2 (ilog q / 2))
  | .inf false => .inf false
  | _ => .nan

/-- A row times a matrix, summed from the left. -/
def someRow (x : List F32) (B : List (List F32)) : List F32 :=
  (List.range (Nnet.numCols B)).map fun j => (List.zipWith (fun a r => mul a (r.getD j (fit _ 0))) x B).foldl add (fit _ 0)

/-- A C library and a BLAS. -/
noncomputable def someNnLib : NnLib where
  expf := someExp
  exp := someExp
  log := lift _ Real.log
  sqrt := someRoot
  gemm A B := A.map fun x => someRow x B

theorem exp_64 : Real.exp 64 ≤ 2 ^ 93 := by
  have h := Real.exp_one_lt_d9
  have : Real.exp 64 = Real.exp 1 ^ 64 := by rw [← Real.exp_nat_mul]; norm_num
  rw [this]
  calc Real.exp 1 ^ 64 ≤ (2.7182818286 : ℝ) ^ 64 := pow_le_pow_left₀ (Real.exp_pos 1).le h.le 64
    _ ≤ 2 ^ 93 := by norm_num

theorem someExp_law {x : F32} {q : ℚ} (h : Is x q) (hq : q ≤ 64) :
    ∃ e, Is (someExp x) e ∧ 0 ≤ e ∧ e ≤ 2 ^ 93 ∧ (-64 ≤ q → 1 / 2 ^ 93 ≤ e) := by
  have e : someExp x = fit binary32 (cutFine (Real.exp q)) := by obtain ⟨_, rfl⟩ := h; rfl
  rw [e]
  have hq' : (q : ℝ) ≤ 64 := by exact_mod_cast hq
  have h1 : cutFine (Real.exp q) ≤ 2 ^ 93 := by
    have : cutFine (Real.exp q) ≤ ((2 ^ 93 : ℚ)) := cutFine_le (by push_cast; exact (Real.exp_le_exp.mpr hq').trans exp_64)
    exact this
  have h0 : 0 ≤ cutFine (Real.exp q) := by
    have := le_cutFine (n := 0) (r := Real.exp q) (by rw [Int.cast_zero, zero_div]; exact (Real.exp_pos _).le)
    rwa [Int.cast_zero, zero_div] at this
  obtain ⟨r, er, r0, r1⟩ := fit_between (f := binary32) rep_zero (rep_pow (a := 93) (by rw [top32]; omega)) h0 h1
  refine ⟨r, er, r0, r1, fun hlow => ?_⟩
  have hlow' : (-64 : ℝ) ≤ q := by exact_mod_cast hlow
  have h2 : (1 : ℝ) / 2 ^ 93 ≤ Real.exp q := by
    have h3 := Real.exp_le_exp.mpr hlow'
    rw [Real.exp_neg] at h3
    refine le_trans ?_ h3
    rw [one_div]
    exact inv_anti₀ (Real.exp_pos _) exp_64
  have h4 : 1 / 2 ^ 93 ≤ cutFine (Real.exp q) := by
    have e1 : ((2 ^ 27 : ℤ) : ℝ) / 2 ^ 120 = 1 / 2 ^ 93 := by norm_num
    have e2 : ((2 ^ 27 : ℤ) : ℚ) / 2 ^ 120 = 1 / 2 ^ 93 := by norm_num
    have := le_cutFine (n := 2 ^ 27) (r := Real.exp q) (by rw [e1]; exact h2)
    rwa [e2] at this
  have hrep : Rep binary32 (1 / 2 ^ 93) := by
    have := rep_scale (f := binary32) (n := 1) (k := -93) (by decide) (by decide) (by rw [top32]; decide)
    rw [show ((1 : ℕ) : ℚ) * pow2 (-93) = 1 / 2 ^ 93 by rw [pow2_eq]; norm_num] at this
    exact this
  exact fit_ge (fit_is hrep) h4 er

theorem someRoot_law {x : F64} {q : ℚ} (h : Is x q) (h0 : 0 ≤ q) : ∃ s, Is (someRoot x) s ∧ 0 ≤ s ∧ s * s ≤ 2 * q := by
  obtain ⟨hr, rfl⟩ := h
  by_cases hq : q ≤ 0
  · have e : someRoot (.num q hr) = fit binary64 0 := if_pos hq
    rw [e]
    exact ⟨0, fit_is rep_zero, le_refl _, by linarith⟩
  · have e : someRoot (.num q hr) = fit binary64 (pow2 (ilog q / 2)) := if_neg hq
    rw [e]
    have hq0 : 0 < q := not_le.mp hq
    obtain ⟨i1, i2⟩ := ilog_spec hq0.ne'
    rw [abs_of_pos hq0] at i1 i2
    have u1 : ilog q ≤ 1023 := by
      by_contra hc
      have h1 := pow2_le (show (1024 : ℤ) ≤ ilog q by omega)
      have h2 := hr.2
      rw [top64, abs_of_pos hq0] at h2
      exact absurd (h1.trans i1) (not_le.mpr h2)
    have u2 : -1074 ≤ ilog q := by
      obtain ⟨⟨m, k, -, hk, em⟩, -⟩ := hr
      have hk : -1074 ≤ k := hk
      have hm : 1 ≤ m := by
        by_contra hm
        have : (m : ℚ) ≤ 0 := by exact_mod_cast (show m ≤ 0 by omega)
        have := mul_nonpos_of_nonpos_of_nonneg this (pow2_pos k).le
        linarith
      by_contra hc
      have h1 := pow2_le (show ilog q + 1 ≤ k by omega)
      have h2 : 1 * pow2 k ≤ (m : ℚ) * pow2 k := mul_le_mul_of_nonneg_right (by exact_mod_cast hm) (pow2_pos k).le
      rw [one_mul, ← em] at h2
      exact absurd (h1.trans h2) (not_le.mpr i2)
    have hrep : Rep binary64 (pow2 (ilog q / 2)) := by
      have := rep_scale (f := binary64) (n := 1) (k := ilog q / 2) (by decide)
        (by rw [show binary64.low = -1074 from rfl]; omega) (by rw [top64, show ((binary64.prec : ℕ) : ℤ) = 53 from rfl]; omega)
      rw [Nat.cast_one, one_mul] at this
      exact this
    refine ⟨_, fit_is hrep, (pow2_pos _).le, ?_⟩
    rw [← pow2_add]
    have := pow2_le (show ilog q / 2 + ilog q / 2 ≤ ilog q by omega)
    linarith

theorem rep_many {n a m : ℕ} (hn : n ≤ 2 ^ m) (hm : m ≤ 23) (ha : a + m ≤ 126) : Rep binary32 ((n : ℚ) * 2 ^ a) := by
  have e : (2 : ℚ) ^ a = pow2 a := by rw [pow2_nat]; push_cast; rfl
  have hn' : (n : ℚ) ≤ 2 ^ m := by exact_mod_cast hn
  refine ⟨⟨n, a, ?_, le_trans (show binary32.low ≤ 0 by decide) (by positivity), by rw [e]; push_cast; rfl⟩, ?_⟩
  · rw [abs_of_nonneg (by positivity)]
    have h1 : n ≤ 2 ^ 23 := hn.trans (Nat.pow_le_pow_right (by norm_num) hm)
    have h2 : (n : ℤ) ≤ 2 ^ 23 := by exact_mod_cast h1
    exact lt_of_le_of_lt h2 (by decide)
  · rw [abs_of_nonneg (by positivity)]
    have h3 : (n : ℚ) * 2 ^ a ≤ 2 ^ (a + m) := by
      rw [pow_add, mul_comm]
      exact mul_le_mul_of_nonneg_left hn' (by positivity)
    have h4 := (rep_pow (f := binary32) (a := a + m) (by rw [top32]; omega)).2
    rw [abs_of_nonneg (show (0 : ℚ) ≤ 2 ^ (a + m) by positivity)] at h4
    exact lt_of_le_of_lt h3 h4

theorem sum_many {a m : ℕ} (hm : m ≤ 23) (ha : a + m ≤ 126) (l : List F32) : ∀ (n : ℕ) (acc : F32) (q : ℚ),
    n + l.length ≤ 2 ^ m → Is acc q → |q| ≤ n * 2 ^ a → (∀ v ∈ l, AtMost a v) →
    ∃ r, Is (l.foldl add acc) r ∧ |r| ≤ ((n + l.length : ℕ) : ℚ) * 2 ^ a := by
  induction l with
  | nil =>
    intro n acc q _ h1 h2 _
    exact ⟨q, h1, by rwa [List.length_nil, Nat.add_zero]⟩
  | cons v l ih =>
    intro n acc q hn h1 h2 h3
    obtain ⟨p, ep, hp⟩ := h3 v List.mem_cons_self
    rw [List.length_cons] at hn ⊢
    obtain ⟨r, er, hr⟩ := fit_le (f := binary32) (q := q + p) (rep_many (n := n + 1) (m := m) (by omega) hm ha) (by
      have := abs_add_le q p
      push_cast
      linarith)
    rw [List.foldl_cons, add_is h1 ep]
    have := ih (n + 1) _ r (by omega) er hr (fun v hv => h3 v (List.mem_cons_of_mem _ hv))
    rwa [show n + 1 + l.length = n + (l.length + 1) by omega] at this

theorem someRow_law {x : List F32} {W : List (List F32)} {a k m : ℕ} (hx : x.length = W.length) (hW : W.length ≤ 2 ^ m)
    (hm : m ≤ 23) (ha : k + m ≤ 126) (h1 : ∀ v ∈ x, AtMost a v) (h2 : ∀ y ∈ W, ∀ v ∈ y, Times a k v) :
    ∀ v ∈ someRow x W, AtMost (k + m) v := by
  intro v hv
  obtain ⟨j, -, rfl⟩ := List.mem_map.mp hv
  have hz : Is (fit binary32 0) 0 := fit_is rep_zero
  have hall : ∀ v ∈ List.zipWith (fun a r => mul a (r.getD j (fit _ 0))) x W, AtMost k v := by
    refine zipWith_all (P := AtMost a) (Q := fun y => ∀ v ∈ y, Times a k v) (R := AtMost k) (fun p y hp hy => ?_) h1 h2
    refine times_mul (by omega) hp ?_
    rw [List.getD_eq_getElem?_getD]
    cases e : y[j]? with
    | some u => exact hy u (List.mem_of_getElem? e)
    | none => exact ⟨0, hz, by rw [abs_zero, zero_mul]; positivity⟩
  have hlen : (List.zipWith (fun a r => mul a (r.getD j (fit _ 0))) x W).length = W.length := by
    rw [List.length_zipWith, hx, min_self]
  obtain ⟨r, er, hr⟩ := sum_many (a := k) hm ha _ 0 (fit binary32 0) 0 (by rw [hlen]; omega) hz (by simp) hall
  refine ⟨r, er, hr.trans ?_⟩
  rw [hlen, Nat.zero_add, pow_add 2 k m, mul_comm]
  exact mul_le_mul_of_nonneg_left (by exact_mod_cast hW) (by positivity)

/-- There is such a library. -/
theorem someNnLib_laws : NnLaws someNnLib someRow where
  rows := {
    gemm := fun _ _ _ => rfl
    size := fun x B n _ h0 hB => by
      unfold someRow
      rw [List.length_map, List.length_range, Nnet.numCols_of h0 hB] }
  expf := someExp_law
  exp := someExp_law
  log := fun {x q} h hq => by
    have e : someNnLib.log x = fit binary32 (cut (Real.log q)) := lift_is h
    rw [e]
    have hq' : ((1 / 2 ^ 93 : ℚ) : ℝ) ≤ q := Rat.cast_le.mpr hq
    have hq'' : (q : ℝ) ≤ ((2 ^ 128 : ℚ) : ℝ) := Rat.cast_le.mpr ((le_abs_self q).trans (is_lt h).le)
    push_cast at hq' hq''
    have q0 : (0 : ℝ) < q := lt_of_lt_of_le (by positivity) hq'
    have l2 := Real.log_two_lt_d9
    have a1 : -128 ≤ Real.log (q : ℝ) := by
      have := Real.log_le_log (by positivity) hq'
      rw [Real.log_div (by norm_num) (by norm_num), Real.log_one, Real.log_pow] at this
      push_cast at this
      linarith
    have a2 : Real.log (q : ℝ) ≤ 128 := by
      have := Real.log_le_log q0 hq''
      rw [Real.log_pow] at this
      push_cast at this
      linarith
    refine fit_le (rep_pow (by rw [top32]; omega)) (abs_le.mpr ⟨?_, ?_⟩)
    · have := le_cut (n := -8192) (r := Real.log q) (by norm_num; linarith)
      norm_num at this ⊢; exact this
    · have := cut_le (n := 8192) (r := Real.log q) (by norm_num; linarith)
      norm_num at this ⊢; exact this
  sqrt := someRoot_law
  sqrtInf := rfl
  product := someRow_law

/-! ## A network -/

/-- The weights of the network: 80 rows of three times a half. -/
def halves : List (List F32) := List.replicate 80 (List.replicate 3 (fit _ (1 / 2)))

/-- A network with context, an affine layer, a rectifier, a scale that keeps the numbers below 64, and a softmax. -/
def someNet : List (Layer F32) :=
  [.splice [-1, 0], .narrow 1 0, .linear halves (List.replicate 3 (fit _ 1)), .relu,
   .batchNorm (List.replicate 3 (fit _ (1 / 2 ^ 10))) (List.replicate 3 (fit _ 0)), .logSoftmax]

theorem someNet_built : Built someNet 40 3 1 0 80 := by
  refine .context (l := 1) (r := 0) (L := 0) (R := 0) (by decide) (by decide) (by decide) (by decide)
    (by decide) (.inr (by decide)) (.inl rfl) ?_
  refine .row (e := 3) (by decide) (by decide) (.linear ?_ List.length_replicate ?_ List.length_replicate) ?_
  · exact List.ne_nil_of_length_pos (by rw [halves, List.length_replicate]; decide)
  · intro y hy
    rw [List.eq_of_mem_replicate hy, List.length_replicate]
  refine .row (e := 3) (by decide) (by decide) .relu ?_
  refine .row (e := 3) (by decide) (by decide) (.batchNorm List.length_replicate List.length_replicate) ?_
  refine .row (e := 3) (by decide) (by decide) .logSoftmax ?_
  exact .nil (by decide) (by decide)

theorem pow_is {k : ℕ} (h : k ≤ 20) : Is (fit binary32 (1 / 2 ^ k)) (1 / 2 ^ k) := by
  have := rep_scale (f := binary32) (n := 1) (k := -(k : ℤ)) (by decide)
    (by rw [show binary32.low = -149 from rfl]; omega) (by rw [top32, show ((binary32.prec : ℕ) : ℤ) = 24 from rfl]; omega)
  rw [show ((1 : ℕ) : ℚ) * pow2 (-(k : ℤ)) = 1 / 2 ^ k by
    rw [pow2_eq, zpow_neg, zpow_natCast]; norm_num] at this
  exact fit_is this

theorem someNet_robust : Robust someNet 7 8 := by
  refine .cons .splice (by omega) (by simp) (by simp) ?_
  refine .cons .narrow (by omega) (by simp) (by simp) ?_
  refine .cons (b := 14) (.linear (k := 6) (d := 0) (m := 7) ?_ (by omega) ?_ ?_) (by omega) (by simp) (by simp) ?_
  · rw [halves, List.length_replicate]; decide
  · intro y hy v hv
    rw [halves] at hy
    rw [List.eq_of_mem_replicate hy] at hv
    rw [List.eq_of_mem_replicate hv]
    refine ⟨1 / 2, ?_, by norm_num⟩
    have := pow_is (k := 1) (by omega)
    rwa [pow_one] at this
  · intro v hv
    rw [List.eq_of_mem_replicate hv]
    refine ⟨1, ?_, by norm_num⟩
    have := pow_is (k := 0) (by omega)
    rwa [pow_zero, _root_.div_one] at this
  refine .cons .relu (by omega) (by simp) (by simp) ?_
  refine .cons (b := 5) (.batchNorm (k := 4) (d := 0) ?_ ?_) (by omega) (by simp) (by simp) ?_
  · intro v hv
    rw [List.eq_of_mem_replicate hv]
    exact ⟨_, pow_is (by omega), by norm_num [abs_of_pos]⟩
  · intro v hv
    rw [List.eq_of_mem_replicate hv]
    exact ⟨0, fit_is rep_zero, by norm_num⟩
  refine .cons .logSoftmax (by omega) (by simp) (by simp) ?_
  exact .nil

/-- A recogniser with this network. -/
noncomputable def someRec (o : Fbank.Ops F32) : Stt.Rec F32 F64 where
  conv n := fit _ n
  fb := o
  nn := nnet someNnLib
  am := ⟨someNet, List.replicate 3 (fit _ 1), 1, 0, 2⟩
  dec := ⟨machine, ⟨0, fun _ => [], fun _ => fit _ 0⟩, none, [0, 0], fit _ 1⟩
  fuel := 10
  syms := []
  perFrame x n := div x (ofNat n)
  zero := fit _ 0

/-- Two seconds of audio, 64000 bytes 128, have 198 rows of scores, and all of them are numbers up to 512. -/
example : ∃ o, make (fbank someLib) = .ok o ∧ ∃ rows, Scores (someRec o) someRow 2 (List.replicate 64000 128) rows ∧
    rows.length = 198 ∧ ∀ row ∈ rows, ∀ v ∈ row, AtMost 9 v := by
  obtain ⟨o, ho⟩ := C99_constructed someLib_laws
  obtain ⟨rows, h1, h2⟩ := C100_all (r := someRec o) someLib_laws someNnLib_laws ho rfl rfl someNet_built (by norm_num)
    (a := 8) (d := 0) someNet_robust (by
      intro v hv
      rw [List.eq_of_mem_replicate hv]
      refine ⟨1, ?_, by norm_num⟩
      have := pow_is (k := 0) (by omega)
      rwa [pow_zero, _root_.div_one] at this) (by omega) (b := 2) (by omega) (List.replicate 64000 128)
  refine ⟨o, ho, rows, h1, ?_, h2⟩
  obtain ⟨feats, -, h3, -⟩ := h1
  rw [h3, List.length_map, Pcm.Spec.samples, List.length_map, List.length_range, List.length_replicate]
  rfl

/-- The vector (-1, 0) behind a rectifier and a normalise layer. -/
example : ∀ v ∈ pointwise (nnet someNnLib) someRow (pointwise (nnet someNnLib) someRow [fit _ (-1), fit _ 0] .relu) .normalize,
    v = .nan := by
  refine C100_normalize someNnLib_laws (by decide) ?_
  intro v hv
  rcases List.mem_cons.mp hv with rfl | hv
  · have hr : Rep binary32 (-1) := by have := rep_minus (rep_small (n := 1) (by norm_num)); simpa using this
    exact ⟨-1, fit_is hr, by norm_num⟩
  · rw [List.mem_singleton] at hv
    rw [hv]
    exact ⟨0, fit_is rep_zero, le_refl _⟩

/-- A recogniser with 40 inputs, one output, weights of a half and an offset of -65536. -/
noncomputable def deadRec (o : Fbank.Ops F32) : Stt.Rec F32 F64 :=
  { someRec o with
    am := ⟨[.linear (List.replicate 40 [fit _ (1 / 2)]) [fit _ (-65536)], .relu, .normalize], [fit _ 0], 0, 0, 2⟩ }

/-- Whatever the audio is, its scores are NaN; a tenth of a second of audio has some. -/
example : ∃ o, make (fbank someLib) = .ok o ∧ Built (deadRec o).am.layers 40 1 0 0 40 ∧
    (∀ data rows, Scores (deadRec o) someRow 2 data rows → ∀ row ∈ rows, ∀ v ∈ row, v = .nan) ∧
    ∀ rows, Scores (deadRec o) someRow 2 (List.replicate 3200 1) rows → rows.length = 8 := by
  obtain ⟨o, ho⟩ := C99_constructed someLib_laws
  refine ⟨o, ho, ?_, fun data rows hs => ?_, fun rows ⟨_, _, h, _⟩ => ?_⟩
  · refine .row (e := 1) (by decide) (by decide) (.linear ?_ List.length_replicate ?_ rfl) ?_
    · exact List.ne_nil_of_length_pos (by rw [List.length_replicate]; decide)
    · intro y hy
      rw [List.eq_of_mem_replicate hy]
      rfl
    refine .row (e := 1) (by decide) (by decide) .relu ?_
    refine .row (e := 1) (by decide) (by decide) .normalize ?_
    exact .nil (by decide) (by decide)
  · refine C100_nan someLib_laws someNnLib_laws (r := deadRec o) ho rfl rfl rfl (k := 6) (m := 6) (d := 16) (by omega) (by omega)
      (by omega) List.length_replicate (by norm_num) (by decide) ?_ ?_ (b := 2) (by omega) data rows hs
    · intro y hy v hv
      rw [List.eq_of_mem_replicate hy, List.mem_singleton] at hv
      rw [hv]
      refine ⟨1 / 2, ?_, by norm_num⟩
      have := pow_is (k := 1) (by omega)
      rwa [pow_one] at this
    · intro v hv
      rw [List.mem_singleton] at hv
      rw [hv]
      have hr : Rep binary32 (-65536) := by
        have := rep_minus (f := binary32) (rep_pow (f := binary32) (a := 16) (by rw [top32]; omega))
        norm_num at this
        exact this
      exact ⟨-65536, fit_is hr, by norm_num, by norm_num⟩
  · rw [h, List.length_map, Pcm.Spec.samples, List.length_map, List.length_range, List.length_replicate]
    rfl

end Verif.Ieee
