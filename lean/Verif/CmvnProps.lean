import Verif.CmvnModel
import Mathlib.Algebra.Order.Field.Basic
import Mathlib.Algebra.BigOperators.Intervals
import Mathlib.Algebra.Order.Ring.Rat
import Mathlib.Tactic.Ring
import Mathlib.Tactic.Linarith
import Mathlib.Tactic.FieldSimp
import Mathlib.Tactic.Positivity

/-!
# Property C46: sliding-window normalisation
-/

set_option linter.unusedSectionVars false

namespace Verif.Cmvn

variable {K : Type} [Field K] [LinearOrder K] [IsStrictOrderedRing K]

/-- Exact arithmetic: both types are the same ordered field. -/
def exact (K : Type) [Field K] [LinearOrder K] : Ops K K where
  zero := 0
  ofNat n := n
  negOne := -1
  add := (· + ·)
  sub := (· - ·)
  mul := (· * ·)
  div := (· / ·)
  lt a b := decide (a < b)
  le a b := decide (a ≤ b)
  isOne a := decide (a = 1)
  toD := id
  toF := id
  fadd := (· + ·)
  fmul := (· * ·)
  fneg a := -a

/-! ## Specification -/

/-- Coefficient `i` of frame `j`. -/
def Spec.feat (raw : List (List K)) (j i : Nat) : K := (raw.getD j []).getD i 0

/-- Sum of coefficient `i` over the last at most 600 frames up to and including frame `t`. -/
def Spec.windowSum (raw : List (List K)) (t i : Nat) : K := ∑ j ∈ Finset.Ico (t + 1 - 600) (t + 1), Spec.feat raw j i

/-- Number of frames in the window that ends with frame `t`. -/
def Spec.windowSize (t : Nat) : Nat := min (t + 1) 600

/-- Number of global frames added to a window of `m` frames. -/
def Spec.globalFrames (m : Nat) : Nat := min (600 - m) 200

/-- The mean of coefficient `i` for frame `t`: the window together with that many frames of the global mean. -/
def Spec.mean (global : List K) (raw : List (List K)) (t i : Nat) : K :=
  (Spec.windowSum raw t i + Spec.globalFrames (Spec.windowSize t) * (global.getD i 0 / global.getD 40 0)) /
    (Spec.windowSize t + Spec.globalFrames (Spec.windowSize t) : Nat)

/-! ## Lemmas -/

/-- A vector given by its elements. -/
def vec (n : Nat) (f : Nat → K) : List K := (List.range n).map f

theorem vec_length (n : Nat) (f : Nat → K) : (vec n f).length = n := by simp [vec]

theorem vec_get {n : Nat} (f : Nat → K) {i : Nat} (h : i < n) : (vec n f)[i]? = some (f i) := by
  simp [vec, h]

theorem eq_vec {l : List K} {n : Nat} {f : Nat → K} (hl : l.length = n) (h : ∀ i, i < n → l[i]? = some (f i)) :
    l = vec n f := by
  apply List.ext_getElem?
  intro i
  by_cases hi : i < n
  · rw [h i hi, vec_get f hi]
  · rw [List.getElem?_eq_none (by omega), List.getElem?_eq_none (by rw [vec_length]; omega)]

theorem vec_self {l : List K} {n : Nat} (hl : l.length = n) : l = vec n (fun i => l.getD i 0) := by
  apply eq_vec hl
  intro i hi
  rw [List.getD_eq_getElem?_getD, List.getElem?_eq_getElem (by omega)]
  rfl

theorem zip_vec (g : K → K → K) (n : Nat) (f h : Nat → K) :
    List.zipWith g (vec n f) (vec n h) = vec n (fun i => g (f i) (h i)) := by
  unfold vec
  rw [List.zipWith_map, List.zipWith_self]

theorem vec_take (f : Nat → K) : (vec 41 f).take 40 = vec 40 f := by
  unfold vec
  rw [← List.map_take, List.take_range]
  rfl

theorem vec_join (f g : Nat → K) : vec 40 f ++ (vec 41 g).drop 40 = vec 41 (fun i => if i = 40 then g i else f i) := by
  apply eq_vec
  · simp [vec_length]
  · intro i hi
    by_cases h : i < 40
    · rw [List.getElem?_append_left (by rw [vec_length]; exact h), vec_get _ h, if_neg (by omega)]
    · have : i = 40 := by omega
      subst this
      rw [List.getElem?_append_right (by rw [vec_length]), vec_length, List.getElem?_drop, vec_get _ (by omega)]
      rfl

theorem addVec_exact (a : K) (f g : Nat → K) (n : Nat) :
    addVecD (exact K) a (vec n f) (vec n g) = .ok (vec n fun i => f i + a * g i) := by
  unfold addVecD
  rw [decide_eq_true (by rw [vec_length, vec_length]), cassert_true, ok_bind, zip_vec]
  refine congrArg Except.ok (congrArg _ ?_)
  funext i
  show (if decide (a = 1) = true then f i + g i else f i + a * g i) = _
  split
  · rename_i h
    rw [of_decide_eq_true h, one_mul]
  · rfl

theorem addVecF_exact (a : K) (f g : Nat → K) (n : Nat) :
    addVecF (exact K) a (vec n f) (vec n g) = .ok (vec n fun i => f i + a * g i) := addVec_exact a f g n

theorem onHead_exact (a : K) (f g : Nat → K) :
    onHead (fun h => addVecD (exact K) a h (vec 40 g)) (vec 41 f) =
      .ok (vec 41 fun i => if i = 40 then f i else f i + a * g i) := by
  unfold onHead
  rw [decide_eq_true (by rw [vec_length]; omega), cassert_true, ok_bind, vec_take]
  simp only
  rw [addVec_exact, ok_bind, vec_join]

theorem atCount_exact (c : K → K) (f : Nat → K) :
    atCount c (vec 41 f) = .ok (vec 41 fun i => if i = 40 then c (f 40) else f i) := by
  unfold atCount
  rw [show (40 : Int) = ((40 : Nat) : Int) from rfl, aget_nat (vec_get f (by omega)), ok_bind,
    aset_nat (by rw [vec_length]; omega)]
  refine congrArg _ ?_
  apply eq_vec
  · rw [List.length_set, vec_length]
  · intro i hi
    rw [List.getElem?_set]
    by_cases h : 40 = i
    · subst h
      rw [if_pos rfl, if_pos (by rw [vec_length]; omega), if_pos rfl]
    · rw [if_neg h, vec_get _ hi, if_neg (fun hc => h hc.symm)]

theorem map_toD (l : List K) : l.map (exact K).toD = l := List.map_id l

theorem map_toF (l : List K) : l.map (exact K).toF = l := List.map_id l

theorem vec_congr {n : Nat} {f g : Nat → K} (h : ∀ i, i < n → f i = g i) : vec n f = vec n g :=
  List.map_congr_left fun i hi => h i (List.mem_range.mp hi)

/-- The statistics of the window that ends with frame `t`. -/
def windowStats (raw : List (List K)) (t : Nat) : List K :=
  vec 41 fun i => if i = 40 then (Spec.windowSize t : K) else Spec.windowSum raw t i

/-- The state before frame `t` is requested. -/
structure Ready (global : List K) (raw : List (List K)) (t : Nat) (s : State K) : Prop where
  raw_eq : s.raw = raw
  global_eq : s.global = global
  frame : s.frame = (t : Int) - 1
  stats : 0 < t → s.stats = windowStats raw (t - 1)

/-- What is assumed of the input. -/
structure Input (global : List K) (raw : List (List K)) : Prop where
  rows : ∀ x ∈ raw, x.length = 40
  small : raw.length ≤ 2147483647
  global_len : global.length = 41
  global_pos : 0 < global.getD 40 0

variable {global : List K} {raw : List (List K)}

theorem rowOf_ok (I : Input global raw) {t : Nat} (ht : t < raw.length) :
    rowOf raw (t : Int) = .ok (vec 40 (Spec.feat raw t)) := by
  unfold rowOf
  rw [decide_eq_true (by omega), cassert_true, ok_bind, aget_nat (List.getElem?_eq_getElem ht)]
  refine congrArg _ ?_
  have h := vec_self (I.rows _ (List.getElem_mem ht))
  rw [h]
  refine congrArg _ ?_
  funext i
  unfold Spec.feat
  rw [List.getD_eq_getElem?_getD (l := raw), List.getElem?_eq_getElem ht]
  rfl

theorem windowSize_succ (t : Nat) :
    ((Spec.windowSize (t + 1) : Nat) : K) = Spec.windowSize t + 1 - (if 600 ≤ t + 1 then 1 else 0) := by
  unfold Spec.windowSize
  by_cases h : 600 ≤ t + 1
  · rw [if_pos h, min_eq_right (by omega), min_eq_right (by omega)]; ring
  · rw [if_neg h, min_eq_left (by omega), min_eq_left (by omega)]; push_cast; ring

theorem windowSum_succ (raw : List (List K)) (t i : Nat) :
    Spec.windowSum raw (t + 1) i = Spec.windowSum raw t i + Spec.feat raw (t + 1) i -
      (if 600 ≤ t + 1 then Spec.feat raw (t + 1 - 600) i else 0) := by
  unfold Spec.windowSum
  rw [Finset.sum_Ico_succ_top (by omega)]
  by_cases h : 600 ≤ t + 1
  · rw [if_pos h, Finset.sum_eq_sum_Ico_succ_bot (show t + 1 - 600 < t + 1 by omega),
      show t + 1 - 600 + 1 = t + 1 + 1 - 600 by omega]
    ring
  · rw [if_neg h, show t + 1 - 600 = 0 by omega, show t + 1 + 1 - 600 = 0 by omega]
    ring

/-- The statistics of frame `t`. -/
theorem computeStats_exact (I : Input global raw) {t : Nat} (ht : t < raw.length) {s : State K}
    (R : Ready global raw t s) : ∃ s', computeStats (exact K) s t = .ok (windowStats raw t, s') ∧
      Ready global raw (t + 1) s' := by
  have hsm := I.small
  have hst : cached (exact K) s = .ok (vec 41 fun i => if t = 0 then 0 else
      if i = 40 then (Spec.windowSize (t - 1) : K) else Spec.windowSum raw (t - 1) i) := by
    unfold cached
    by_cases h0 : t = 0
    · subst h0
      rw [if_neg (by rw [R.frame]; simp)]
      refine congrArg _ ?_
      apply eq_vec List.length_replicate
      intro i hi
      rw [List.getElem?_replicate, if_pos hi, if_pos rfl]
      rfl
    · rw [if_pos (by rw [R.frame]; omega), R.stats (by omega)]
      unfold windowStats
      rw [vec_length, decide_eq_true rfl, cassert_true, ok_bind]
      refine congrArg _ ?_
      simp only [if_neg h0]
      exact map_toD _
  refine ⟨{ s with stats := windowStats raw t, frame := t }, ?_,
    ⟨R.raw_eq, R.global_eq, by show (t : Int) = _; push_cast; ring, fun _ => rfl⟩⟩
  unfold computeStats
  rw [i32_of ⟨by omega, by omega⟩, ok_bind, decide_eq_true R.frame, cassert_true, ok_bind,
    show rowOf s.raw (t : Int) = .ok (vec 40 (Spec.feat raw t)) by rw [R.raw_eq]; exact rowOf_ok I ht, ok_bind, hst, ok_bind, vec_length, decide_eq_true rfl, cassert_true, ok_bind, onHead_exact, ok_bind]
  rw [atCount_exact (fun c => (exact K).add c ((exact K).ofNat 1)), ok_bind]
  have hl : ∀ f : Nat → K, leave (exact K) s t (vec 41 f) = .ok (vec 41 fun i =>
      if i = 40 then f i - (if 600 ≤ t then 1 else 0) else f i - (if 600 ≤ t then Spec.feat raw (t - 600) i else 0)) := by
    intro f
    unfold leave
    rw [i32_of ⟨by omega, by omega⟩, ok_bind]
    by_cases h : 600 ≤ t
    · rw [if_pos (by omega), R.raw_eq, show (t : Int) - 600 = ((t - 600 : Nat) : Int) by omega,
        rowOf_ok I (by omega), ok_bind, onHead_exact, ok_bind,
        atCount_exact (fun c => (exact K).sub c ((exact K).ofNat 1))]
      simp only [if_pos h]
      refine congrArg _ ?_
      apply vec_congr
      intro i _
      by_cases hi : i = 40
      · subst hi
        simp only [if_true]
        show f 40 - ((1 : Nat) : K) = _
        rw [Nat.cast_one]
      · simp only [if_neg hi]
        show f i + (-1) * _ = _
        ring
    · rw [if_neg (by omega)]
      simp only [if_neg h, sub_zero]
      refine congrArg Except.ok (congrArg _ ?_)
      funext i
      rw [ite_self]
  rw [hl, ok_bind]
  rw [map_toF]
  refine congrArg Except.ok (congrArg (fun v => (v, { s with stats := v, frame := (t : Int) })) ?_)
  unfold windowStats
  apply vec_congr
  intro i _
  by_cases hi : i = 40
  · subst hi
    simp only [if_true]
    show (if t = 0 then 0 else (Spec.windowSize (t - 1) : K)) + ((1 : Nat) : K) - _ = _
    by_cases h0 : t = 0
    · subst h0
      rw [if_pos rfl, if_neg (by omega)]
      unfold Spec.windowSize
      norm_num
    · have := windowSize_succ (K := K) (t - 1)
      rw [show t - 1 + 1 = t by omega] at this
      rw [if_neg h0, this, Nat.cast_one]
  · simp only [if_neg hi]
    show (if t = 0 then 0 else Spec.windowSum raw (t - 1) i) + ((1 : Nat) : K) * Spec.feat raw t i - _ = _
    by_cases h0 : t = 0
    · subst h0
      rw [if_pos rfl, if_neg (by omega)]
      unfold Spec.windowSum
      simp
    · have := windowSum_succ raw (t - 1) i
      rw [show t - 1 + 1 = t by omega] at this
      rw [if_neg h0, this, Nat.cast_one, one_mul]

/-- The smoothed statistics of frame `t`. -/
theorem smoothStats_exact (I : Input global raw) (t : Nat) :
    smoothStats (exact K) global (windowStats raw t) = .ok (vec 41 fun i =>
      (if i = 40 then (Spec.windowSize t : K) else Spec.windowSum raw t i) +
        Spec.globalFrames (Spec.windowSize t) * (global.getD i 0 / global.getD 40 0)) := by
  have hle : Spec.windowSize t ≤ 600 := by unfold Spec.windowSize; omega
  have hg := I.global_pos
  unfold smoothStats windowStats
  rw [vec_length, decide_eq_true rfl, cassert_true, ok_bind, decide_eq_true I.global_len, cassert_true, ok_bind,
    show (40 : Int) = ((40 : Nat) : Int) from rfl, aget_nat (vec_get _ (by omega)), ok_bind, if_pos rfl]
  have h600 : (exact K).le ((exact K).toD (Spec.windowSize t : K)) ((exact K).ofNat 600) = true := by
    show decide ((Spec.windowSize t : K) ≤ ((600 : Nat) : K)) = true
    rw [decide_eq_true_eq]
    exact_mod_cast hle
  rw [h600, cassert_true, ok_bind]
  have hge : (exact K).le ((exact K).ofNat 600) ((exact K).toD (Spec.windowSize t : K)) =
      decide (600 ≤ Spec.windowSize t) := by
    show decide (((600 : Nat) : K) ≤ (Spec.windowSize t : K)) = _
    by_cases h : 600 ≤ Spec.windowSize t
    · rw [decide_eq_true h, decide_eq_true_eq]; exact_mod_cast h
    · rw [decide_eq_false h, decide_eq_false_iff_not]
      intro hc
      exact h (by exact_mod_cast hc)
  rw [hge]
  by_cases h : 600 ≤ Spec.windowSize t
  · rw [decide_eq_true h, if_pos rfl]
    refine congrArg _ (vec_congr fun i _ => ?_)
    have : Spec.globalFrames (Spec.windowSize t) = 0 := by unfold Spec.globalFrames; omega
    rw [this, Nat.cast_zero, zero_mul, add_zero]
  · rw [decide_eq_false h, if_neg (by decide)]
    have hgl : aget global ((40 : Nat) : Int) = .ok (global.getD 40 0) := by
      apply aget_nat
      rw [List.getD_eq_getElem?_getD, List.getElem?_eq_getElem (by rw [I.global_len]; omega)]
      rfl
    rw [hgl, ok_bind, show (exact K).lt (exact K).zero ((exact K).toD (global.getD 40 0)) = true from
      decide_eq_true hg, cassert_true, ok_bind]
    have hfg : fromGlobal (exact K) ((exact K).toD (Spec.windowSize t : K)) =
        ((Spec.globalFrames (Spec.windowSize t) : Nat) : K) := by
      unfold fromGlobal
      show (if decide (((200 : Nat) : K) < ((600 : Nat) : K) - (Spec.windowSize t : K)) = true then ((200 : Nat) : K)
        else ((600 : Nat) : K) - (Spec.windowSize t : K)) = _
      rw [← Nat.cast_sub (by omega)]
      unfold Spec.globalFrames
      by_cases h2 : 200 < 600 - Spec.windowSize t
      · rw [if_pos (by rw [decide_eq_true_eq]; exact_mod_cast h2), min_eq_right (by omega)]
      · rw [if_neg (by rw [decide_eq_true_eq]; exact fun hc => h2 (by exact_mod_cast hc)), min_eq_left (by omega)]
    rw [hfg]
    have hgv : addVecF (exact K) ((exact K).toF ((exact K).div ((Spec.globalFrames (Spec.windowSize t) : Nat) : K)
        ((exact K).toD (global.getD 40 0)))) (vec 41 fun i => if i = 40 then (Spec.windowSize t : K) else Spec.windowSum raw t i)
        global = addVecF (exact K) (((Spec.globalFrames (Spec.windowSize t) : Nat) : K) / global.getD 40 0)
        (vec 41 fun i => if i = 40 then (Spec.windowSize t : K) else Spec.windowSum raw t i)
        (vec 41 fun i => global.getD i 0) := by
      rw [← vec_self I.global_len]
      rfl
    rw [hgv, addVecF_exact]
    refine congrArg _ (vec_congr fun i _ => ?_)
    ring

theorem getFrame_exact (I : Input global raw) {t : Nat} (ht : t < raw.length) {s : State K}
    (R : Ready global raw t s) : ∃ s', getFrame (exact K) s t =
        .ok (vec 40 fun i => Spec.feat raw t i - Spec.mean global raw t i, s') ∧ Ready global raw (t + 1) s' := by
  obtain ⟨s', h1, R'⟩ := computeStats_exact I ht R
  refine ⟨s', ?_, R'⟩
  unfold getFrame
  rw [h1, ok_bind]
  simp only
  rw [R'.global_eq, smoothStats_exact I t, ok_bind, R'.raw_eq, rowOf_ok I ht, ok_bind]
  have hg : global.getD 40 0 ≠ 0 := ne_of_gt I.global_pos
  have hpos : 0 < Spec.windowSize t := by unfold Spec.windowSize; omega
  have hc : (Spec.windowSize t : K) + Spec.globalFrames (Spec.windowSize t) * (global.getD 40 0 / global.getD 40 0) =
      ((Spec.windowSize t + Spec.globalFrames (Spec.windowSize t) : Nat) : K) := by
    rw [div_self hg]; push_cast; ring
  have ha : ∀ f : Nat → K, f 40 = ((Spec.windowSize t + Spec.globalFrames (Spec.windowSize t) : Nat) : K) →
      apply (exact K) (vec 41 f) (vec 40 (Spec.feat raw t)) = .ok (vec 40 fun i => Spec.feat raw t i - f i /
        ((Spec.windowSize t + Spec.globalFrames (Spec.windowSize t) : Nat) : K)) := by
    intro f hf
    unfold apply
    rw [vec_length, vec_length, decide_eq_true ⟨rfl, rfl⟩, cassert_true, ok_bind,
      show (40 : Int) = ((40 : Nat) : Int) from rfl, aget_nat (vec_get _ (by omega)), ok_bind, hf,
      show (exact K).lt (exact K).zero ((exact K).toD ((Spec.windowSize t + Spec.globalFrames (Spec.windowSize t) : Nat) : K))
        = true from decide_eq_true (by
          show (0 : K) < ((Spec.windowSize t + Spec.globalFrames (Spec.windowSize t) : Nat) : K)
          exact_mod_cast (by omega : 0 < Spec.windowSize t + Spec.globalFrames (Spec.windowSize t))),
      cassert_true, ok_bind, vec_take, addVecF_exact]
    refine congrArg _ (vec_congr fun i _ => ?_)
    show Spec.feat raw t i + -(((1 : Nat) : K) / ((Spec.windowSize t + Spec.globalFrames (Spec.windowSize t) : Nat) : K)) * f i = _
    rw [Nat.cast_one]
    ring
  rw [ha _ (by rw [if_pos rfl, hc]), ok_bind]
  refine congrArg Except.ok (congrArg (fun v => (v, s')) (vec_congr fun i hi => ?_))
  unfold Spec.mean
  rw [if_neg (by omega)]

/-! ## C46 -/

/-- **C46.** In exact arithmetic: all frames of a feature matrix can be requested in order.  Frame `t` comes out as the
raw frame minus the mean of the window of the last at most 600 frames, filled up with at most 200 frames of the global
mean as long as the window has fewer than 600 frames. -/
theorem C46_normalised (I : Input global raw) (s : State K) (hs : new global raw = .ok s) (n : Nat)
    (hn : n ≤ raw.length) :
    ∃ ys s', getFrames (exact K) n 0 s = .ok (ys, s') ∧ ys.length = n ∧
      ∀ t i : Nat, t < n → i < 40 → (ys[t]?).bind (fun y => y[i]?) = some (Spec.feat raw t i - Spec.mean global raw t i) := by
  have hR : Ready global raw 0 s := by
    unfold new at hs
    obtain ⟨_, _, hs⟩ := bind_ok hs
    obtain ⟨_, _, hs⟩ := bind_ok hs
    cases hs
    exact ⟨rfl, rfl, rfl, fun h => absurd h (by omega)⟩
  have key : ∀ (n first : Nat) (s : State K), Ready global raw first s → first + n ≤ raw.length →
      ∃ ys s', getFrames (exact K) n first s = .ok (ys, s') ∧ ys.length = n ∧ ∀ t i : Nat, t < n → i < 40 →
        (ys[t]?).bind (fun y => y[i]?) = some (Spec.feat raw (first + t) i - Spec.mean global raw (first + t) i) := by
    intro n
    induction n with
    | zero => intro first s _ _; exact ⟨[], s, rfl, rfl, fun t i ht => absurd ht (by omega)⟩
    | succ n ih =>
      intro first s R hl
      obtain ⟨s1, h1, R1⟩ := getFrame_exact I (show first < raw.length by omega) R
      obtain ⟨ys, s2, h2, h3, h4⟩ := ih (first + 1) s1 R1 (by omega)
      refine ⟨(vec 40 fun i => Spec.feat raw first i - Spec.mean global raw first i) :: ys, s2, ?_, by rw [List.length_cons, h3], ?_⟩
      · rw [getFrames, h1, ok_bind]
        simp only
        rw [h2, ok_bind]
      · intro t i ht hi
        cases t with
        | zero =>
          rw [List.getElem?_cons_zero]
          exact vec_get _ hi
        | succ t =>
          rw [List.getElem?_cons_succ, h4 t i (by omega) hi, show first + 1 + t = first + (t + 1) by omega]
  obtain ⟨ys, s', h1, h2, h3⟩ := key n 0 s hR (by omega)
  refine ⟨ys, s', h1, h2, fun t i ht hi => ?_⟩
  rw [h3 t i ht hi, Nat.zero_add]

/-- Asking for any other frame than the next one aborts: the class has no random access. -/
theorem C46_order {F D : Type} (o : Ops F D) (s : State F) (frame : Int) (h1 : -2147483648 < frame)
    (h2 : frame ≤ 2147483647) (h : frame ≠ s.frame + 1) : getFrame o s frame = .error .assert := by
  unfold getFrame computeStats
  rw [i32_of ⟨by omega, by omega⟩, ok_bind, decide_eq_false (by omega)]
  rfl

/-- Asking for a frame behind the last one aborts. -/
theorem C46_range {F D : Type} (o : Ops F D) (s : State F) (frame : Int) (h1 : -2147483648 < frame)
    (h2 : frame ≤ 2147483647) (h : (s.raw.length : Int) ≤ frame) : getFrame o s frame = .error .assert := by
  unfold getFrame computeStats
  rw [i32_of ⟨by omega, by omega⟩, ok_bind]
  by_cases hf : s.frame = frame - 1
  · rw [decide_eq_true hf, cassert_true, ok_bind]
    unfold rowOf
    rw [decide_eq_false (by omega)]
    rfl
  · rw [decide_eq_false hf]
    rfl

/-- Three frames and global statistics over 50 frames, for the examples. -/
def toyRaw : List (List Rat) := [List.replicate 40 5, List.replicate 40 1, List.replicate 40 3]

/-- Global mean 2. -/
def toyGlobal : List Rat := List.replicate 40 100 ++ [50]

theorem toy_input : Input toyGlobal toyRaw where
  rows := by decide +kernel
  small := by decide
  global_len := by decide
  global_pos := by decide +kernel

/-- The first coefficients: 5 - 405/201, 1 - 406/202 and 3 - 409/203. -/
example : (do
    let s ← new toyGlobal toyRaw
    let (ys, _) ← getFrames (exact Rat) 3 0 s
    .ok (ys.map fun y => y.headD 0) : Exec (List Rat)) = .ok [600 / 201, -204 / 202, 200 / 203] := by decide +kernel

end Verif.Cmvn
