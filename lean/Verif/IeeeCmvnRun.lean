import Verif.CmvnModel
import Verif.SrfftReal

/-!
# What `CMVN` computes, in any arithmetic
-/

namespace Verif.Cmvn

open Verif Verif.Srfft

variable {F D : Type} {o : Ops F D}

/-- One element of `addVecD`, `src/vector.cc` 249-257. -/
def plusD (o : Ops F D) (alpha : D) (a : D) (b : F) : D :=
  if o.isOne alpha then o.add a (o.toD b) else o.add a (o.mul alpha (o.toD b))

/-- One element of `addVecF`, `src/vector.cc` 249-257. -/
def plusF (o : Ops F D) (alpha a b : F) : F :=
  if o.isOne (o.toD alpha) then o.fadd a b else o.fadd a (o.fmul alpha b)

theorem zip_vecs {A B C : Type} (g : A → B → C) (n : Nat) (f : Nat → A) (h : Nat → B) :
    List.zipWith g (vec n f) (vec n h) = vec n (fun i => g (f i) (h i)) := by
  unfold vec
  rw [List.zipWith_map, List.zipWith_self]

theorem addVecD_run (a : D) (f : Nat → D) (g : Nat → F) (n : Nat) :
    addVecD o a (vec n f) (vec n g) = .ok (vec n fun i => plusD o a (f i) (g i)) := by
  unfold addVecD
  rw [decide_eq_true (by rw [vec_length, vec_length]), cassert_true, ok_bind, zip_vecs]
  rfl

theorem addVecF_run (a : F) (f g : Nat → F) (n : Nat) :
    addVecF o a (vec n f) (vec n g) = .ok (vec n fun i => plusF o a (f i) (g i)) := by
  unfold addVecF
  rw [decide_eq_true (by rw [vec_length, vec_length]), cassert_true, ok_bind, zip_vecs]
  rfl

theorem vec_split {A : Type} (f g : Nat → A) : vec 40 f ++ (vec 41 g).drop 40 = vec 41 (fun i => if i = 40 then g i else f i) := by
  apply eq_vec
  · rw [List.length_append, List.length_drop, vec_length, vec_length]
  · intro i hi
    by_cases h : i < 40
    · rw [List.getElem?_append_left (by rw [vec_length]; exact h), vec_get _ h, if_neg (by omega)]
    · have : i = 40 := by omega
      subst this
      rw [List.getElem?_append_right (by rw [vec_length]), vec_length, List.getElem?_drop, vec_get _ (by omega)]
      rfl

theorem onHead_run (a : D) (f : Nat → D) (g : Nat → F) :
    onHead (fun h => addVecD o a h (vec 40 g)) (vec 41 f) =
      .ok (vec 41 fun i => if i = 40 then f i else plusD o a (f i) (g i)) := by
  unfold onHead
  rw [decide_eq_true (by rw [vec_length]; omega), cassert_true, ok_bind, Srfft.vec_take (by omega)]
  simp only
  rw [addVecD_run, ok_bind, vec_split]

theorem atCount_run (c : D → D) (f : Nat → D) :
    atCount c (vec 41 f) = .ok (vec 41 fun i => if i = 40 then c (f 40) else f i) := by
  unfold atCount
  rw [show (40 : Int) = ((40 : Nat) : Int) from rfl, aget_vec f (by omega), ok_bind, aset_vec f (by omega)]

/-- What the statistics start from, `src/cmvn.cc` 42-47. -/
def start (o : Ops F D) (t : Nat) (C : Nat → F) (i : Nat) : D := if t = 0 then o.zero else o.toD (C i)

/-- The statistics after frame `t`, from those before it, the frame and the one that leaves the window, `src/cmvn.cc` 42-67. -/
def nextStats (o : Ops F D) (t : Nat) (C x y : Nat → F) (i : Nat) : F :=
  if i = 40 then
    if 600 ≤ t then o.toF (o.sub (o.add (start o t C 40) (o.ofNat 1)) (o.ofNat 1))
    else o.toF (o.add (start o t C 40) (o.ofNat 1))
  else
    if 600 ≤ t then o.toF (plusD o o.negOne (plusD o (o.ofNat 1) (start o t C i) (x i)) (y i))
    else o.toF (plusD o (o.ofNat 1) (start o t C i) (x i))

/-- The rows of a matrix. -/
def Rows (raw : List (List F)) (R : Nat → Nat → F) : Prop := ∀ t, t < raw.length → raw[t]? = some (vec 40 (R t))

theorem rowOf_run {raw : List (List F)} {R : Nat → Nat → F} (hR : Rows raw R) {t : Nat} (ht : t < raw.length) :
    rowOf raw (t : Int) = .ok (vec 40 (R t)) := by
  unfold rowOf
  rw [decide_eq_true (by omega), cassert_true, ok_bind, aget_nat (hR t ht)]

theorem computeStats_run {raw : List (List F)} {R : Nat → Nat → F} (hR : Rows raw R) (hsm : raw.length ≤ 2147483647) {t : Nat}
    (ht : t < raw.length) {s : State F} (h1 : s.raw = raw) (h2 : s.frame = (t : Int) - 1) {C : Nat → F}
    (h3 : 0 < t → s.stats = vec 41 C) :
    computeStats o s t = .ok (vec 41 (nextStats o t C (R t) (R (t - 600))),
      { s with stats := vec 41 (nextStats o t C (R t) (R (t - 600))), frame := (t : Int) }) := by
  have hst : cached o s = .ok (vec 41 (start o t C)) := by
    unfold cached
    by_cases h0 : t = 0
    · rw [if_neg (by omega)]
      refine congrArg _ ?_
      apply eq_vec List.length_replicate
      intro i hi
      rw [List.getElem?_replicate, if_pos hi]
      unfold start
      rw [if_pos h0]
    · rw [if_pos (by omega), h3 (by omega), vec_length, decide_eq_true rfl, cassert_true, ok_bind]
      refine congrArg _ ?_
      apply eq_vec (by rw [List.length_map, vec_length])
      intro i hi
      rw [List.getElem?_map, vec_get _ hi]
      unfold start
      rw [if_neg h0]
      rfl
  unfold computeStats
  rw [i32_of ⟨by omega, by omega⟩, ok_bind, decide_eq_true h2, cassert_true, ok_bind, h1, rowOf_run hR ht, ok_bind, hst,
    ok_bind, vec_length, decide_eq_true rfl, cassert_true, ok_bind, onHead_run, ok_bind,
    atCount_run (fun c => o.add c (o.ofNat 1)), ok_bind]
  unfold leave
  rw [i32_of ⟨by omega, by omega⟩, ok_bind]
  by_cases h : 600 ≤ t
  · rw [if_pos (by omega), h1, show (t : Int) - 600 = ((t - 600 : Nat) : Int) by omega, rowOf_run hR (by omega), ok_bind,
      onHead_run, ok_bind, atCount_run (fun c => o.sub c (o.ofNat 1)), ok_bind]
    have e : (vec 41 fun i => if i = 40 then (fun c => o.sub c (o.ofNat 1))
        (if (40 : Nat) = 40 then if (40 : Nat) = 40 then (fun c => o.add c (o.ofNat 1)) (if (40 : Nat) = 40 then start o t C 40
          else plusD o (o.ofNat 1) (start o t C 40) (R t 40)) else if (40 : Nat) = 40 then start o t C 40
          else plusD o (o.ofNat 1) (start o t C 40) (R t 40) else plusD o o.negOne (if (40 : Nat) = 40 then
          (fun c => o.add c (o.ofNat 1)) (if (40 : Nat) = 40 then start o t C 40 else plusD o (o.ofNat 1) (start o t C 40) (R t 40))
          else if (40 : Nat) = 40 then start o t C 40 else plusD o (o.ofNat 1) (start o t C 40) (R t 40)) (R (t - 600) 40))
        else if i = 40 then if i = 40 then (fun c => o.add c (o.ofNat 1)) (if (40 : Nat) = 40 then start o t C 40
          else plusD o (o.ofNat 1) (start o t C 40) (R t 40)) else if i = 40 then start o t C i
          else plusD o (o.ofNat 1) (start o t C i) (R t i) else plusD o o.negOne (if i = 40 then
          (fun c => o.add c (o.ofNat 1)) (if (40 : Nat) = 40 then start o t C 40 else plusD o (o.ofNat 1) (start o t C 40) (R t 40))
          else if i = 40 then start o t C i else plusD o (o.ofNat 1) (start o t C i) (R t i)) (R (t - 600) i)).map o.toF =
        vec 41 (nextStats o t C (R t) (R (t - 600))) := by
      unfold vec
      rw [List.map_map]
      apply List.map_congr_left
      intro i _
      unfold nextStats
      by_cases hi : i = 40
      · simp [hi, h]
      · simp [hi, h]
    rw [e]
  · rw [if_neg (by omega), ok_bind]
    have e : (vec 41 fun i => if i = 40 then (fun c => o.add c (o.ofNat 1)) (if (40 : Nat) = 40 then start o t C 40
          else plusD o (o.ofNat 1) (start o t C 40) (R t 40)) else if i = 40 then start o t C i
          else plusD o (o.ofNat 1) (start o t C i) (R t i)).map o.toF =
        vec 41 (nextStats o t C (R t) (R (t - 600))) := by
      unfold vec
      rw [List.map_map]
      apply List.map_congr_left
      intro i _
      unfold nextStats
      by_cases hi : i = 40
      · simp [hi, h]
      · simp [hi, h]
    rw [e]

/-- The statistics after smoothing, `src/cmvn.cc` 70-89. -/
def smoothed (o : Ops F D) (G C : Nat → F) (i : Nat) : F :=
  if o.le (o.ofNat 600) (o.toD (C 40)) then C i
  else plusF o (o.toF (o.div (fromGlobal o (o.toD (C 40))) (o.toD (G 40)))) (C i) (G i)

theorem smoothStats_run {G C : Nat → F} (h1 : o.le (o.toD (C 40)) (o.ofNat 600) = true)
    (h2 : o.lt o.zero (o.toD (G 40)) = true) : smoothStats o (vec 41 G) (vec 41 C) = .ok (vec 41 (smoothed o G C)) := by
  unfold smoothStats
  rw [vec_length, vec_length, decide_eq_true rfl, cassert_true, ok_bind, ok_bind,
    show (40 : Int) = ((40 : Nat) : Int) from rfl, aget_vec C (by omega), ok_bind, h1, cassert_true, ok_bind]
  by_cases h : o.le (o.ofNat 600) (o.toD (C 40)) = true
  · rw [if_pos h]
    refine congrArg _ (vec_congr fun i _ => ?_)
    unfold smoothed
    rw [if_pos h]
  · rw [if_neg h, aget_vec G (by omega), ok_bind, h2, cassert_true, ok_bind, addVecF_run]
    refine congrArg _ (vec_congr fun i _ => ?_)
    unfold smoothed
    rw [if_neg h]

theorem apply_run {C x : Nat → F} (h : o.lt o.zero (o.toD (C 40)) = true) : apply o (vec 41 C) (vec 40 x) =
    .ok (vec 40 fun i => plusF o (o.fneg (o.toF (o.div (o.ofNat 1) (o.toD (C 40))))) (x i) (C i)) := by
  unfold apply
  rw [vec_length, vec_length, decide_eq_true ⟨rfl, rfl⟩, cassert_true, ok_bind,
    show (40 : Int) = ((40 : Nat) : Int) from rfl, aget_vec C (by omega), ok_bind, h, cassert_true, ok_bind,
    Srfft.vec_take (by omega), addVecF_run]

/-- One frame. -/
theorem getFrame_run {raw : List (List F)} {R : Nat → Nat → F} (hR : Rows raw R) (hsm : raw.length ≤ 2147483647) {t : Nat}
    (ht : t < raw.length) {s : State F} (h1 : s.raw = raw) (h2 : s.frame = (t : Int) - 1) {C G : Nat → F}
    (h3 : 0 < t → s.stats = vec 41 C) (h4 : s.global = vec 41 G) {N : Nat → F}
    (hN : N = nextStats o t C (R t) (R (t - 600))) (h5 : o.le (o.toD (N 40)) (o.ofNat 600) = true)
    (h6 : o.lt o.zero (o.toD (G 40)) = true) (h7 : o.lt o.zero (o.toD (smoothed o G N 40)) = true) :
    getFrame o s t = .ok (vec 40 (fun i => plusF o (o.fneg (o.toF (o.div (o.ofNat 1) (o.toD (smoothed o G N 40))))) (R t i)
      (smoothed o G N i)), { s with stats := vec 41 N, frame := (t : Int) }) := by
  unfold getFrame
  rw [computeStats_run hR hsm ht h1 h2 h3, ← hN, ok_bind]
  simp only
  rw [h4, smoothStats_run h5 h6, ok_bind, h1, rowOf_run hR ht, ok_bind, apply_run h7, ok_bind]

end Verif.Cmvn
