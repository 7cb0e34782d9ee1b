import Verif.CmvnConvLemmas
import Verif.SerProps
import Verif.CmvnProps

/-!
# Property C80: converted CMVN statistics
-/

namespace Verif.CmvnConv

open Verif Verif.Tool Verif.Ser

variable {R : Type}

theorem convert_of (num : FNum R) {lines ws ns : List Txt} (h : Words lines ws) (hn : Numbers ws ns) (hl : ns.length = 82)
    {bits : List UInt32} (hb : List.Forall₂ (fun t y => num.pack (num.val t) = some y) (ns.take 41) bits) :
    convertStats num lines = .ok (writeVec (bits.map UInt32.toNat)) := by
  unfold convertStats
  rw [matrixData_of num h hn, if_neg (by rw [List.length_map]; omega), ← List.map_take, packAll_ok (w := bits), ok_bind]
  exact List.forall₂_map_left_iff.mpr hb

theorem readVec_bits {ns : List Txt} {bits : List UInt32} {num : FNum R} (hl : 41 ≤ ns.length)
    (hb : List.Forall₂ (fun t y => num.pack (num.val t) = some y) (ns.take 41) bits) (rest : List UInt8) :
    readVec (writeVec (bits.map UInt32.toNat) ++ rest) = .ok (bits.map (fun x => some x.toNat), rest) := by
  have hlen : bits.length = 41 := by rw [← hb.length_eq, List.length_take]; omega
  rw [C31_vector _ ⟨?_, ?_, ?_⟩, List.map_map]
  · rfl
  · intro e
    have := congrArg List.length e
    rw [List.length_map, hlen] at this
    cases this
  · rw [List.length_map]; omega
  · intro x hx
    obtain ⟨y, -, rfl⟩ := List.mem_map.mp hx
    exact y.toNat_lt

theorem numbers_matrix {rows : List (List Txt)} {ns : List Txt} (h : Numbers rows.flatten ns) :
    Numbers ("[".toList :: (rows.flatten ++ ["]".toList])) ns := by
  have := Numbers.append h (.skip (by decide) .nil : Numbers ["]".toList] [])
  rw [List.append_nil] at this
  exact .skip (by decide) this

theorem stats_flatten (sums : List Txt) (count : Txt) (squares : List Txt) (last : Txt) :
    [sums ++ [count], squares ++ [last]].flatten = (sums ++ [count]) ++ (squares ++ [last]) := by
  rw [List.flatten_cons, List.flatten_cons, List.flatten_nil, List.append_nil]

/-- **C80.**  From Kaldi's text of CMVN statistics in finite numbers that a `float` can hold, the converter makes a file
from which the recogniser's vectors are read as the 40 sums and the number of frames, rounded to `float`. -/
theorem C80_stats (num : FNum R) {sums squares lines : List Txt} {count last : Txt}
    (h : IsStats sums count squares last lines) (hs : ∀ t ∈ sums ++ [count], IsNumber t)
    (hq : ∀ t ∈ squares ++ [last], IsNumber t) {bits : List UInt32}
    (hb : List.Forall₂ (fun t y => num.pack (num.val t) = some y) (sums ++ [count]) bits) :
    ∃ bytes, convertStats num lines = .ok bytes ∧
      ∀ rest, readVec (bytes ++ rest) = .ok (bits.map (fun x => some x.toNat), rest) := by
  have h1 := h.sums
  have h2 := h.squares
  have e : ((sums ++ [count]) ++ (squares ++ [last])).take 41 = sums ++ [count] :=
    List.take_left' (by rw [List.length_append, h1]; rfl)
  have hn : Numbers [sums ++ [count], squares ++ [last]].flatten ((sums ++ [count]) ++ (squares ++ [last])) := by
    rw [stats_flatten]
    exact (numbers_all hs).append (numbers_all hq)
  have hl : ((sums ++ [count]) ++ (squares ++ [last])).length = 82 := by
    simp only [List.length_append, List.length_cons, List.length_nil]; omega
  rw [← e] at hb
  exact ⟨_, convert_of num h.text (numbers_matrix hn) hl hb, fun rest => readVec_bits (by omega) hb rest⟩

/-- **C80, only then.**  A file is written only if there are just 82 numbers in the text, and it holds the first 41 of
them. -/
theorem C80_only (num : FNum R) {lines ws ns : List Txt} (h : Words lines ws) (hn : Numbers ws ns) {bytes : List UInt8}
    (hc : convertStats num lines = .ok bytes) :
    ns.length = 82 ∧ ∃ bits, List.Forall₂ (fun t y => num.pack (num.val t) = some y) (ns.take 41) bits ∧
      readVec bytes = .ok (bits.map (fun x => some x.toNat), []) := by
  have hl : ns.length = 82 := by
    unfold convertStats at hc
    rw [matrixData_of num h hn, List.length_map] at hc
    by_cases hl : ns.length = 82
    · exact hl
    · rw [if_pos hl] at hc; cases hc
  have hbits : ∃ bits, List.Forall₂ (fun t y => num.pack (num.val t) = some y) (ns.take 41) bits := by
    have all : ∀ t ∈ ns.take 41, ∃ y, num.pack (num.val t) = some y := by
      intro t ht
      cases hp : num.pack (num.val t) with
      | some y => exact ⟨y, rfl⟩
      | none =>
        unfold convertStats at hc
        rw [matrixData_of num h hn, if_neg (by rw [List.length_map]; omega), ← List.map_take,
          packAll_throws (List.mem_map_of_mem ht) hp] at hc
        cases hc
    generalize ns.take 41 = l at all
    induction l with
    | nil => exact ⟨[], .nil⟩
    | cons t l ih =>
      obtain ⟨y, hy⟩ := all t (.head _)
      obtain ⟨b, hb⟩ := ih fun x hx => all x (.tail _ hx)
      exact ⟨y :: b, .cons hy hb⟩
  obtain ⟨bits, hb⟩ := hbits
  refine ⟨hl, bits, hb, ?_⟩
  rw [convert_of num h hn hl hb] at hc
  cases hc
  have := readVec_bits (by omega) hb []
  rwa [List.append_nil] at this

/-- **C80, what is not a number.**  Statistics with `nan`, `inf` or anything else in place of a number are refused. -/
theorem C80_not_a_number (num : FNum R) {sums squares lines : List Txt} {count last : Txt}
    (h : IsStats sums count squares last lines) {t : Txt} (ht : t ∈ sums ++ [count] ++ (squares ++ [last]))
    (hn : ¬ IsNumber t) : convertStats num lines = .error .throw := by
  have h1 := h.sums
  have h2 := h.squares
  have hm : Words lines _ := h.text
  have hns := numbers_matrix (numbers_filter [sums ++ [count], squares ++ [last]].flatten)
  have hlt := (numbers_filter [sums ++ [count], squares ++ [last]].flatten).length_lt
    (by rw [stats_flatten]; exact ht) hn
  rw [stats_flatten] at hlt
  unfold convertStats
  rw [matrixData_of num hm hns, if_pos]
  rw [List.length_map, stats_flatten]
  simp only [List.length_append, List.length_cons, List.length_nil] at hlt
  omega

/-- The shape of the matrix is not looked at: 82 numbers in rows of any lengths are taken. -/
theorem C80_shape_unchecked (num : FNum R) {rows : List (List Txt)} {lines : List Txt} (h : IsMatrixText rows lines)
    (hs : ∀ t ∈ rows.flatten, IsNumber t) (hl : rows.flatten.length = 82) {bits : List UInt32}
    (hb : List.Forall₂ (fun t y => num.pack (num.val t) = some y) (rows.flatten.take 41) bits) :
    ∃ bytes, convertStats num lines = .ok bytes ∧
      ∀ rest, readVec (bytes ++ rest) = .ok (bits.map (fun x => some x.toNat), rest) :=
  ⟨_, convert_of num h (numbers_matrix (numbers_all hs)) hl hb, fun rest => readVec_bits (by omega) hb rest⟩

/-! ## What the statistics are for -/

section mean
variable {K : Type} [Field K] [LinearOrder K] [IsStrictOrderedRing K]

/-- Coefficient `i` summed over frames. -/
def Spec.total (train : List (List K)) (i : Nat) : K := (train.map fun x => x.getD i 0).sum

/-- The mean for frame `t`: the window of the last at most 600 frames, with at most 200 frames of the mean of the
training frames as long as the window has fewer than 600. -/
def Spec.trainedMean (train raw : List (List K)) (t i : Nat) : K :=
  (Cmvn.Spec.windowSum raw t i + (min (600 - min (t + 1) 600) 200 : Nat) * (Spec.total train i / train.length)) /
    (min (t + 1) 600 + min (600 - min (t + 1) 600) 200 : Nat)

/-- **C80, the mean of the training data.**  If the sums and the count in Kaldi's text are those of some training
frames and fit `float`s, the frames normalised with the vector in the converted file have the mean of the window and of
the training frames taken off. -/
theorem C80_trained_mean (num : FNum R) (dec : UInt32 → K) {sums squares lines : List Txt} {count last : Txt}
    (h : IsStats sums count squares last lines) (hs : ∀ t ∈ sums ++ [count], IsNumber t)
    (hq : ∀ t ∈ squares ++ [last], IsNumber t) {train : List (List K)} (h0 : train ≠ [])
    (hv : List.Forall₂ (fun t x => ∃ y, num.pack (num.val t) = some y ∧ dec y = x) (sums ++ [count])
      ((List.range 40).map (Spec.total train) ++ [(train.length : K)]))
    {raw : List (List K)} (hr : ∀ x ∈ raw, x.length = 40) (hl : raw.length ≤ 2147483647) :
    ∃ bytes, ∃ words : List UInt32, convertStats num lines = .ok bytes ∧ readVec bytes = .ok (words.map (fun x => some x.toNat), []) ∧
      (∀ s, Cmvn.new (words.map dec) raw = .ok s →
        ∃ ys s', Cmvn.getFrames (Cmvn.exact K) raw.length 0 s = .ok (ys, s') ∧ ys.length = raw.length ∧
          ∀ t i : Nat, t < raw.length → i < 40 →
            (ys[t]?).bind (fun y => y[i]?) = some (Cmvn.Spec.feat raw t i - Spec.trainedMean train raw t i)) := by
  obtain ⟨bits, hb, hd⟩ : ∃ bits, List.Forall₂ (fun t y => num.pack (num.val t) = some y) (sums ++ [count]) bits ∧
      bits.map dec = (List.range 40).map (Spec.total train) ++ [(train.length : K)] := by
    generalize sums ++ [count] = a at hv
    generalize (List.range 40).map (Spec.total train) ++ [(train.length : K)] = b at hv
    induction hv with
    | nil => exact ⟨[], .nil, rfl⟩
    | cons h _ ih =>
      obtain ⟨y, h1, h2⟩ := h
      obtain ⟨b, h3, h4⟩ := ih
      exact ⟨y :: b, .cons h1 h3, by rw [List.map_cons, h2, h4]⟩
  obtain ⟨bytes, h1, h2⟩ := C80_stats num h hs hq hb
  refine ⟨bytes, bits, h1, (by have := h2 []; rwa [List.append_nil] at this), ?_⟩
  rw [hd]
  intro s hnew
  have hlen : ((List.range 40).map (Spec.total train)).length = 40 := by simp
  have at40 : ((List.range 40).map (Spec.total train) ++ [(train.length : K)]).getD 40 0 = train.length := by
    rw [List.getD_eq_getElem?_getD, List.getElem?_append_right (by omega), hlen]
    rfl
  have pos : (0 : K) < train.length := by
    have := List.length_pos_iff.mpr h0
    exact_mod_cast this
  obtain ⟨ys, s', h3, h4, h5⟩ := Cmvn.C46_normalised (raw := raw)
    ⟨hr, hl, by rw [List.length_append, hlen]; rfl, by rw [at40]; exact pos⟩ s hnew raw.length (Nat.le_refl _)
  refine ⟨ys, s', h3, h4, fun t i ht hi => ?_⟩
  rw [h5 t i ht hi]
  unfold Cmvn.Spec.mean Spec.trainedMean
  rw [at40, show ((List.range 40).map (Spec.total train) ++ [(train.length : K)]).getD i 0 = Spec.total train i by
    rw [List.getD_eq_getElem?_getD, List.getElem?_append_left (by omega), List.getElem?_map,
      List.getElem?_range hi]; rfl]
  rfl

end mean

/-! ## Examples -/

/-- Kaldi's text of statistics: forty sums `1e+02`, 50 frames, forty squares `-0.25`. -/
def toyLines : List Txt :=
  [" [\n".toList, "  ".toList ++ (List.replicate 40 "1e+02 ".toList).flatten ++ "50 \n".toList,
    "  ".toList ++ (List.replicate 40 "-0.25 ".toList).flatten ++ "0 ]\n".toList]

/-- Texts of the example as numbers; bits of 100 and of 50. -/
def toyNum : FNum Nat where
  val t := if t = "1e+02".toList then 1120403456 else 1112014848
  pack n := some (UInt32.ofNat n)

theorem toy_words : Words toyLines ("[".toList :: ([List.replicate 40 "1e+02".toList ++ ["50".toList],
    List.replicate 40 "-0.25".toList ++ ["0".toList]].flatten ++ ["]".toList])) := by
  have h : ∀ ls : List Txt, Words ls (ls.map fields).flatten := by
    intro ls
    induction ls with
    | nil => exact .nil
    | cons l ls ih => exact .cons (reads_fields l) ih
  have e : (toyLines.map fields).flatten = "[".toList :: ([List.replicate 40 "1e+02".toList ++ ["50".toList],
    List.replicate 40 "-0.25".toList ++ ["0".toList]].flatten ++ ["]".toList]) := by decide +kernel
  rw [← e]
  exact h toyLines

theorem toy_stats : IsStats (List.replicate 40 "1e+02".toList) "50".toList (List.replicate 40 "-0.25".toList) "0".toList
    toyLines := ⟨toy_words, by decide, by decide⟩

theorem toy_sums : ∀ t ∈ List.replicate 40 "1e+02".toList ++ ["50".toList], IsNumber t := by decide +kernel
theorem toy_squares : ∀ t ∈ List.replicate 40 "-0.25".toList ++ ["0".toList], IsNumber t := by decide +kernel

theorem toy_bits : List.Forall₂ (fun t y => toyNum.pack (toyNum.val t) = some y)
    (List.replicate 40 "1e+02".toList ++ ["50".toList]) (List.replicate 40 1120403456 ++ [1112014848]) := by
  have h : ∀ n : Nat, List.Forall₂ (fun t y => toyNum.pack (toyNum.val t) = some y)
      (List.replicate n "1e+02".toList ++ ["50".toList]) (List.replicate n 1120403456 ++ [1112014848]) := by
    intro n
    induction n with
    | zero => exact .cons (by decide) .nil
    | succ n ih => exact .cons (by decide) ih
  exact h 40

/-- The hypotheses of `C80_stats` and `C80_only` can be met. -/
example : ∃ bytes, convertStats toyNum toyLines = .ok bytes ∧
    ∀ rest, readVec (bytes ++ rest) = .ok (List.map (fun x : UInt32 => some x.toNat) (List.replicate 40 (1120403456 : UInt32) ++ [1112014848]), rest) :=
  C80_stats toyNum toy_stats toy_sums toy_squares toy_bits

/-- `C80_not_a_number`: the count is `nan`. -/
example : ∃ lines sums squares, IsStats sums "nan".toList squares "0".toList lines ∧ ¬ IsNumber "nan".toList := by
  refine ⟨[("[ ".toList ++ (List.replicate 40 "1 ".toList).flatten ++ "nan ".toList ++
    (List.replicate 40 "1 ".toList).flatten ++ "0 ]".toList)], List.replicate 40 "1".toList,
    List.replicate 40 "1".toList, ⟨?_, by decide, by decide⟩, by decide⟩
  have := Words.cons (reads_fields ("[ ".toList ++ (List.replicate 40 "1 ".toList).flatten ++ "nan ".toList ++
    (List.replicate 40 "1 ".toList).flatten ++ "0 ]".toList)) .nil
  rw [List.append_nil] at this
  unfold IsMatrixText
  convert this using 1
  decide +kernel

/-- `C80_shape_unchecked`: a matrix of 82 rows. -/
example : ∃ lines, IsMatrixText (List.replicate 82 ["1".toList]) lines ∧
    (∀ t ∈ (List.replicate 82 ["1".toList]).flatten, IsNumber t) ∧ (List.replicate 82 ["1".toList]).flatten.length = 82 := by
  refine ⟨"[".toList :: (List.replicate 82 "1".toList ++ ["]".toList]), ?_, by decide +kernel, by decide +kernel⟩
  have h : ∀ ls : List Txt, Words ls (ls.map fields).flatten := by
    intro ls
    induction ls with
    | nil => exact .nil
    | cons l ls ih => exact .cons (reads_fields l) ih
  have := h ("[".toList :: (List.replicate 82 "1".toList ++ ["]".toList]))
  unfold IsMatrixText
  convert this using 1
  decide +kernel

/-- `C80_trained_mean`: fifty training frames of forty twos. -/
example : List.Forall₂ (fun t (x : ℚ) => ∃ y, toyNum.pack (toyNum.val t) = some y ∧
      (if y = 1120403456 then 100 else if y = 1112014848 then 50 else 0 : ℚ) = x)
    (List.replicate 40 "1e+02".toList ++ ["50".toList])
    ((List.range 40).map (Spec.total (List.replicate 50 (List.replicate 40 (2 : ℚ)))) ++
      [((List.replicate 50 (List.replicate 40 (2 : ℚ))).length : ℚ)]) := by
  have e : (List.range 40).map (Spec.total (List.replicate 50 (List.replicate 40 (2 : ℚ)))) =
      List.replicate 40 100 := by decide +kernel
  rw [e]
  have h : ∀ n : Nat, List.Forall₂ (fun t (x : ℚ) => ∃ y, toyNum.pack (toyNum.val t) = some y ∧
      (if y = 1120403456 then 100 else if y = 1112014848 then 50 else 0 : ℚ) = x)
      (List.replicate n "1e+02".toList ++ ["50".toList]) (List.replicate n 100 ++ [50]) := by
    intro n
    induction n with
    | zero => exact .cons ⟨1112014848, by decide, by decide +kernel⟩ .nil
    | succ n ih => exact .cons ⟨1120403456, by decide, by decide +kernel⟩ ih
  have := h 40
  rw [show ((List.replicate 50 (List.replicate 40 (2 : ℚ))).length : ℚ) = 50 by rw [List.length_replicate]; rfl]
  exact this

end Verif.CmvnConv
