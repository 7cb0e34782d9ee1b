import Verif.NnetLemmas

/-!
# Property C30: context arithmetic of the network
-/

namespace Verif.Nnet

open Spec

/-! ## A concrete network for the examples -/

/-- The product of a row of integers with a matrix of integers of `n` columns. -/
def toyVecMat (x : List Int) (B : List (List Int)) : List Int :=
  (List.range (numCols B)).map fun j => (List.zipWith (fun a r => a * r.getD j 0) x B).foldl (· + ·) 0

/-- Exact integer arithmetic. -/
def toyOps : Ops Int where
  zero := 0
  negOne := -1
  add := (· + ·)
  sub := (· - ·)
  mul := (· * ·)
  div := fun x y => x.tdiv y
  lt := fun x y => decide (x < y)
  ofInt := id
  expf := fun x => x * x + 1
  exp := fun x => x * x + 1
  log := id
  rootOf := fun x y => x.tdiv y
  gemm := fun A B => A.map fun x => toyVecMat x B

theorem toyOps_rowWise : RowWise toyOps toyVecMat where
  gemm := fun _ _ _ => rfl
  size := fun x B n _ h0 hB => by
    unfold toyVecMat
    rw [List.length_map, List.length_range, numCols_of h0 hB]

/-- A network with two spliced layers: one frame of left context and three of right context. -/
def toyNet : List (Layer Int) :=
  [.splice [-1, 0, 2], .narrow 1 2, .linear [[1, 0], [0, 1], [2, -1]] [5, 7], .relu, .splice [0, 1], .narrow 0 1,
   .batchNorm [1, 2, 3, 4] [1, 1, 1, 1]]

theorem toyNet_built : Built toyNet 1 4 1 3 4 := by
  refine Built.context (l := 1) (r := 2) (L := 0) (R := 1) (by decide) (by decide) (by decide) (by decide)
    (by decide) (.inr (by decide)) (.inr (by decide)) ?_
  refine Built.row (e := 2) (by decide) (by decide) (.linear (by decide) (by decide) (by decide) (by decide)) ?_
  refine Built.row (e := 2) (by decide) (by decide) .relu ?_
  refine Built.context (l := 0) (r := 1) (L := 0) (R := 0) (by decide) (by decide) (by decide) (by decide)
    (by decide) (.inl rfl) (.inr (by decide)) ?_
  refine Built.row (e := 4) (by decide) (by decide) (.batchNorm (by decide) (by decide)) ?_
  exact Built.nil (by decide) (by decide)

/-! ## C30 -/

/-- **C30.** For a network as the converter builds them, and an input matrix with more than `L + R` rows that is
part of any sequence `x` of vectors: `Propagate` returns exactly `rows - L - R` rows, and row `t` is the value of the
network on the *unclamped* sequence at the time of input row `t + L`.  (Sizes must fit in an `int`.) -/
theorem C30_rows {F : Type} {o : Ops F} {vm : List F → List (List F) → List F} (hvm : RowWise o vm)
    {ls : List (Layer F)} {d e L R w : Nat} (hb : Built ls d e L R w) (m out : List (List F)) (x : Int → List F)
    (hm : ∀ v ∈ m, v.length = d) (hx : ∀ i : Nat, i < m.length → m[i]? = some (x i))
    (hsize : m.length * w ≤ 2147483647) (hbig : m.length ≤ 1073741823) (hlr : L + R < m.length) :
    ∃ y, propagate o ls m out = .ok y ∧ y.length = m.length - (L + R) ∧
      ∀ t : Nat, t < y.length → y[t]? = some (series o vm ls x ((t + L : Nat) : Int)) := by
  have h0 : m ≠ [] := by intro h; subst h; simp at hlr
  obtain ⟨y, h1, h2, h3⟩ := propagate_ok hvm hb (out := out) hsize hbig (x := x) (off := 0)
    ⟨h0, hm, fun i hi => by rw [hx i hi, Int.zero_add]⟩ hlr
  refine ⟨y, h1, by omega, fun t ht => ?_⟩
  rw [h3.2.2 t ht]
  congr 2
  omega

/-- The value at time `t` depends only on the vectors of times `t - L … t + R`. -/
theorem C30_context {F : Type} {o : Ops F} {vm : List F → List (List F) → List F} {ls : List (Layer F)}
    {d e L R w : Nat} (hb : Built ls d e L R w) (x y : Int → List F) (t : Int)
    (h : ∀ s : Int, t - L ≤ s → s ≤ t + R → x s = y s) : series o vm ls x t = series o vm ls y t :=
  series_congr hb h

/-- Hence output row `t` depends only on input rows `t … t + L + R`: two inputs that agree there, of whatever
lengths, give the same row. -/
theorem C30_window {F : Type} {o : Ops F} {vm : List F → List (List F) → List F} (hvm : RowWise o vm)
    {ls : List (Layer F)} {d e L R w : Nat} (hb : Built ls d e L R w) (m m' out out' : List (List F))
    (hm : ∀ v ∈ m, v.length = d) (hm' : ∀ v ∈ m', v.length = d)
    (hsize : m.length * w ≤ 2147483647) (hbig : m.length ≤ 1073741823)
    (hsize' : m'.length * w ≤ 2147483647) (hbig' : m'.length ≤ 1073741823)
    (t t' : Nat) (ht : t + (L + R) < m.length) (ht' : t' + (L + R) < m'.length)
    (h : ∀ i : Nat, i ≤ L + R → m[t + i]? = m'[t' + i]?) :
    ∃ y y' v, propagate o ls m out = .ok y ∧ propagate o ls m' out' = .ok y' ∧ y[t]? = some v ∧ y'[t']? = some v := by
  have hx : ∀ (m : List (List F)) (i : Nat), i < m.length → m[i]? = some ((m[i]?).getD []) := by
    intro m i hi
    rw [List.getElem?_eq_getElem hi]
    rfl
  have h0 : m ≠ [] := by intro h; subst h; simp at ht
  have h0' : m' ≠ [] := by intro h; subst h; simp at ht'
  obtain ⟨y, h1, h2, h3⟩ := propagate_ok hvm hb (out := out) hsize hbig
    (x := fun s : Int => (m[s.toNat]?).getD []) (off := 0)
    ⟨h0, hm, fun i hi => by rw [hx m i hi]; simp⟩ (by omega)
  obtain ⟨y', h1', h2', h3'⟩ := propagate_ok hvm hb (out := out') hsize' hbig'
    (x := fun s : Int => (m'[(s - t + t').toNat]?).getD []) (off := (t : Int) - t')
    ⟨h0', hm', fun i hi => by
      rw [hx m' i hi]
      simp only [show (((t : Int) - t' + i) - t + t').toNat = i by omega]⟩ (by omega)
  refine ⟨y, y', _, h1, h1', h3.2.2 t (by omega), ?_⟩
  rw [h3'.2.2 t' (by omega), show ((t : Int) - t' + L + t') = (0 : Int) + L + t by omega]
  congr 1
  apply series_congr hb
  intro s hs1 hs2
  have := h (s.toNat - t) (by omega)
  rw [show t + (s.toNat - t) = s.toNat by omega, show t' + (s.toNat - t) = (s - t + t').toNat by omega] at this
  simp only [this]

/-- The network and a matrix of seven rows meet the hypotheses. -/
example : propagate toyOps toyNet [[1], [2], [3], [4], [5], [6], [7]] [] =
    .ok [[15, 11, 52, 21], [18, 11, 61, 21], [21, 11, 70, 21]] := by decide +kernel

/-- Without enough rows nothing is narrowed, so that rows touched by clamping do reach the output. -/
theorem C30_short_input :
    propagate toyOps toyNet [[1], [2], [3]] [] = .ok [[13, 11, 37, 25], [13, 13, 40, 29]] := by decide +kernel

end Verif.Nnet
