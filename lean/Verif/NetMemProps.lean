import Verif.NetMemNet
import Verif.NnetProps

/-!
# Property C108: the network in memory
-/

namespace Verif.NetMem

open Mat (Heap Addr View peek)
open VecMem (Vec)
open Nnet (Ops Layer toyOps toyVecMat toyOps_rowWise toyNet toyNet_built)
open Nnet.Spec (RowWise Built series)
open Spec

variable {F : Type}

/-- **C108**, the product.  Three matrices in memory, of whatever strides, the result in a block of its own: `MatMat`
leaves the product in `C`, with `A`, `B` and every other block as they were; nothing is allocated or freed. -/
theorem C108_product {o : Ops F} {vm : List F → List (List F) → List F} (hvm : RowWise o vm) {h : Heap F} {A B C : View}
    {a b c : Addr} {x y z : List (List F)} (hA : Shows h A a x) (hB : Shows h B b y) (hC : Shows h C c z)
    (h1 : A.cols = B.rows) (h2 : A.rows = C.rows) (h3 : B.cols = C.cols) (ha : a.block ≠ c.block)
    (hb : b.block ≠ c.block) :
    ∃ h', matMat o A B C h = .ok h' ∧ Shows h' C c (x.map fun r => vm r y) ∧
      (∀ k : Addr, k.block ≠ c.block → peek h' k = peek h k) ∧ ∀ k, Live h' k ↔ Live h k := by
  obtain ⟨h', e, s, p⟩ := matMat_ok hvm hA hB hC h1 h2 h3 ha hb
  exact ⟨h', e, s, p.other, fun k => p.shape.live k⟩

/-- **C108.**  A network as the converter builds them, with its parameters somewhere in memory; an input matrix of any
stride, perhaps a part of another one; a `Matrix` object for the result, empty or with a block of its own, which may be
the one the input lies in.  Then `Nnet::Propagate` meets no undefined behaviour and

* the result has the rows that `Nnet::Propagate` gives on lists of rows (C30), in row `t` the value of the network at
  the time of input row `t + L`;
* no block that was there before, except the one of the result, has changed: the input and the parameters are as before;
* the blocks in use are those from before, without the one the result had, and the one it has now.  So every matrix that
  was made on the way has been freed, and nothing else. -/
theorem C108_network {o : Ops F} {vm : List F → List (List F) → List F} (hvm : RowWise o vm) {h : Heap F}
    {ls : List (Layer F)} {d e L R w : Nat} (hb : Built ls d e L R w) {layers : List LayerM}
    (hl : List.Forall₂ (Stored h) layers ls) {inp out : View} {a : Addr} {m : List (List F)} (hin : Shows h inp a m)
    (hd : inp.cols = d) (hout : InOrder h out) (x : Int → List F)
    (hx : ∀ i : Nat, i < m.length → m[i]? = some (x i))
    (hsize : m.length * w ≤ 2147483647) (hw : w ≤ 2147483632) (hbig : m.length ≤ 1073741823) (hlr : L + R < m.length) :
    ∃ v b h' y, propagate o layers inp out h = .ok (v, h') ∧ Shows h' v ⟨b, 0⟩ y ∧ v.cols = e ∧
      Nnet.propagate o ls m [] = .ok y ∧ y.length = m.length - (L + R) ∧
      (∀ t : Nat, t < y.length → y[t]? = some (series o vm ls x ((t + L : Nat) : Int))) ∧
      (∀ k : Addr, k.block < h.length → some k.block ≠ block out → peek h' k = peek h k) ∧
      (∀ k, Live h' k ↔ (Live h k ∧ some k ≠ block out) ∨ k = b) ∧ (block out = some b ∨ h.length ≤ b) := by
  have hm : ∀ r ∈ m, r.length = d := fun r hr => by have := hin.cols r hr; omega
  have hs : Nnet.Shows m x 0 d := ⟨hin.nonempty, hm, fun i hi => by rw [hx i hi, Int.zero_add]⟩
  obtain ⟨v, b, h', y, e1, s, c, ly, sy, hf, hk, hv, _⟩ := propagate_ok hvm hb hl hin hd hout hsize hw hbig hs hlr
  obtain ⟨y', e2, l2, s2⟩ := Nnet.C30_rows hvm hb m [] x hm hx hsize hbig hlr
  have hyy : y' = y := by
    apply List.ext_getElem?
    intro t
    by_cases ht : t < y'.length
    · rw [s2 t ht, sy.2.2 t (by omega)]
      congr 2
      omega
    · rw [List.getElem?_eq_none (by omega), List.getElem?_eq_none (by omega)]
  subst hyy
  exact ⟨v, b, h', y', e1, s, c, e2, l2, s2, fun k q1 q2 => hk k q2 q1, hv, hf⟩

/-- **C108, the narrow layer.**  A narrow layer by itself, the result beside the input: with more than `l + r` rows the
result has the rows from `l` on without the last `r`; with `l + r` rows or fewer it has all the rows, and the caller gets
more rows than the layer promises. -/
theorem C108_narrow (o : Ops F) {h : Heap F} {inp out : View} {a : Addr} {m : List (List F)} (hin : Shows h inp a m)
    (hout : InOrder h out) (hne : some a.block ≠ block out) (l r : Nat) (hlr : l + r ≤ 2147483647)
    (hsize : (m.length : Int) * inp.cols ≤ 2147483647) (hc : inp.cols ≤ 2147483632) :
    ∃ v b h', (LayerM.narrow l r).propagate o inp out h = .ok (v, h') ∧
      Shows h' v ⟨b, 0⟩ (if l + r < m.length then (m.drop l).take (m.length - l - r) else m) ∧
      (∀ k : Addr, some k.block ≠ block out → k.block < h.length → peek h' k = peek h k) ∧
      ∀ k, Live h' k ↔ (Live h k ∧ some k ≠ block out) ∨ k = b := by
  have hw := hin.wide
  obtain ⟨d, hd⟩ : ∃ d : Nat, inp.cols = d := ⟨inp.cols.toNat, by omega⟩
  have hs : m.length * d ≤ 2147483647 := by
    rw [hd, ← Int.natCast_mul] at hsize
    omega
  by_cases hm : l + r < m.length
  · obtain ⟨v, b, h', e, s, _, mv⟩ := narrow_done o hin hout hne hd hs (by omega) hm
    refine ⟨v, b, h', e, ?_, mv.kept, mv.live⟩
    rw [if_pos hm]
    exact s
  · have hpos := List.length_pos_iff.mpr hin.nonempty
    obtain ⟨v, b, h1, e1, s1, c1, m1⟩ := resize_ok o hout hpos (by omega : 0 < d) hs (by omega)
    obtain ⟨h2, e2, s2, a2⟩ := copy_ok s1 (m1.shows hin hne) (by unfold zeros; rw [List.length_replicate])
      (by rw [c1, hd]) (m1.ne (live_lt hin.live) hne)
    have mv := m1.then a2
    refine ⟨v, b, h2, ?_, ?_, mv.kept, mv.live⟩
    · show narrowM o l r inp out h = _
      unfold narrowM
      rw [decide_eq_true (by omega), cassert_true, ok_bind, i32_of (by unfold InI32; omega), ok_bind, hin.rows,
        if_pos (by omega), hd, e1]
      simp only [ok_bind]
      rw [e2, ok_bind]
    · rw [if_neg hm]
      exact s2

/-! ## A case -/

/-- A memory with the parameters of `toyNet` and an input of seven rows of stride three, in the middle column of a bigger
matrix. -/
def toyHeap : Heap Int :=
  [some ([1, 0, 77, 0, 1, 77, 2, -1].map some), some ([5, 7].map some), some ([1, 2, 3, 4].map some),
   some ([1, 1, 1, 1].map some),
   some ([0, 1, 0, 0, 2, 0, 0, 3, 0, 0, 4, 0, 0, 5, 0, 0, 6, 0, 0, 7, 0].map some),
   some [none, none]]

/-- `toyNet` in `toyHeap`; the matrix of the linear layer has stride three. -/
def toyLayers : List LayerM :=
  [.splice [-1, 0, 2], .narrow 1 2, .linear ⟨some ⟨0, 0⟩, 3, 2, 3⟩ ⟨some ⟨1, 0⟩, 2⟩, .relu, .splice [0, 1], .narrow 0 1,
   .batchNorm ⟨some ⟨2, 0⟩, 4⟩ ⟨some ⟨3, 0⟩, 4⟩]

/-- The input in `toyHeap`. -/
def toyIn : View := ⟨some ⟨4, 1⟩, 7, 1, 3⟩

/-- The object for the result, which has a block that has not been written. -/
def toyOut : View := ⟨some ⟨5, 0⟩, 1, 2, 2⟩

theorem line_of {h : Heap Int} {a : Addr} {x : List Int}
    (hd : ∀ i : Fin x.length, peek h ⟨a.block, a.off + (i.val : Int)⟩ = some (some x[i])) : Line h a x := by
  intro i y hy
  obtain ⟨hi, rfl⟩ := List.getElem?_eq_some_iff.mp hy
  exact hd ⟨i, hi⟩

theorem lines_of {h : Heap Int} {a : Addr} {s : Int} {m : List (List Int)}
    (hd : ∀ i : Fin m.length, ∀ j : Fin m[i].length,
      peek h ⟨a.block, a.off + (i.val : Int) * s + (j.val : Int)⟩ = some (some m[i][j])) :
    ∀ (i : Nat) (x : List Int), m[i]? = some x → Line h ⟨a.block, a.off + i * s⟩ x := by
  intro i x hx
  obtain ⟨hi, rfl⟩ := List.getElem?_eq_some_iff.mp hx
  exact line_of (hd ⟨i, hi⟩)

theorem toyIn_shows : Shows toyHeap toyIn ⟨4, 1⟩ [[1], [2], [3], [4], [5], [6], [7]] :=
  ⟨rfl, by decide, by decide, by decide, by decide, by decide, by decide, lines_of (by decide +kernel)⟩

theorem toyLayers_stored : List.Forall₂ (Stored toyHeap) toyLayers toyNet := by
  refine .cons (.splice _) (.cons (.narrow _ _) (.cons (.linear (a := ⟨0, 0⟩) ?_ ?_) (.cons .relu (.cons (.splice _)
    (.cons (.narrow _ _) (.cons (.batchNorm ?_ ?_) .nil))))))
  · exact ⟨rfl, by decide, by decide, by decide, by decide, by decide, by decide, lines_of (by decide +kernel)⟩
  · exact ⟨by decide, ⟨1, 0⟩, rfl, line_of (by decide +kernel)⟩
  · exact ⟨by decide, ⟨2, 0⟩, rfl, line_of (by decide +kernel)⟩
  · exact ⟨by decide, ⟨3, 0⟩, rfl, line_of (by decide +kernel)⟩

theorem toyOut_inOrder : InOrder toyHeap toyOut := by
  refine .inr ⟨5, rfl, ⟨rfl, by decide, by decide, by decide, by decide⟩, ?_⟩
  rintro i j ⟨h1, h2, h3, h4⟩
  have hi : i = 0 := by unfold toyOut at h2; simp only at h2; omega
  have hj : j = 0 ∨ j = 1 := by unfold toyOut at h4; simp only at h4; omega
  subst hi
  rcases hj with rfl | rfl <;> decide

/-- The hypotheses of `C108_network` are met: the result is the one of the example of C30, in a new block; the block
`*out` had is gone, the others are as before, and no other block that was made on the way is left. -/
example : ∃ v b h', propagate toyOps toyLayers toyIn toyOut toyHeap = .ok (v, h') ∧
    Shows h' v ⟨b, 0⟩ [[15, 11, 52, 21], [18, 11, 61, 21], [21, 11, 70, 21]] ∧ ∀ k, Live h' k ↔ k < 5 ∨ k = b := by
  obtain ⟨v, b, h', y, e1, s, _, e2, _, _, _, hv, _⟩ := C108_network toyOps_rowWise toyNet_built toyLayers_stored
    toyIn_shows (by decide) toyOut_inOrder (fun t => [t + 1])
    (by
      intro i hi
      have : ∀ i : Fin 7, ([[1], [2], [3], [4], [5], [6], [7]] : List (List Int))[i.val]? = some [(i.val : Int) + 1] := by
        decide
      exact this ⟨i, hi⟩)
    (by decide) (by decide) (by decide) (by decide)
  have hy : y = [[15, 11, 52, 21], [18, 11, 61, 21], [21, 11, 70, 21]] := by
    have : Nnet.propagate toyOps toyNet [[1], [2], [3], [4], [5], [6], [7]] [] =
        .ok [[15, 11, 52, 21], [18, 11, 61, 21], [21, 11, 70, 21]] := by decide +kernel
    rw [this] at e2
    cases e2
    rfl
  subst hy
  refine ⟨v, b, h', e1, s, fun k => ?_⟩
  rw [hv k]
  have hb : block toyOut = some 5 := rfl
  have hl : Live toyHeap k ↔ k < 6 := by
    rw [live_iff]
    constructor
    · intro q
      have := (List.getElem?_eq_some_iff.mp q).1
      exact this
    · intro q
      have : ∀ k : Fin 6, (toyHeap.map Option.isSome)[k.val]? = some true := by decide
      exact this ⟨k, q⟩
  rw [hl, hb]
  constructor
  · rintro (⟨q, g⟩ | q)
    · exact .inl (by have : k ≠ 5 := fun h => g (by rw [h]); omega)
    · exact .inr q
  · rintro (q | q)
    · exact .inl ⟨by omega, fun h => by have := Option.some.inj h; omega⟩
    · exact .inr q

/-- The hypotheses of `C108_narrow` are met, with as many rows as the layer takes away. -/
example : ∃ v b h', (LayerM.narrow (4 : Nat) (3 : Nat)).propagate toyOps toyIn toyOut toyHeap = .ok (v, h') ∧
    Shows h' v ⟨b, 0⟩ [[1], [2], [3], [4], [5], [6], [7]] := by
  obtain ⟨v, b, h', e, s, _⟩ := C108_narrow toyOps toyIn_shows toyOut_inOrder (by decide) 4 3 (by decide) (by decide)
    (by decide)
  exact ⟨v, b, h', e, s⟩

/-- The whole run in numbers: the first part of the memory afterwards, and the sizes of `*out`. -/
example : (propagate toyOps toyLayers toyIn toyOut toyHeap).map (fun r => (r.1.rows, r.1.cols, r.2.take 6)) =
    .ok (3, 4, toyHeap.take 5 ++ [none]) := by decide +kernel

/-- The result may go where the input was: a matrix with a block of its own, given as input and as `out`. -/
example : (propagate toyOps [.relu] ⟨some ⟨0, 0⟩, 2, 2, 2⟩ ⟨some ⟨0, 0⟩, 2, 2, 2⟩ [some ([1, -2, -3, 4].map some)]).map
    (fun r => (r.1, r.2.take 1)) = .ok (⟨some ⟨0, 0⟩, 2, 2, 2⟩, [some ([1, 0, 0, 4].map some)]) := by decide +kernel

/-- A single layer does not work in place, which is why `Nnet::Propagate` has two matrices: `Resize` sets the elements to
zero before they are copied. -/
theorem C108_layer_in_place : ∃ (v : View) (h : Heap Int), Shows h v ⟨0, 0⟩ [[1, -2], [-3, 4]] ∧
    LayerM.relu.propagate toyOps v v h = .ok (v, [some ([0, 0, 0, 0].map some)]) :=
  ⟨⟨some ⟨0, 0⟩, 2, 2, 2⟩, [some ([1, -2, -3, 4].map some)],
    ⟨rfl, by decide, by decide, by decide, by decide, by decide, by decide, lines_of (by decide +kernel)⟩,
    by decide +kernel⟩

/-- `MatMat` with the result in one of the factors has no meaning. -/
theorem C108_product_in_place : ∃ (v : View) (h : Heap Int), Shows h v ⟨0, 0⟩ [[1, -2], [-3, 4]] ∧
    matMat toyOps v v v h = .error .ub :=
  ⟨⟨some ⟨0, 0⟩, 2, 2, 2⟩, [some ([1, -2, -3, 4].map some)],
    ⟨rfl, by decide, by decide, by decide, by decide, by decide, by decide, lines_of (by decide +kernel)⟩,
    by decide +kernel⟩

/-- The hypotheses of `C108_product` are met, with strides three, two and four. -/
example : ∃ h', matMat toyOps ⟨some ⟨0, 0⟩, 2, 2, 3⟩ ⟨some ⟨1, 0⟩, 2, 1, 2⟩ ⟨some ⟨2, 0⟩, 2, 1, 4⟩
      [some ([1, 2, 77, 3, 4].map some), some ([5, 77, 6].map some), some ([0, 9, 9, 9, 0].map some)] = .ok h' ∧
    Shows h' ⟨some ⟨2, 0⟩, 2, 1, 4⟩ ⟨2, 0⟩ [[17], [39]] := by
  obtain ⟨h', e, s, _, _⟩ := C108_product toyOps_rowWise
    (h := [some ([1, 2, 77, 3, 4].map some), some ([5, 77, 6].map some), some ([0, 9, 9, 9, 0].map some)])
    (A := ⟨some ⟨0, 0⟩, 2, 2, 3⟩) (B := ⟨some ⟨1, 0⟩, 2, 1, 2⟩) (C := ⟨some ⟨2, 0⟩, 2, 1, 4⟩) (a := ⟨0, 0⟩) (b := ⟨1, 0⟩)
    (c := ⟨2, 0⟩) (x := [[1, 2], [3, 4]]) (y := [[5], [6]]) (z := [[0], [0]])
    ⟨rfl, by decide, by decide, by decide, by decide, by decide, by decide, lines_of (by decide +kernel)⟩
    ⟨rfl, by decide, by decide, by decide, by decide, by decide, by decide, lines_of (by decide +kernel)⟩
    ⟨rfl, by decide, by decide, by decide, by decide, by decide, by decide, lines_of (by decide +kernel)⟩
    (by decide) (by decide) (by decide) (by decide) (by decide)
  exact ⟨h', e, s⟩

end Verif.NetMem
