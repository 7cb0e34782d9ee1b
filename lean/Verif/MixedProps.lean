import Verif.MixedModel
import Verif.MatrixMoreProps
import Verif.IeeeFbankMel

/-!
# Property C119: vectors of `float` and `double` are copied and added element by element
-/

namespace Verif.VecMem

open Mat (Heap Addr Plain peek loop load_ok poke_ok loop_inv)

variable {F G : Type}

/-! ## Spec -/

/-- The `n` places from `a` on can be written. -/
def Room (h : Heap F) (a : Addr) (n : Int) : Prop := ∀ k, 0 ≤ k → k < n → (peek h ⟨a.block, a.off + k⟩).isSome

/-- Nothing has changed outside of the `n` places from `a` on. -/
def Beside (h h' : Heap F) (a : Addr) (n : Int) : Prop :=
  ∀ b : Addr, (∀ k, 0 ≤ k → k < n → b ≠ ⟨a.block, a.off + k⟩) → peek h' b = peek h b

/-! ## The properties -/

/-- C119, `CopyFromVec` between types: each element of the vector becomes the converted element of the other; nothing else
changes.  The vector need not have been written before. -/
theorem C119_copy (c : G → F) {a b : Addr} {n : Int} (g : Heap G) (h : Heap F) (y : Int → G) (hn : 0 ≤ n) (hy : Plain g b n y)
    (hr : Room h a n) : ∃ h', copyConv c ⟨some a, n⟩ ⟨some b, n⟩ g h = .ok h' ∧ Plain h' a n (fun k => c (y k)) ∧
      Beside h h' a n := by
  unfold copyConv
  have e0 : cassert (decide (n = n)) = .ok () := by simp [cassert]
  simp only [e0, ok_bind]
  obtain ⟨h', e, p1, p2⟩ := loop_inv (f := fun i h => do
      let y ← elem ⟨some b, n⟩ i g
      setElem ⟨some a, n⟩ i (c y) h)
    (fun m h' => Plain h' a m (fun k => c (y k)) ∧ Beside h h' a m) n h hn
    ⟨fun k h0 h1 => by omega, fun _ _ => rfl⟩ (by
      intro i h1 i0 i1 s
      have hp : (peek h1 ⟨a.block, a.off + i⟩).isSome := by
        rw [s.2 _ (fun k k0 k1 e => by
          have := congrArg Addr.off e
          simp only at this
          omega)]
        exact hr i i0 i1
      obtain ⟨old, ho⟩ := Option.isSome_iff_exists.mp hp
      obtain ⟨h2, e2, e3, e4, -⟩ := poke_ok ho (some (c (y i)))
      refine ⟨h2, ?_, ?_, ?_⟩
      · unfold elem setElem
        simp only
        rw [load_ok (hy i i0 i1), ok_bind, e2]
      · intro k k0 k1
        by_cases hk : k = i
        · rw [hk, e3]
        · rw [e4 _ (fun e => by
            have := congrArg Addr.off e
            simp only at this
            omega)]
          exact s.1 k k0 (by omega)
      · intro p hp
        rw [e4 p (hp i i0 (by omega))]
        exact s.2 p fun k k0 k1 => hp k k0 (by omega))
  exact ⟨h', e, p1, p2⟩

/-- C119, `AddVec` between types: each element becomes the sum of itself and the other's element; nothing else changes. -/
theorem C119_add (op : F → G → F) {a b : Addr} {n : Int} (g : Heap G) (h : Heap F) (x : Int → F) (y : Int → G) (hn : 0 ≤ n)
    (hy : Plain g b n y) (hx : Plain h a n x) : ∃ h', addConv op ⟨some a, n⟩ ⟨some b, n⟩ g h = .ok h' ∧
      Plain h' a n (fun k => op (x k) (y k)) ∧ Beside h h' a n := by
  unfold addConv
  have e0 : cassert (decide (n = n)) = .ok () := by simp [cassert]
  simp only [e0, ok_bind]
  obtain ⟨h', e, p1, p2⟩ := loop_inv (f := fun i h => do
      let x ← elem ⟨some a, n⟩ i h
      let y ← elem ⟨some b, n⟩ i g
      setElem ⟨some a, n⟩ i (op x y) h)
    (fun m h' => Plain h' a m (fun k => op (x k) (y k)) ∧ Beside h h' a m) n h hn
    ⟨fun k h0 h1 => by omega, fun _ _ => rfl⟩ (by
      intro i h1 i0 i1 s
      have ho : peek h1 ⟨a.block, a.off + i⟩ = some (some (x i)) := by
        rw [s.2 _ (fun k k0 k1 e => by
          have := congrArg Addr.off e
          simp only at this
          omega)]
        exact hx i i0 i1
      obtain ⟨h2, e2, e3, e4, -⟩ := poke_ok ho (some (op (x i) (y i)))
      refine ⟨h2, ?_, ?_, ?_⟩
      · unfold elem setElem
        simp only
        rw [load_ok ho, ok_bind, load_ok (hy i i0 i1), ok_bind, e2]
      · intro k k0 k1
        by_cases hk : k = i
        · rw [hk, e3]
        · rw [e4 _ (fun e => by
            have := congrArg Addr.off e
            simp only at this
            omega)]
          exact s.1 k k0 (by omega)
      · intro p hp
        rw [e4 p (hp i i0 (by omega))]
        exact s.2 p fun k k0 k1 => hp k k0 (by omega))
  exact ⟨h', e, p1, p2⟩

example : ∃ h', addConv (fun (x : Int) (y : Nat) => x - y) ⟨some ⟨0, 1⟩, 1⟩ ⟨some ⟨1, 0⟩, 1⟩ [none, some [some 4, some 6]]
    [some [some 9, some 8, none]] = .ok h' ∧ peek h' ⟨0, 1⟩ = some (some 4) ∧ peek h' ⟨0, 2⟩ = some none := by
  obtain ⟨h', e, h1, h2⟩ := C119_add (fun (x : Int) (y : Nat) => x - y) (a := ⟨0, 1⟩) (b := ⟨1, 0⟩) (n := 1)
    [none, some [some 4, some 6]] [some [some 9, some 8, none]] (fun _ => 8) (fun _ => 4) (by decide) (by
      intro k k0 k1
      obtain rfl : k = 0 := by omega
      rfl) (by
      intro k k0 k1
      obtain rfl : k = 0 := by omega
      rfl)
  refine ⟨h', e, h1 0 (by decide) (by decide), ?_⟩
  rw [h2 ⟨0, 2⟩ (fun k k0 k1 e => by
    have := congrArg Addr.off e
    simp only at this
    omega)]
  rfl

/-- C119: different dimensions are refused, before anything is read or written. -/
theorem C119_dims (c : G → F) (op : F → G → F) {d s : Vec} (g : Heap G) (h : Heap F) (hd : d.dim ≠ s.dim) :
    copyConv c d s g h = .error .assert ∧ addConv op d s g h = .error .assert := by
  unfold copyConv addConv cassert
  rw [decide_eq_false hd]
  exact ⟨rfl, rfl⟩

example : copyConv (F := Int) (G := Int) id ⟨none, 0⟩ ⟨none, 3⟩ [] [] = .error .assert :=
  (C119_dims id (· + ·) [] [] (by decide)).1

/-- Empty vectors, which have no memory, are copied and added. -/
theorem C119_empty (c : G → F) (op : F → G → F) (g : Heap G) (h : Heap F) (p q : Option Addr) :
    copyConv c ⟨p, 0⟩ ⟨q, 0⟩ g h = .ok h ∧ addConv op ⟨p, 0⟩ ⟨q, 0⟩ g h = .ok h := ⟨rfl, rfl⟩

/-- Two elements, of which the second is not written yet, from the second of three on. -/
example : ∃ h', copyConv (fun y : Nat => (y : Int) + 1) ⟨some ⟨0, 1⟩, 2⟩ ⟨some ⟨1, 0⟩, 2⟩ [none, some [some 4, some 6]]
    [some [some 9, some 8, none, some 7]] = .ok h' ∧ peek h' ⟨0, 1⟩ = some (some 5) ∧ peek h' ⟨0, 2⟩ = some (some 7) ∧
      peek h' ⟨0, 3⟩ = some (some 7) := by
  obtain ⟨h', e, h1, h2⟩ := C119_copy (fun y : Nat => (y : Int) + 1) (a := ⟨0, 1⟩) (b := ⟨1, 0⟩) (n := 2)
    [none, some [some 4, some 6]] [some [some 9, some 8, none, some 7]] (fun k => if k = 0 then 4 else 6) (by decide) (by
      intro k k0 k1
      obtain rfl | rfl : k = 0 ∨ k = 1 := by omega
      · rfl
      · rfl) (by
      intro k k0 k1
      obtain rfl | rfl : k = 0 ∨ k = 1 := by omega
      · rfl
      · rfl)
  refine ⟨h', e, h1 0 (by decide) (by decide), h1 1 (by decide) (by decide), ?_⟩
  rw [h2 ⟨0, 3⟩ (fun k k0 k1 e => by
    have := congrArg Addr.off e
    simp only at this
    omega)]
  rfl

end Verif.VecMem

namespace Verif.Ieee

open Verif Verif.VecMem Verif.Ieee.Spec
open _root_.Verif.Mat (Heap Addr Plain)

/-- A number that is not too large for `double` becomes its rounding. -/
theorem fit64_is {q : ℚ} (h : |q| ≤ 2 ^ 250) : Is (fit binary64 q) (round binary64 q) := by
  obtain ⟨v, hv, -⟩ := fit_le (f := binary64) (B := 2 ^ 250) (rep_pow (by decide)) h
  obtain ⟨h1, e1⟩ := hv
  unfold fit at e1 ⊢
  split
  · exact ⟨_, rfl⟩
  · rename_i hn
    rw [dif_neg hn] at e1
    cases e1

theorem one_is64 : Is (fit binary64 1) 1 := fit_is (by
  have := rep_pow (f := binary64) (a := 0) (by decide)
  simpa using this)

theorem one_is32 : Is (fit binary32 1) 1 := fit_is (by
  have := rep_pow (f := binary32) (a := 0) (by decide)
  simpa using this)

theorem is_eq_iff {f : Format} {x y : Fl f} {p q : ℚ} (hx : Is x p) (hy : Is y q) : x = y ↔ p = q := by
  obtain ⟨h, rfl⟩ := hx
  obtain ⟨h', rfl⟩ := hy
  constructor
  · intro e
    injection e
  · intro e
    subst e
    rfl

theorem widen_is {y : Fl binary32} {r : ℚ} (hy : Is y r) : Is (conv y : Fl binary64) r := by
  obtain ⟨h, rfl⟩ := hy
  exact fit_is (rep_widen h)

/-- C119: a `float` vector that is copied into a `double` vector and back is the same, infinities and NaN included. -/
theorem C119_back {a b : Addr} {n : Int} (g : Heap (Fl binary64)) (h : Heap (Fl binary32)) (x : Int → Fl binary32) (hn : 0 ≤ n)
    (hx : Plain h a n x) (hr : Room g b n) : ∃ g' h', copyConv conv ⟨some b, n⟩ ⟨some a, n⟩ h g = .ok g' ∧
      copyConv conv ⟨some a, n⟩ ⟨some b, n⟩ g' h = .ok h' ∧ Plain h' a n x ∧ ∀ p, _root_.Verif.Mat.peek h' p = _root_.Verif.Mat.peek h p := by
  obtain ⟨g', e1, p1, -⟩ := C119_copy conv h g x hn hx hr
  obtain ⟨h', e2, p2, k2⟩ := C119_copy (conv : Fl binary64 → Fl binary32) g' h _ hn p1 (a := a) (fun k k0 k1 => by rw [hx k k0 k1]; rfl)
  have p3 : Plain h' a n x := fun k k0 k1 => by rw [p2 k k0 k1]; exact congrArg (fun z => some (some z)) (narrow_widen (x k))
  refine ⟨g', h', e1, e2, p3, fun p => ?_⟩
  by_cases hp : ∃ k, 0 ≤ k ∧ k < n ∧ p = ⟨a.block, a.off + k⟩
  · obtain ⟨k, k0, k1, rfl⟩ := hp
    rw [p3 k k0 k1, hx k k0 k1]
  · exact k2 p fun k k0 k1 e => hp ⟨k, k0, k1, e⟩

/-- C119: a `double` vector copied into a `float` vector has the nearest `float`s (`round` is rounding to nearest), and one whose
numbers are those of `float` loses nothing. -/
theorem C119_narrow {q : ℚ} {y : Fl binary64} (hy : Is y q) (h : |q| ≤ 2 ^ 127) :
    ∃ v, Is (conv y : Fl binary32) v ∧ v = round binary32 q ∧ (Rep binary32 q → v = q) := by
  obtain ⟨hr, rfl⟩ := hy
  show ∃ v, Is (fit binary32 q) v ∧ _
  obtain ⟨v, hv, -⟩ := fit_le (f := binary32) (B := 2 ^ 127) (rep_pow (by decide)) h
  refine ⟨v, hv, is_round hv, fun hq => ?_⟩
  obtain ⟨h1, e1⟩ := hv
  rw [fit_rep hq] at e1
  injection e1 with e1
  exact e1.symm

-- 1 is a number of `float`
example : Is (conv (fit binary64 1) : Fl binary32) 1 := by
  obtain ⟨v, h1, -, h3⟩ := C119_narrow one_is64 (by norm_num)
  obtain ⟨h, -⟩ := one_is32
  rwa [h3 h] at h1

/-- C119, a `float` vector added to a `double` vector: with `alpha` 1 the sum is rounded once, otherwise the product is rounded
before. -/
theorem C119_add64 {alpha x : Fl binary64} {y : Fl binary32} {p q r : ℚ} (ha : Is alpha p) (hx : Is x q) (hy : Is y r)
    (hb : |p * r| ≤ 2 ^ 250) : addTo64 alpha x y = fit binary64 (q + if p = 1 then r else round binary64 (p * r)) := by
  unfold addTo64
  by_cases hp : p = 1
  · rw [if_pos ((is_eq_iff ha one_is64).mpr hp), if_pos hp, add_is hx (widen_is hy)]
  · have hm : Is (mul alpha (conv y)) (round binary64 (p * r)) := by
      rw [mul_is ha (widen_is hy)]
      exact fit64_is hb
    rw [if_neg (fun e => hp ((is_eq_iff ha one_is64).mp e)), if_neg hp, add_is hx hm]

-- 1 + (-1) * 1
example : addTo64 (fit binary64 (-1)) (fit binary64 1) (fit binary32 1) = fit binary64 (1 + round binary64 (-1 * 1)) := by
  have hm : Is (fit binary64 (-1)) (-1) := by
    have : Rep binary64 ((-1 : ℚ)) := ⟨⟨-1, 0, by decide, by decide, by rw [show pow2 0 = 1 from by decide +kernel]; norm_num⟩, by
      rw [abs_neg, abs_one]
      decide +kernel⟩
    exact fit_is this
  have := C119_add64 hm one_is64 one_is32 (by norm_num)
  rwa [if_neg (by norm_num)] at this

/-- C119, a `double` vector added to a `float` vector: the sum is that of `double`, and is then rounded to `float`. -/
theorem C119_add32 {alpha x : Fl binary32} {y : Fl binary64} {p q r : ℚ} (ha : Is alpha p) (hx : Is x q) (hy : Is y r)
    (hb : |p * r| ≤ 2 ^ 250) (hs : |q + if p = 1 then r else round binary64 (p * r)| ≤ 2 ^ 250) :
    addTo32 alpha x y = fit binary32 (round binary64 (q + if p = 1 then r else round binary64 (p * r))) := by
  have narrow : ∀ {z : Fl binary64} {v : ℚ}, Is z v → (conv z : Fl binary32) = fit binary32 v := by
    rintro _ _ ⟨_, rfl⟩
    rfl
  unfold addTo32
  by_cases hp : p = 1
  · rw [if_pos hp] at hs
    rw [if_pos ((is_eq_iff ha one_is32).mpr hp), if_pos hp, add_is (widen_is hx) hy, narrow (fit64_is hs)]
  · have hm : Is (mul (conv alpha) y) (round binary64 (p * r)) := by
      rw [mul_is (widen_is ha) hy]
      exact fit64_is hb
    rw [if_neg hp] at hs
    rw [if_neg (fun e => hp ((is_eq_iff ha one_is32).mp e)), if_neg hp, add_is (widen_is hx) hm, narrow (fit64_is hs)]

-- 1 + 1 in `float`, without a factor
example : addTo32 (fit binary32 1) (fit binary32 1) (fit binary64 1) = fit binary32 (round binary64 2) := by
  have := C119_add32 one_is32 one_is32 one_is64 (by norm_num) (by norm_num)
  rw [if_pos rfl] at this
  norm_num at this
  exact this

/-- A vector of a number, NaN and an infinity. -/
example : ∃ g' h', copyConv (conv (f := binary32) (g := binary64)) ⟨some ⟨0, 0⟩, 3⟩ ⟨some ⟨0, 0⟩, 3⟩ [some [some (fit binary32 (1 / 10)), some .nan, some (.inf true)]]
      [some [none, none, none]] = .ok g' ∧
    copyConv (conv (f := binary64) (g := binary32)) ⟨some ⟨0, 0⟩, 3⟩ ⟨some ⟨0, 0⟩, 3⟩ g' [some [some (fit binary32 (1 / 10)), some .nan, some (.inf true)]] = .ok h' ∧
    _root_.Verif.Mat.peek h' ⟨0, 0⟩ = some (some (fit binary32 (1 / 10))) ∧ _root_.Verif.Mat.peek h' ⟨0, 1⟩ = some (some .nan) := by
  obtain ⟨g', h', e1, e2, h3, -⟩ := C119_back (a := ⟨0, 0⟩) (b := ⟨0, 0⟩) (n := 3) [some [none, none, none]]
    [some [some (fit binary32 (1 / 10)), some .nan, some (.inf true)]]
    (fun k => if k = 0 then fit binary32 (1 / 10) else if k = 1 then .nan else .inf true) (by decide) (by
      intro k k0 k1
      obtain rfl | rfl | rfl : k = 0 ∨ k = 1 ∨ k = 2 := by omega
      · rfl
      · rfl
      · rfl) (by
      intro k k0 k1
      obtain rfl | rfl | rfl : k = 0 ∨ k = 1 ∨ k = 2 := by omega
      · rfl
      · rfl
      · rfl)
  exact ⟨g', h', e1, e2, h3 0 (by decide) (by decide), h3 1 (by decide) (by decide)⟩

end Verif.Ieee
