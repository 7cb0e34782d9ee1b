import Verif.MatrixMoreModel
import Verif.MatrixProps

/-!
# Property C117: matrices on plain arrays, scaling and random values
-/

namespace Verif.Mat

variable {F : Type}

open Spec

/-! ## Spec -/

/-- The array at `a`, of `n` values, all written. -/
def Plain (h : Heap F) (a : Addr) (n : Int) (x : Int → F) : Prop :=
  ∀ k, 0 ≤ k → k < n → peek h ⟨a.block, a.off + k⟩ = some (some (x k))

/-! ## Lemmas -/

theorem drawLoop_inv {f : Int → Heap F × Nat → Exec (Heap F × Nat)} (P : Int → Heap F × Nat → Prop) (n : Int)
    (s : Heap F × Nat) (hn : 0 ≤ n) (h0 : P 0 s)
    (hstep : ∀ i s, 0 ≤ i → i < n → P i s → ∃ s', f i s = .ok s' ∧ P (i + 1) s') :
    ∃ s', drawLoop n f s = .ok s' ∧ P n s' := by
  have key : ∀ m : Nat, (m : Int) ≤ n →
      ∃ s', (List.range m).foldlM (fun s (i : Nat) => f i s) s = .ok s' ∧ P m s' := by
    intro m
    induction m with
    | zero => intro _; exact ⟨s, rfl, h0⟩
    | succ m ih =>
      intro hm
      obtain ⟨s1, e1, p1⟩ := ih (by omega)
      obtain ⟨s2, e2, p2⟩ := hstep m s1 (by omega) (by omega) p1
      refine ⟨s2, ?_, by exact_mod_cast p2⟩
      rw [List.range_succ, List.foldlM_append, e1, ok_bind, List.foldlM_cons, e2, ok_bind]
      rfl
  obtain ⟨s', e, p⟩ := key n.toNat (by omega)
  exact ⟨s', e, by rwa [Int.toNat_of_nonneg hn] at p⟩

theorem scaleRow_ok {h0 h : Heap F} {v : View} {a : Addr} {G : Int → Int → F} (p : Proper v a)
    (s : Vs h0 h v a (fun i j => some (G i j))) (f : F → F) {r : Int} (hr : 0 ≤ r) (hr' : r < v.rows) :
    ∃ h', VecMem.mapVec f ⟨some (addr a v.stride r 0), v.cols⟩ h = .ok h' ∧
      Vs h0 h' v a (fun i j => some (if i = r then f (G i j) else G i j)) := by
  have hc := p.cols
  have ha : ∀ j, (⟨(addr a v.stride r 0).block, (addr a v.stride r 0).off + j⟩ : Addr) = addr a v.stride r j := by
    intro j
    unfold addr
    simp only [Int.add_zero]
  unfold VecMem.mapVec
  obtain ⟨h', e, t⟩ := loop_inv (f := fun i h => do
      let x ← VecMem.elem ⟨some (addr a v.stride r 0), v.cols⟩ i h
      VecMem.setElem ⟨some (addr a v.stride r 0), v.cols⟩ i (f x) h)
    (fun n h => Vs h0 h v a (fun i j => some (if i = r ∧ j < n then f (G i j) else G i j))) v.cols h (by omega)
    (s.congr (fun i j _ _ g _ => by rw [if_neg (by omega)])) (by
      intro j h1 j0 j1 s1
      have hl := s1.here r j hr hr' j0 j1
      simp only at hl
      rw [if_neg (by omega)] at hl
      obtain ⟨h2, e2, s2⟩ := s1.poke p hr hr' j0 j1 (some (f (G r j)))
      refine ⟨h2, ?_, s2.congr (fun i' j' _ _ _ _ => ?_)⟩
      · unfold VecMem.elem VecMem.setElem
        simp only [ha]
        rw [load_ok hl, ok_bind, e2]
      · by_cases x : i' = r ∧ j' = j
        · rw [if_pos x, if_pos (by omega), x.1, x.2]
        · rw [if_neg x]
          by_cases y : i' = r ∧ j' < j
          · rw [if_pos y, if_pos (by omega)]
          · rw [if_neg y, if_neg (by omega)])
  refine ⟨h', e, t.congr (fun i j _ _ _ g => ?_)⟩
  by_cases x : i = r
  · rw [if_pos ⟨x, g⟩, if_pos x]
  · rw [if_neg (by omega), if_neg x]

/-! ## The properties -/

/-- C117: a matrix on a plain array that is large enough: its element in row `i` and column `j` is the array's element
`i * stride + j`. -/
theorem C117_plain {a : Addr} {rows cols stride : Int} {n : Int} (h : Heap F) (x : Int → F) (hx : Plain h a n x)
    (hr : 0 < rows) (hc : 0 < cols) (hs : cols ≤ stride) (hn : (rows - 1) * stride + cols ≤ n)
    (hsize : rows * stride ≤ 2147483647) :
    ∃ v, plain (some a) rows cols stride = .ok v ∧ Proper v a ∧ v.rows = rows ∧ v.cols = cols ∧
      Holds h v a (fun i j => x (i * stride + j)) := by
  refine ⟨⟨some a, rows, cols, stride⟩, ?_, ⟨rfl, hr, hc, hs, hsize⟩, rfl, rfl, ?_⟩
  · unfold plain
    simp only
    rw [decide_eq_true hs]
    rfl
  · intro i j ⟨h1, h2, h3, h4⟩
    simp only at h2 h4
    have h5 : i * stride ≤ (rows - 1) * stride := Int.mul_le_mul_of_nonneg_right (by omega) (by omega)
    have h6 : 0 ≤ i * stride := Int.mul_nonneg h1 (by omega)
    have := hx (i * stride + j) (by omega) (by omega)
    unfold place
    rw [show a.off + i * stride + j = a.off + (i * stride + j) by omega]
    exact this

/-- C117: rows that overlap are refused, and so is a null pointer with elements. -/
theorem C117_plain_refused (a : Addr) (rows cols stride : Int) :
    (stride < cols → plain (some a) rows cols stride = .error .assert) ∧
    (InI32 (rows * cols) → rows * cols ≠ 0 → plain none rows cols stride = .error .assert) := by
  constructor
  · intro h
    unfold plain
    simp only
    rw [decide_eq_false (by omega)]
    rfl
  · intro h h0
    unfold plain
    simp only
    rw [i32_of h, ok_bind, decide_eq_false h0]
    rfl

/-- C117, `Scale`: every element of the matrix is multiplied once; the elements between the rows and everything else stay. -/
theorem C117_scale (f : F → F) {v : View} {a : Addr} (h : Heap F) (G : Int → Int → F) (p : Proper v a)
    (hv : Holds h v a G) :
    ∃ h', scale f v h = .ok h' ∧ Holds h' v a (fun i j => f (G i j)) ∧ Kept h h' v a := by
  have hr := p.rows
  unfold scale
  obtain ⟨h', e, s⟩ := loop_inv (f := fun r h => do
      let a ← v.row r
      VecMem.mapVec f ⟨some a, v.cols⟩ h)
    (fun n h1 => Vs h h1 v a (fun i j => some (if i < n then f (G i j) else G i j))) v.rows h (by omega)
    ((holds_start hv).congr (fun i j g1 _ _ _ => by rw [if_neg (by omega)])) (by
      intro r h1 r0 r1 s1
      obtain ⟨h2, e2, s2⟩ := scaleRow_ok p s1 f r0 r1
      refine ⟨h2, by rw [row_ok p r0 r1, ok_bind, e2], s2.congr (fun i j _ _ _ _ => ?_)⟩
      by_cases x : i = r
      · rw [if_pos x, if_neg (by omega), if_pos (by omega)]
      · rw [if_neg x]
        by_cases y : i < r
        · rw [if_pos y, if_pos (by omega)]
        · rw [if_neg y, if_neg (by omega)])
  exact ⟨h', e, vs_holds (s.congr (fun i j _ g _ _ => by rw [if_pos g]))⟩

/-- C117, `SetRand`: the elements get the next numbers of the generator, row by row, each number once; nothing else changes. -/
theorem C117_set_rand (unit : Nat → F) {v : View} {a : Addr} (h : Heap F) (k : Nat) (p : Proper v a) (hw : Writable h v a) :
    ∃ h', setRand unit v (h, k) = .ok (h', k + (v.rows * v.cols).toNat) ∧
      Holds h' v a (fun i j => unit (k + (i * v.cols + j).toNat)) ∧ Kept h h' v a := by
  have hr := p.rows
  have hc := p.cols
  let O : Int → Int → Option F := fun i j => (peek h (place v a i j)).getD none
  unfold setRand
  obtain ⟨s', e, q, s⟩ := drawLoop_inv (f := fun row s => drawLoop v.cols (fun col s => do
      let a ← v.at row col
      let h ← poke s.1 a (some (unit s.2))
      .ok (h, s.2 + 1)) s)
    (fun n s1 => s1.2 = k + (n * v.cols).toNat ∧
      Vs h s1.1 v a (fun i j => if i < n then some (unit (k + (i * v.cols + j).toNat)) else O i j)) v.rows (h, k) (by omega)
    ⟨by simp, (vs_start hw).congr (fun i j g _ _ _ => by rw [if_neg (by omega)])⟩ (by
      rintro r ⟨h1, k1⟩ r0 r1 ⟨q1, s1⟩
      have hrc : 0 ≤ r * v.cols := Int.mul_nonneg r0 (by omega)
      simp only at q1 s1
      obtain ⟨s2, e2, q2, t2⟩ := drawLoop_inv (f := fun col s => do
          let a ← v.at r col
          let h ← poke s.1 a (some (unit s.2))
          .ok (h, s.2 + 1))
        (fun n s1 => s1.2 = k + (r * v.cols + n).toNat ∧
          Vs h s1.1 v a (fun i j => if i < r ∨ i = r ∧ j < n then some (unit (k + (i * v.cols + j).toNat)) else O i j))
        v.cols (h1, k1) (by omega)
        ⟨by rw [Int.add_zero]; exact q1, s1.congr (fun i j _ _ g _ => by
          by_cases x : i < r
          · rw [if_pos x, if_pos (.inl x)]
          · rw [if_neg x, if_neg (by omega)])⟩ (by
          rintro j ⟨h3, k3⟩ j0 j1 ⟨q3, s3⟩
          simp only at q3 s3
          obtain ⟨h4, e4, s4⟩ := s3.poke p r0 r1 j0 j1 (some (unit k3))
          refine ⟨(h4, k3 + 1), ?_, ?_, s4.congr (fun i' j' _ _ _ _ => ?_)⟩
          · rw [at_ok p r0 r1 j1, ok_bind]
            simp only
            rw [e4, ok_bind]
          · simp only
            omega
          · by_cases x : i' = r ∧ j' = j
            · rw [if_pos x, if_pos (by omega), q3, x.1, x.2]
            · rw [if_neg x]
              by_cases y : i' < r ∨ i' = r ∧ j' < j
              · rw [if_pos y, if_pos (by omega)]
              · rw [if_neg y, if_neg (by omega)])
      refine ⟨s2, e2, ?_, t2.congr (fun i j _ _ _ g => ?_)⟩
      · rw [q2, Int.add_mul, Int.one_mul]
      · by_cases x : i < r + 1
        · rw [if_pos x, if_pos (by omega)]
        · rw [if_neg x, if_neg (by omega)])
  obtain ⟨h', k'⟩ := s'
  simp only at q s
  subst q
  exact ⟨h', e, vs_holds (s.congr (fun i j _ g _ _ => by rw [if_pos g]))⟩

/-! ## An array `9, 1, 2, 3, 4, 5, 6`, and on it, from its second element on, two rows of two with rows three apart -/

/-- The array. -/
def demoHeap : Heap Int := [some [some 9, some 1, some 2, some 3, some 4, some 5, some 6]]

theorem demo_plain : Plain demoHeap ⟨0, 1⟩ 6 (fun k => k + 1) := by
  intro k h0 h1
  have : k = 0 ∨ k = 1 ∨ k = 2 ∨ k = 3 ∨ k = 4 ∨ k = 5 := by omega
  rcases this with rfl | rfl | rfl | rfl | rfl | rfl <;> rfl

example : ∃ v h' h'', plain (some ⟨0, 1⟩) 2 2 3 = .ok v ∧ scale (· * 10) v demoHeap = .ok h' ∧
    Holds h' v ⟨0, 1⟩ (fun i j => (i * 3 + j + 1) * 10) ∧ peek h' ⟨0, 3⟩ = some (some 3) ∧
    setRand (fun k => 100 + (k : Int)) v (h', 7) = .ok (h'', 11) ∧ peek h'' ⟨0, 5⟩ = some (some 110) := by
  obtain ⟨v, e, p, hr, hc, hv⟩ := C117_plain (rows := 2) (cols := 2) (stride := 3) (n := 6) demoHeap _ demo_plain (by decide)
    (by decide) (by decide) (by decide) (by decide)
  obtain ⟨h1, e1, hh, hk⟩ := C117_scale (· * 10) demoHeap _ p hv
  have hv' : v = ⟨some ⟨0, 1⟩, 2, 2, 3⟩ := (Except.ok.inj e).symm
  obtain ⟨h2, e2, hu, -⟩ := C117_set_rand (fun k => 100 + (k : Int)) h1 7 p (fun i j g => by rw [hh i j g]; rfl)
  rw [hr, hc] at e2
  refine ⟨v, h1, h2, e, e1, hh, ?_, e2, ?_⟩
  · rw [hk ⟨0, 3⟩ (fun i j g => ?_)]
    · rfl
    · rw [hv'] at g ⊢
      obtain ⟨g1, g2, g3, g4⟩ := g
      simp only at g2 g4
      intro e
      have := congrArg Addr.off e
      unfold place at this
      simp only at this
      omega
  · have := hu 1 1 ⟨by decide, by rw [hr]; decide, by decide, by rw [hc]; decide⟩
    rw [hv'] at this
    exact this

-- rows that overlap; no array
example : plain (some ⟨0, 0⟩) 2 3 2 = .error .assert := (C117_plain_refused ⟨0, 0⟩ 2 3 2).1 (by decide)
example : plain none 2 3 3 = .error .assert := (C117_plain_refused ⟨0, 0⟩ 2 3 3).2 (by decide) (by decide)

end Verif.Mat
