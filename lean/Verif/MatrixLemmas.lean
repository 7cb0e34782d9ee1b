import Verif.MatrixModel

/-!
# Facts about memory and loops
-/

set_option linter.unusedSectionVars false

namespace Verif.Mat

variable {F : Type}

/-! ## Memory -/

/-- Writing where there is something. -/
theorem poke_ok {h : Heap F} {a : Addr} {old : Option F} (ha : peek h a = some old) (c : Option F) :
    ∃ h', poke h a c = .ok h' ∧ peek h' a = some c ∧ (∀ b, b ≠ a → peek h' b = peek h b) ∧ h'.length = h.length := by
  unfold peek at ha
  cases hb : h[a.block]? with
  | none => rw [hb] at ha; cases ha
  | some ob =>
    cases ob with
    | none => rw [hb] at ha; cases ha
    | some blk =>
      rw [hb] at ha
      simp only at ha
      by_cases h0 : 0 ≤ a.off
      · rw [if_pos h0] at ha
        have hlt := (List.getElem?_eq_some_iff.mp ha).1
        have hbl := (List.getElem?_eq_some_iff.mp hb).1
        refine ⟨h.set a.block (some (blk.set a.off.toNat c)), ?_, ?_, ?_, by rw [List.length_set]⟩
        · unfold poke
          rw [hb]
          simp only
          rw [if_pos ⟨h0, by omega⟩]
        · unfold peek
          rw [List.getElem?_set_self hbl]
          simp only
          rw [if_pos h0, List.getElem?_set_self hlt]
        · intro b hne
          unfold peek
          by_cases he : a.block = b.block
          · rw [← he, List.getElem?_set_self hbl, hb]
            simp only
            by_cases h1 : 0 ≤ b.off
            · rw [if_pos h1, if_pos h1, List.getElem?_set_ne]
              intro e
              apply hne
              cases a; cases b
              simp only at he e h0 h1
              rw [Addr.mk.injEq]
              exact ⟨he.symm, by omega⟩
            · rw [if_neg h1, if_neg h1]
          · rw [List.getElem?_set_ne he]
      · rw [if_neg h0] at ha; cases ha

theorem load_ok {h : Heap F} {a : Addr} {v : F} (ha : peek h a = some (some v)) : load h a = .ok v := by
  unfold load; rw [ha]

/-- Reading and writing where there is nothing. -/
theorem poke_none {h : Heap F} {a : Addr} (ha : peek h a = none) (c : Option F) : poke h a c = .error .ub := by
  unfold peek at ha
  unfold poke
  cases hb : h[a.block]? with
  | none => rfl
  | some ob =>
    cases ob with
    | none => rfl
    | some blk =>
      rw [hb] at ha
      simp only at ha ⊢
      by_cases h0 : 0 ≤ a.off
      · rw [if_pos h0] at ha
        have := List.getElem?_eq_none_iff.mp ha
        rw [if_neg (by omega)]
      · rw [if_neg (by omega)]

/-- Allocation leaves everything as it was. -/
theorem peek_alloc (h : Heap F) (n : Nat) (a : Addr) (ha : a.block < h.length) : peek (alloc h n).1 a = peek h a := by
  unfold peek alloc
  simp only
  rw [List.getElem?_append_left ha]

theorem peek_alloc_new (h : Heap F) (n : Nat) {i : Int} (h0 : 0 ≤ i) (h1 : i < n) :
    peek (alloc h n).1 ⟨h.length, i⟩ = some none := by
  unfold peek alloc
  simp only
  rw [List.getElem?_concat_length]
  simp only
  rw [if_pos h0, List.getElem?_replicate, if_pos (by omega)]

theorem peek_block {h : Heap F} {a : Addr} {c : Option F} (ha : peek h a = some c) : a.block < h.length := by
  unfold peek at ha
  cases hb : h[a.block]? with
  | none => rw [hb] at ha; cases ha
  | some ob => exact (List.getElem?_eq_some_iff.mp hb).1

/-- Freeing a block leaves the others as they were. -/
theorem free_ok {h : Heap F} {a : Addr} {c : Option F} (ha : peek h a = some c) (h0 : a.off = 0) :
    ∃ h', free h a = .ok h' ∧ (∀ b : Addr, b.block ≠ a.block → peek h' b = peek h b) ∧
      ∀ i, peek h' ⟨a.block, i⟩ = none := by
  unfold peek at ha
  cases hb : h[a.block]? with
  | none => rw [hb] at ha; cases ha
  | some ob =>
    cases ob with
    | none => rw [hb] at ha; cases ha
    | some blk =>
      refine ⟨h.set a.block none, ?_, ?_, ?_⟩
      · unfold free
        rw [hb]
        simp only
        rw [if_pos h0]
      · intro b hne
        unfold peek
        rw [List.getElem?_set_ne (fun e => hne e.symm)]
      · intro i
        unfold peek
        rw [List.getElem?_set_self (List.getElem?_eq_some_iff.mp hb).1]

/-! ## Loops -/

/-- An invariant. -/
theorem loop_inv {f : Int → Heap F → Exec (Heap F)} (P : Int → Heap F → Prop) (n : Int) (h : Heap F) (hn : 0 ≤ n)
    (h0 : P 0 h) (hstep : ∀ i h, 0 ≤ i → i < n → P i h → ∃ h', f i h = .ok h' ∧ P (i + 1) h') :
    ∃ h', loop n f h = .ok h' ∧ P n h' := by
  have key : ∀ m : Nat, (m : Int) ≤ n →
      ∃ h', (List.range m).foldlM (fun h (i : Nat) => f i h) h = .ok h' ∧ P m h' := by
    intro m
    induction m with
    | zero => intro _; exact ⟨h, rfl, h0⟩
    | succ m ih =>
      intro hm
      obtain ⟨h1, e1, p1⟩ := ih (by omega)
      obtain ⟨h2, e2, p2⟩ := hstep m h1 (by omega) (by omega) p1
      refine ⟨h2, ?_, by rw [Int.natCast_add]; exact p2⟩
      rw [List.range_succ, List.foldlM_append, e1, ok_bind, List.foldlM_cons, e2, ok_bind]
      rfl
  obtain ⟨h', e, p⟩ := key n.toNat (by omega)
  exact ⟨h', e, by rwa [Int.toNat_of_nonneg hn] at p⟩

/-- Nothing to do. -/
theorem loop_nonpos {f : Int → Heap F → Exec (Heap F)} {n : Int} (hn : n ≤ 0) (h : Heap F) : loop n f h = .ok h := by
  unfold loop
  rw [show n.toNat = 0 by omega]
  rfl

/-! ## Matrices -/

/-- The address of element `(i, j)`, for a matrix that starts at `a`. -/
def addr (a : Addr) (stride i j : Int) : Addr := ⟨a.block, a.off + i * stride + j⟩

/-- A matrix laid out properly: neighbouring rows do not overlap and the offsets fit in an `int`. -/
structure Proper (v : View) (a : Addr) : Prop where
  data : v.data = some a
  rows : 0 < v.rows
  cols : 0 < v.cols
  stride : v.cols ≤ v.stride
  size : v.rows * v.stride ≤ 2147483647

theorem addr_inj {a : Addr} {s n i j i' j' : Int} (hs : n ≤ s) (hj : 0 ≤ j) (hj' : j < n) (hk : 0 ≤ j') (hk' : j' < n)
    (h : addr a s i j = addr a s i' j') : i = i' ∧ j = j' := by
  have h1 : a.off + i * s + j = a.off + i' * s + j' := congrArg Addr.off h
  have hi : i = i' := by
    rcases Int.lt_trichotomy i i' with hlt | heq | hgt
    · exfalso
      have : (i + 1) * s ≤ i' * s := Int.mul_le_mul_of_nonneg_right (by omega) (by omega)
      rw [Int.add_mul, Int.one_mul] at this
      omega
    · exact heq
    · exfalso
      have : (i' + 1) * s ≤ i * s := Int.mul_le_mul_of_nonneg_right (by omega) (by omega)
      rw [Int.add_mul, Int.one_mul] at this
      omega
  subst hi
  exact ⟨rfl, by omega⟩

theorem Proper.offset {v : View} {a : Addr} (p : Proper v a) {i : Int} (h0 : 0 ≤ i) (h1 : i < v.rows) :
    0 ≤ i * v.stride ∧ i * v.stride + v.stride ≤ 2147483647 := by
  have hs : 0 ≤ v.stride := by have := p.cols; have := p.stride; omega
  have h2 : (i + 1) * v.stride ≤ v.rows * v.stride := Int.mul_le_mul_of_nonneg_right (by omega) hs
  rw [Int.add_mul, Int.one_mul] at h2
  have := p.size
  exact ⟨Int.mul_nonneg h0 hs, by omega⟩

theorem at_ok {v : View} {a : Addr} (p : Proper v a) {i j : Int} (h0 : 0 ≤ i) (h1 : i < v.rows) (h3 : j < v.cols) :
    v.at i j = .ok (addr a v.stride i j) := by
  have := p.offset h0 h1
  have := p.cols; have := p.stride
  unfold View.at
  rw [decide_eq_true ⟨h1, h3⟩, cassert_true, ok_bind, i32_of ⟨by omega, by omega⟩, ok_bind, p.data]
  rfl

theorem row_ok {v : View} {a : Addr} (p : Proper v a) {i : Int} (h0 : 0 ≤ i) (h1 : i < v.rows) :
    v.row i = .ok (addr a v.stride i 0) := by
  have := p.offset h0 h1
  have := p.cols; have := p.stride
  unfold View.row
  rw [decide_eq_true h1, cassert_true, ok_bind, i32_of ⟨by omega, by omega⟩, ok_bind, p.data]
  unfold addr
  rw [Int.add_zero]

/-- Seen from memory `h0`, only elements of the matrix have changed, and now they are `G`. -/
structure Vs (h0 h : Heap F) (v : View) (a : Addr) (G : Int → Int → Option F) : Prop where
  here : ∀ i j, 0 ≤ i → i < v.rows → 0 ≤ j → j < v.cols → peek h (addr a v.stride i j) = some (G i j)
  other : ∀ b : Addr, (∀ i j, 0 ≤ i → i < v.rows → 0 ≤ j → j < v.cols → b ≠ addr a v.stride i j) →
    peek h b = peek h0 b
  length : h.length = h0.length

theorem Vs.congr {h0 h : Heap F} {v : View} {a : Addr} {G G' : Int → Int → Option F} (s : Vs h0 h v a G)
    (hG : ∀ i j, 0 ≤ i → i < v.rows → 0 ≤ j → j < v.cols → G i j = G' i j) : Vs h0 h v a G' :=
  ⟨fun i j h1 h2 h3 h4 => by rw [s.here i j h1 h2 h3 h4, hG i j h1 h2 h3 h4], s.other, s.length⟩

/-- One element is written. -/
theorem Vs.poke {h0 h : Heap F} {v : View} {a : Addr} {G : Int → Int → Option F} (p : Proper v a) (s : Vs h0 h v a G)
    {i j : Int} (hi : 0 ≤ i) (hi' : i < v.rows) (hj : 0 ≤ j) (hj' : j < v.cols) (c : Option F) :
    ∃ h', Mat.poke h (addr a v.stride i j) c = .ok h' ∧
      Vs h0 h' v a (fun i' j' => if i' = i ∧ j' = j then c else G i' j') := by
  obtain ⟨h', e, e1, e2, e3⟩ := poke_ok (s.here i j hi hi' hj hj') c
  refine ⟨h', e, ?_, ?_, by rw [e3, s.length]⟩
  · intro i' j' g1 g2 g3 g4
    by_cases hx : i' = i ∧ j' = j
    · rw [hx.1, hx.2, e1, if_pos ⟨rfl, rfl⟩]
    · rw [if_neg hx, e2 _ (fun hc => hx (addr_inj p.stride g3 g4 hj hj' hc)), s.here i' j' g1 g2 g3 g4]
  · intro b hb
    rw [e2 b (hb i j hi hi' hj hj'), s.other b hb]

/-- `memset` on one row or part of one. -/
theorem memset_row {h0 h : Heap F} {v : View} {a : Addr} {G : Int → Int → Option F} (p : Proper v a)
    (s : Vs h0 h v a G) (zero : F) {r : Int} (hr : 0 ≤ r) (hr' : r < v.rows) :
    ∃ h', memset0 zero (some (addr a v.stride r 0)) v.cols h = .ok h' ∧
      Vs h0 h' v a (fun i j => if i = r then some zero else G i j) := by
  have := p.cols
  obtain ⟨h', e, t⟩ := loop_inv (f := fun i h => Mat.poke h ⟨a.block, (addr a v.stride r 0).off + i⟩ (some zero))
    (fun n h => Vs h0 h v a (fun i j => if i = r ∧ j < n then some zero else G i j)) v.cols h (by omega)
    (s.congr (fun i j _ _ g _ => by rw [if_neg (by omega)])) (by
      intro n h1 g1 g2 s1
      obtain ⟨h2, e2, s2⟩ := s1.poke p hr hr' g1 g2 (some zero)
      refine ⟨h2, ?_, s2.congr (fun i j _ _ _ _ => ?_)⟩
      · rw [← e2]
        unfold addr
        simp only
        rw [Int.add_zero]
      · by_cases hx : i = r ∧ j = n
        · rw [if_pos hx, if_pos (by omega)]
        · rw [if_neg hx]
          by_cases hy : i = r ∧ j < n
          · rw [if_pos hy, if_pos (by omega)]
          · rw [if_neg hy, if_neg (by omega)])
  refine ⟨h', e, t.congr (fun i j _ _ _ g => ?_)⟩
  by_cases hx : i = r
  · rw [if_pos ⟨hx, g⟩, if_pos hx]
  · rw [if_neg (by omega), if_neg hx]

/-- `SetZero`. -/
theorem setZero_ok {h0 h : Heap F} {v : View} {a : Addr} {G : Int → Int → Option F} (p : Proper v a)
    (s : Vs h0 h v a G) (zero : F) :
    ∃ h', setZero zero v h = .ok h' ∧ Vs h0 h' v a (fun _ _ => some zero) := by
  have hrow := p.rows
  have hcol := p.cols
  unfold setZero
  by_cases hc : v.cols = v.stride
  · rw [if_pos hc, p.data]
    obtain ⟨h', e, t⟩ := loop_inv (f := fun i h => Mat.poke h ⟨a.block, a.off + i⟩ (some zero))
      (fun n h => Vs h0 h v a (fun i j => if i * v.cols + j < n then some zero else G i j)) (v.rows * v.cols) h
      (Int.mul_nonneg (by omega) (by omega))
      (s.congr (fun i j g1 _ g2 _ => by
        rw [if_neg]
        have := Int.mul_nonneg g1 (Int.le_of_lt hcol)
        omega)) (by
        intro n h1 g1 g2 s1
        have d1 : n / v.cols * v.cols + n % v.cols = n := by rw [Int.mul_comm]; exact Int.mul_ediv_add_emod n v.cols
        have d2 := Int.emod_nonneg n (Int.ne_of_gt hcol)
        have d3 := Int.emod_lt_of_pos n hcol
        have d4 : n / v.cols < v.rows := Int.ediv_lt_of_lt_mul hcol g2
        have d5 : 0 ≤ n / v.cols := Int.ediv_nonneg g1 (by omega)
        obtain ⟨h2, e2, s2⟩ := s1.poke p d5 d4 d2 d3 (some zero)
        refine ⟨h2, ?_, s2.congr (fun i j f1 f2 f3 f4 => ?_)⟩
        · rw [← e2]
          unfold addr
          rw [← hc, Int.add_assoc, d1]
        · by_cases hx : i = n / v.cols ∧ j = n % v.cols
          · rw [if_pos hx, if_pos]
            rw [hx.1, hx.2, d1]
            omega
          · rw [if_neg hx]
            have hne : i * v.cols + j ≠ n := by
              intro he
              apply hx
              have hq : addr ⟨0, 0⟩ v.cols i j = addr ⟨0, 0⟩ v.cols (n / v.cols) (n % v.cols) := by
                unfold addr
                simp only [Addr.mk.injEq, true_and]
                omega
              exact addr_inj (Int.le_refl _) f3 f4 d2 d3 hq
            by_cases hy : i * v.cols + j < n
            · rw [if_pos hy, if_pos (by omega)]
            · rw [if_neg hy, if_neg (by omega)])
    refine ⟨h', e, t.congr (fun i j g1 g2 g3 g4 => if_pos ?_)⟩
    have : (i + 1) * v.cols ≤ v.rows * v.cols := Int.mul_le_mul_of_nonneg_right (by omega) (by omega)
    rw [Int.add_mul, Int.one_mul] at this
    omega
  · rw [if_neg hc]
    obtain ⟨h', e, t⟩ := loop_inv (f := fun row h => do
        let x ← i32 (row * v.stride)
        memset0 zero (v.data.map fun a => ⟨a.block, a.off + x⟩) v.cols h)
      (fun n h => Vs h0 h v a (fun i j => if i < n then some zero else G i j)) v.rows h (by omega)
      (s.congr (fun i j g1 _ _ _ => by rw [if_neg (by omega)])) (by
        intro n h1 g1 g2 s1
        obtain ⟨h2, e2, s2⟩ := memset_row p s1 zero g1 g2
        have := p.offset g1 g2
        have := p.stride
        refine ⟨h2, ?_, s2.congr (fun i j _ _ _ _ => ?_)⟩
        · rw [i32_of ⟨by omega, by omega⟩, ok_bind, p.data, ← e2]
          unfold addr
          rw [Int.add_zero]
          rfl
        · by_cases hx : i = n
          · rw [if_pos hx, if_pos (by omega)]
          · rw [if_neg hx]
            by_cases hy : i < n
            · rw [if_pos hy, if_pos (by omega)]
            · rw [if_neg hy, if_neg (by omega)])
    exact ⟨h', e, t.congr (fun i j _ g _ _ => if_pos g)⟩

end Verif.Mat
