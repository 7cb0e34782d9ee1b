import Verif.NetMemSpec
import Verif.NnetLemmas

/-!
# Facts about matrices in memory
-/

namespace Verif.NetMem

open Mat (Heap Addr View peek load poke loop poke_ok load_ok loop_inv)
open VecMem (Vec elem setElem mapVec mulVec addVec subVec copyVec get put)
open Nnet (Ops Layer)
open Spec

variable {F : Type}

/-! ## Loops -/

/-- An invariant of a loop with any kind of state. -/
theorem range_inv {S : Type} {f : S → Nat → Exec S} (P : Nat → S → Prop) (s : S) (h0 : P 0 s) :
    ∀ n : Nat, (∀ i s, i < n → P i s → ∃ s', f s i = .ok s' ∧ P (i + 1) s') →
      ∃ s', (List.range n).foldlM f s = .ok s' ∧ P n s'
  | 0, _ => ⟨s, rfl, h0⟩
  | n + 1, step => by
    obtain ⟨s1, e1, p1⟩ := range_inv P s h0 n (fun i s hi => step i s (by omega))
    obtain ⟨s2, e2, p2⟩ := step n s1 (by omega) p1
    refine ⟨s2, ?_, p2⟩
    rw [List.range_succ, List.foldlM_append, e1, ok_bind, List.foldlM_cons, e2, ok_bind]
    rfl

theorem loop_nat {f : Int → Heap F → Exec (Heap F)} (P : Nat → Heap F → Prop) (n : Nat) {k : Int} (hk : k = n)
    (h : Heap F) (h0 : P 0 h) (step : ∀ i h, i < n → P i h → ∃ h', f i h = .ok h' ∧ P (i + 1) h') :
    ∃ h', loop k f h = .ok h' ∧ P n h' := by
  unfold loop
  rw [show k.toNat = n by omega]
  exact range_inv (f := fun h (i : Nat) => f i h) P h h0 n step

/-! ## Which blocks there are -/

/-- The same blocks are allocated and freed. -/
def Shape (h h' : Heap F) : Prop := h'.map Option.isSome = h.map Option.isSome

theorem Shape.refl (h : Heap F) : Shape h h := rfl

theorem Shape.trans {h h' h'' : Heap F} (a : Shape h h') (b : Shape h' h'') : Shape h h'' := Eq.trans b a

theorem Shape.length {h h' : Heap F} (a : Shape h h') : h'.length = h.length := by
  have := congrArg List.length a
  rwa [List.length_map, List.length_map] at this

theorem live_iff (h : Heap F) (b : Nat) : Live h b ↔ (h.map Option.isSome)[b]? = some true := by
  unfold Live
  rw [List.getElem?_map]
  cases h[b]? with
  | none => simp
  | some c => cases c <;> simp

theorem Shape.live {h h' : Heap F} (a : Shape h h') (b : Nat) : Live h' b ↔ Live h b := by
  rw [live_iff, live_iff, a]

theorem live_lt {h : Heap F} {b : Nat} (hl : Live h b) : b < h.length := by
  obtain ⟨c, hc⟩ := hl
  exact (List.getElem?_eq_some_iff.mp hc).1

theorem live_peek {h : Heap F} {a : Addr} {c : Option F} (ha : peek h a = some c) : Live h a.block := by
  unfold peek at ha
  cases hb : h[a.block]? with
  | none => rw [hb] at ha; cases ha
  | some ob =>
    cases ob with
    | none => rw [hb] at ha; cases ha
    | some blk => exact ⟨blk, hb⟩

theorem poke_shape {h h' : Heap F} {a : Addr} {c : Option F} (e : poke h a c = .ok h') : Shape h h' := by
  unfold poke at e
  cases hb : h[a.block]? with
  | none => rw [hb] at e; cases e
  | some ob =>
    cases ob with
    | none => rw [hb] at e; cases e
    | some blk =>
      rw [hb] at e
      simp only at e
      split at e
      · cases e
        unfold Shape
        apply List.ext_getElem?
        intro i
        rw [List.getElem?_map, List.getElem?_map]
        by_cases hi : a.block = i
        · rw [← hi, List.getElem?_set_self (List.getElem?_eq_some_iff.mp hb).1, hb]; rfl
        · rw [List.getElem?_set_ne hi]
      · cases e

theorem loop_shape {f : Int → Heap F → Exec (Heap F)} (hf : ∀ i h h', f i h = .ok h' → Shape h h') (n : Int) :
    ∀ h h', loop n f h = .ok h' → Shape h h' := by
  unfold loop
  generalize n.toNat = k
  induction k with
  | zero => intro h h' e; cases e; exact .refl _
  | succ k ih =>
    intro h h' e
    rw [List.range_succ, List.foldlM_append] at e
    cases e1 : (List.range k).foldlM (fun h (i : Nat) => f i h) h with
    | error x => rw [e1] at e; cases e
    | ok h1 =>
      rw [e1, ok_bind, List.foldlM_cons] at e
      cases e2 : f k h1 with
      | error x => rw [e2] at e; cases e
      | ok h2 =>
        rw [e2, ok_bind] at e
        cases e
        exact (ih h h1 e1).trans (hf _ _ _ e2)

theorem memset_shape {zero : F} {p : Option Addr} {n : Int} {h h' : Heap F} (e : Mat.memset0 zero p n h = .ok h') :
    Shape h h' := by
  unfold Mat.memset0 at e
  cases p with
  | none =>
    simp only at e
    split at e
    · cases e; exact .refl _
    · cases e
  | some a => exact loop_shape (fun _ _ _ e => poke_shape e) n _ _ e

theorem setZero_shape {zero : F} {v : View} {h h' : Heap F} (e : Mat.setZero zero v h = .ok h') : Shape h h' := by
  unfold Mat.setZero at e
  split at e
  · exact memset_shape e
  · refine loop_shape (fun i h h' e => ?_) _ _ _ e
    cases hx : i32 (i * v.stride) with
    | error x => rw [hx] at e; cases e
    | ok x => rw [hx, ok_bind] at e; exact memset_shape e

theorem memcpy_shape {d s : Addr} {n : Int} {h h' : Heap F} (e : Mat.memcpy d s n h = .ok h') : Shape h h' := by
  unfold Mat.memcpy at e
  split at e
  · cases e
  · refine loop_shape (fun i h h' e => ?_) _ _ _ e
    split at e
    · exact poke_shape e
    · cases e

theorem copyRow_shape {d s : Addr} {n k : Int} {h h' : Heap F} (e : Mat.copyRow d s n k h = .ok h') : Shape h h' := by
  unfold Mat.copyRow cassert at e
  split at e
  · rw [ok_bind] at e
    split at e
    · cases e; exact .refl _
    · exact memcpy_shape e
  · cases e

theorem copyFromMat_shape {d s : View} {h h' : Heap F} (e : Mat.copyFromMat d s h = .ok h') : Shape h h' := by
  unfold Mat.copyFromMat cassert at e
  split at e
  · rw [ok_bind] at e
    refine loop_shape (fun i h h' e => ?_) _ _ _ e
    cases h1 : d.row i with
    | error x => rw [h1] at e; cases e
    | ok a =>
      cases h2 : s.row i with
      | error x => rw [h1, h2] at e; cases e
      | ok b => rw [h1, h2, ok_bind, ok_bind] at e; exact copyRow_shape e
  · cases e

/-! ## Elements one after the other -/

/-- Only `n` elements from `a` on have changed. -/
structure Only (h h' : Heap F) (a : Addr) (n : Nat) : Prop where
  other : ∀ b : Addr, ¬ (b.block = a.block ∧ a.off ≤ b.off ∧ b.off < a.off + n) → peek h' b = peek h b
  shape : Shape h h'

theorem Only.refl (h : Heap F) (a : Addr) (n : Nat) : Only h h a n := ⟨fun _ _ => rfl, .refl h⟩

theorem Only.trans {h h' h'' : Heap F} {a : Addr} {n : Nat} (p : Only h h' a n) (q : Only h' h'' a n) :
    Only h h'' a n := ⟨fun b hb => by rw [q.other b hb, p.other b hb], p.shape.trans q.shape⟩

theorem Only.block {h h' : Heap F} {a : Addr} {n : Nat} (p : Only h h' a n) (b : Addr) (hb : b.block ≠ a.block) :
    peek h' b = peek h b := p.other b (fun hh => hb hh.1)

theorem Only.line {h h' : Heap F} {a : Addr} {n : Nat} (p : Only h h' a n) {b : Addr} {x : List F}
    (hb : b.block ≠ a.block) (hl : Line h b x) : Line h' b x := fun i y hy => by
  rw [p.block ⟨b.block, b.off + i⟩ hb]; exact hl i y hy

theorem Spec.Line.load {h : Heap F} {a : Addr} {x : List F} (hl : Line h a x) {i : Nat} {y : F} (hy : x[i]? = some y) :
    Mat.load h ⟨a.block, a.off + i⟩ = .ok y := load_ok (hl i y hy)

/-- One element is written. -/
theorem Spec.Line.poke {h : Heap F} {a : Addr} {x : List F} (hl : Line h a x) {i : Nat} (hi : i < x.length) (y : F) :
    ∃ h', Mat.poke h ⟨a.block, a.off + i⟩ (some y) = .ok h' ∧ Line h' a (x.set i y) ∧ Only h h' a x.length := by
  obtain ⟨h', e, e1, e2, _⟩ := poke_ok (hl i _ (List.getElem?_eq_getElem hi)) (some y)
  refine ⟨h', e, ?_, ?_, poke_shape e⟩
  · intro j z hz
    by_cases hj : i = j
    · subst hj
      rw [List.getElem?_set_self hi] at hz
      cases hz
      exact e1
    · rw [List.getElem?_set_ne hj] at hz
      rw [e2 _ (fun hc => hj (by have := congrArg Addr.off hc; simp only at this; omega))]
      exact hl j z hz
  · intro b hb
    apply e2
    rintro rfl
    exact hb ⟨rfl, by simp only; omega, by simp only; omega⟩

/-- The first `i` elements are those of `y`, the others those of `x`. -/
def mix (x y : List F) (i : Nat) : List F := y.take i ++ x.drop i

theorem mix_zero (x y : List F) : mix x y 0 = x := by simp [mix]

theorem mix_length {x y : List F} (h : y.length = x.length) (i : Nat) : (mix x y i).length = x.length := by
  unfold mix
  rw [List.length_append, List.length_take, List.length_drop]
  omega

theorem mix_all {x y : List F} (h : y.length = x.length) : mix x y x.length = y := by
  unfold mix
  rw [← h, List.take_length, h, List.drop_length, List.append_nil]

theorem mix_get {x y : List F} (h : y.length = x.length) (i j : Nat) :
    (mix x y i)[j]? = if j < i then y[j]? else x[j]? := by
  unfold mix
  by_cases hi : i ≤ y.length
  · have ht : (y.take i).length = i := by rw [List.length_take]; omega
    split
    · next g => rw [List.getElem?_append_left (by omega), List.getElem?_take_of_lt g]
    · next g =>
      rw [List.getElem?_append_right (by omega), ht, List.getElem?_drop]
      congr 1
      omega
  · rw [List.take_of_length_le (by omega), List.drop_eq_nil_of_le (by omega), List.append_nil]
    split
    · rfl
    · rw [List.getElem?_eq_none (by omega), List.getElem?_eq_none (by omega)]

theorem mix_set {x y : List F} (h : y.length = x.length) {i : Nat} {v : F} (hv : y[i]? = some v) :
    (mix x y i).set i v = mix x y (i + 1) := by
  have hi := (List.getElem?_eq_some_iff.mp hv).1
  apply List.ext_getElem?
  intro j
  by_cases hj : i = j
  · subst hj
    rw [List.getElem?_set_self (by rw [mix_length h]; omega), mix_get h, if_pos (by omega), hv]
  · rw [List.getElem?_set_ne hj, mix_get h, mix_get h]
    split <;> split <;> first | rfl | omega

theorem mix_same {x y : List F} (h : y.length = x.length) {i : Nat} (hv : y[i]? = x[i]?) :
    mix x y i = mix x y (i + 1) := by
  apply List.ext_getElem?
  intro j
  rw [mix_get h, mix_get h]
  by_cases hj : i = j
  · subst hj
    rw [if_neg (by omega), if_pos (by omega), hv]
  · split <;> split <;> first | rfl | omega

theorem mix_here {x y : List F} (h : y.length = x.length) (i : Nat) : (mix x y i)[i]? = x[i]? := by
  rw [mix_get h, if_neg (by omega)]

/-- A loop that replaces the elements of `x` by those of `y`, one after the other. -/
theorem loop_line {f : Int → Heap F → Exec (Heap F)} {h : Heap F} {a : Addr} {x y : List F} (hl : Line h a x)
    (hlen : y.length = x.length) {k : Int} (hk : k = x.length)
    (step : ∀ (i : Nat) (h1 : Heap F) (u v : F), x[i]? = some u → y[i]? = some v → Line h1 a (mix x y i) →
      Only h h1 a x.length → f i h1 = Mat.poke h1 ⟨a.block, a.off + i⟩ (some v) ∨ (f i h1 = .ok h1 ∧ u = v)) :
    ∃ h', loop k f h = .ok h' ∧ Line h' a y ∧ Only h h' a x.length := by
  obtain ⟨h', e, p⟩ := loop_nat (f := f) (fun i h1 => Line h1 a (mix x y i) ∧ Only h h1 a x.length) x.length hk h
    ⟨by rw [mix_zero]; exact hl, .refl _ _ _⟩ (by
      rintro i h1 hi ⟨l1, o1⟩
      have hu := List.getElem?_eq_getElem hi
      have hv := List.getElem?_eq_getElem (show i < y.length by omega)
      rcases step i h1 _ _ hu hv l1 o1 with q | ⟨q, huv⟩
      · obtain ⟨h2, e2, l2, o2⟩ := l1.poke (i := i) (by rw [mix_length hlen]; exact hi) y[i]
        rw [mix_length hlen] at o2
        exact ⟨h2, by rw [q, e2], by rw [← mix_set hlen hv]; exact l2, o1.trans o2⟩
      · exact ⟨h1, q, by rw [← mix_same hlen (by rw [hu, hv, huv])]; exact l1, o1⟩)
  rw [mix_all hlen] at p
  exact ⟨h', e, p⟩

theorem Spec.Line.elem {h : Heap F} {a : Addr} {x : List F} (hl : Line h a x) {i : Nat} {y : F} (hy : x[i]? = some y)
    (n : Int) : elem ⟨some a, n⟩ i h = .ok y := hl.load hy

theorem Spec.Line.get {h : Heap F} {a : Addr} {x : List F} (hl : Line h a x) {i : Nat} {y : F} (hy : x[i]? = some y)
    {n : Int} (hn : (i : Int) < n) : get ⟨some a, n⟩ i h = .ok y := by
  unfold VecMem.get
  simp only
  rw [decide_eq_true hn, cassert_true, ok_bind]
  exact hl.load hy

theorem put_is {h : Heap F} {a : Addr} {i : Nat} {y : F} {n : Int} (hn : (i : Int) < n) :
    put ⟨some a, n⟩ i y h = Mat.poke h ⟨a.block, a.off + i⟩ (some y) := by
  unfold VecMem.put
  simp only
  rw [decide_eq_true hn, cassert_true, ok_bind]

/-! ## Operations on rows -/

/-- `f` replaces the row `x` at `a` by `y` and changes nothing else. -/
def Turns (f : Heap F → Exec (Heap F)) (h : Heap F) (a : Addr) (x y : List F) : Prop :=
  ∃ h', f h = .ok h' ∧ Line h' a y ∧ Only h h' a x.length

theorem mapVec_ok (f : F → F) {h : Heap F} {a : Addr} {x : List F} (hl : Line h a x) {n : Int} (hn : n = x.length) :
    Turns (mapVec f ⟨some a, n⟩) h a x (x.map f) := by
  refine loop_line hl (by rw [List.length_map]) hn ?_
  intro i h1 u v hu hv l1 o1
  have hlen : (x.map f).length = x.length := by rw [List.length_map]
  rw [List.getElem?_map, hu] at hv
  cases hv
  left
  rw [l1.elem (by rw [mix_here hlen]; exact hu), ok_bind]
  rfl

theorem addVec_ok (g : F → F → F) {h : Heap F} {a b : Addr} {x y : List F} (hl : Line h a x) (hb : Line h b y)
    (hne : b.block ≠ a.block) (hlen : y.length = x.length) {n k : Int} (hn : n = x.length) (hk : k = y.length) :
    Turns (addVec g ⟨some a, n⟩ ⟨some b, k⟩) h a x (List.zipWith g x y) := by
  have hz : (List.zipWith g x y).length = x.length := by rw [List.length_zipWith]; omega
  obtain ⟨h', e, p⟩ := loop_line (f := fun i h => do
    let u ← VecMem.elem ⟨some a, n⟩ i h
    let v ← VecMem.elem ⟨some b, k⟩ i h
    setElem ⟨some a, n⟩ i (g u v) h) hl hz hn (by
      intro i h1 u v hu hv l1 o1
      left
      have hi : i < y.length := by have := (List.getElem?_eq_some_iff.mp hu).1; omega
      have hw := List.getElem?_eq_getElem hi
      rw [l1.elem (by rw [mix_here hz]; exact hu), ok_bind, (o1.line hne hb).elem hw, ok_bind]
      rw [List.getElem?_zipWith, hu, hw] at hv
      cases hv
      rfl)
  refine ⟨h', ?_, p⟩
  unfold addVec
  rw [decide_eq_true (show n = k by omega), cassert_true, ok_bind, if_neg, e]
  unfold VecMem.overlap
  simp only [decide_eq_true_eq]
  exact fun hh => hne hh.1.symm

theorem mulVec_ok (g : F → F → F) {h : Heap F} {a b : Addr} {x y : List F} (hl : Line h a x) (hb : Line h b y)
    (hne : b.block ≠ a.block) (hlen : y.length = x.length) {n k : Int} (hn : n = x.length) (hk : k = y.length) :
    Turns (mulVec g ⟨some a, n⟩ ⟨some b, k⟩) h a x (List.zipWith g x y) := by
  have hz : (List.zipWith g x y).length = x.length := by rw [List.length_zipWith]; omega
  obtain ⟨h', e, p⟩ := loop_line (f := fun i h => do
    let u ← VecMem.elem ⟨some a, n⟩ i h
    let v ← VecMem.get ⟨some b, k⟩ i h
    setElem ⟨some a, n⟩ i (g u v) h) hl hz hn (by
      intro i h1 u v hu hv l1 o1
      left
      have hi : i < y.length := by have := (List.getElem?_eq_some_iff.mp hu).1; omega
      have hw := List.getElem?_eq_getElem hi
      rw [l1.elem (by rw [mix_here hz]; exact hu), ok_bind, (o1.line hne hb).get hw (by omega), ok_bind]
      rw [List.getElem?_zipWith, hu, hw] at hv
      cases hv
      rfl)
  refine ⟨h', ?_, p⟩
  unfold mulVec
  rw [decide_eq_true (show k = n by omega), cassert_true, ok_bind, e]

theorem reluRow_ok (o : Ops F) {h : Heap F} {a : Addr} {x : List F} (hl : Line h a x) {n : Int} (hn : n = x.length) :
    Turns (reluRow o ⟨some a, n⟩) h a x (x.map fun v => if o.lt v o.zero then o.zero else v) := by
  have hz : (x.map fun v => if o.lt v o.zero then o.zero else v).length = x.length := by rw [List.length_map]
  refine loop_line hl hz hn ?_
  intro i h1 u v hu hv l1 o1
  have hi := (List.getElem?_eq_some_iff.mp hu).1
  rw [List.getElem?_map, hu] at hv
  simp only [Option.map_some, Option.some.injEq] at hv
  rw [l1.get (by rw [mix_here hz]; exact hu) (by omega), ok_bind]
  by_cases hc : o.lt u o.zero = true
  · left
    rw [if_pos hc] at hv ⊢
    rw [put_is (by omega), hv]
  · right
    rw [if_neg hc] at hv ⊢
    exact ⟨rfl, hv⟩

/-- A sum over a row. -/
theorem sumLoop_ok {S : Type} {f : Int → S → Exec S} (g : S → F → S) {x : List F} (s : S) {n : Int} (hn : n = x.length)
    (step : ∀ (i : Nat) (u : F) (s : S), x[i]? = some u → f i s = .ok (g s u)) :
    sumLoop n f s = .ok (x.foldl g s) := by
  unfold sumLoop
  rw [show n.toNat = x.length by omega]
  obtain ⟨s', e, p⟩ := range_inv (f := fun s (i : Nat) => f i s) (fun i s' => s' = (x.take i).foldl g s) s (by simp)
    x.length (by
      rintro i s' hi rfl
      have hu := List.getElem?_eq_getElem hi
      refine ⟨_, step i _ _ hu, ?_⟩
      rw [List.take_add_one, hu, List.foldl_append]
      rfl)
  rw [e, p, List.take_length]

theorem normalizeRow_ok (o : Ops F) (d : F) {h : Heap F} {a : Addr} {x : List F} (hl : Line h a x) {n : Int}
    (hn : n = x.length) :
    Turns (normalizeRow o d ⟨some a, n⟩) h a x
      (x.map fun v => o.mul v (o.rootOf d ((x.map fun w => o.mul w w).foldl o.add o.zero))) := by
  have hs : squares o ⟨some a, n⟩ h = .ok ((x.map fun w => o.mul w w).foldl o.add o.zero) := by
    unfold squares
    rw [sumLoop_ok (x := x) (fun s w => o.add s (o.mul w w)) o.zero hn, List.foldl_map]
    intro i u s hu
    rw [hl.elem hu, ok_bind, ok_bind]
  obtain ⟨h', e, p⟩ := mapVec_ok (fun v => o.mul v (o.rootOf d ((x.map fun w => o.mul w w).foldl o.add o.zero))) hl hn
  refine ⟨h', ?_, p⟩
  unfold normalizeRow
  rw [hs, ok_bind, e]

theorem logSoftMaxRow_ok (o : Ops F) {h : Heap F} {a : Addr} {x : List F} (hl : Line h a x) {n : Int}
    (hn : n = x.length) :
    Turns (logSoftMaxRow o ⟨some a, n⟩) h a x
      (x.map fun v => o.sub v (o.log ((x.map o.exp).foldl o.add o.zero))) := by
  have hz : (x.map fun v => o.sub v (o.log ((x.map o.exp).foldl o.add o.zero))).length = x.length := by
    rw [List.length_map]
  have hs : sumLoop n (fun i s => do
      let u ← VecMem.get ⟨some a, n⟩ i h
      .ok (o.add s (o.exp u))) o.zero = .ok ((x.map o.exp).foldl o.add o.zero) := by
    rw [sumLoop_ok (x := x) (fun s w => o.add s (o.exp w)) o.zero hn, List.foldl_map]
    intro i u s hu
    have hi := (List.getElem?_eq_some_iff.mp hu).1
    rw [hl.get hu (by omega), ok_bind]
  unfold Turns logSoftMaxRow
  simp only
  rw [hs]
  simp only [ok_bind]
  refine loop_line hl hz hn ?_
  intro i h1 u v hu hv l1 o1
  have hi := (List.getElem?_eq_some_iff.mp hu).1
  left
  rw [List.getElem?_map, hu] at hv
  cases hv
  rw [l1.get (by rw [mix_here hz]; exact hu) (by omega), ok_bind, put_is (by omega)]

theorem softMaxRow_ok (o : Ops F) {h : Heap F} {a : Addr} {x : List F} (hl : Line h a x) {n : Int}
    (hn : n = x.length) :
    Turns (softMaxRow o ⟨some a, n⟩) h a x
      (x.map fun v => o.div (o.expf v) ((x.map o.expf).foldl o.add o.zero)) := by
  have hy : (x.map o.expf).length = x.length := by rw [List.length_map]
  have h1 : ∃ h1, loopS n (fun i s h => do
      let u ← VecMem.get ⟨some a, n⟩ i h
      let h ← VecMem.put ⟨some a, n⟩ i (o.expf u) h
      .ok (o.add s (o.expf u), h)) o.zero h = .ok ((x.map o.expf).foldl o.add o.zero, h1) ∧
      Line h1 a (x.map o.expf) ∧ Only h h1 a x.length := by
    unfold loopS
    rw [show n.toNat = x.length by omega]
    obtain ⟨p, e, p1, p2, p3⟩ := range_inv (S := F × Heap F) (f := fun p (i : Nat) => do
      let u ← VecMem.get ⟨some a, n⟩ i p.2
      let h ← VecMem.put ⟨some a, n⟩ i (o.expf u) p.2
      .ok (o.add p.1 (o.expf u), h)) (fun i p => p.1 = ((x.map o.expf).take i).foldl o.add o.zero ∧
        Line p.2 a (mix x (x.map o.expf) i) ∧ Only h p.2 a x.length) (o.zero, h)
      ⟨rfl, by rw [mix_zero]; exact hl, .refl _ _ _⟩ x.length (by
        rintro i p hi ⟨q1, q2, q3⟩
        have hu := List.getElem?_eq_getElem hi
        have hv : (x.map o.expf)[i]? = some (o.expf x[i]) := by rw [List.getElem?_map, hu]; rfl
        obtain ⟨h2, e2, l2, o2⟩ := q2.poke (i := i) (by rw [mix_length hy]; exact hi) (o.expf x[i])
        rw [mix_length hy] at o2
        refine ⟨(o.add p.1 (o.expf x[i]), h2), ?_, ?_, ?_, q3.trans o2⟩
        · rw [q2.get (by rw [mix_here hy]; exact hu) (by omega), ok_bind, put_is (by omega), e2, ok_bind]
        · rw [List.take_add_one, hv, List.foldl_append, q1]
          rfl
        · rw [← mix_set hy hv]; exact l2)
    rw [mix_all hy] at p2
    rw [← hy, List.take_length] at p1
    refine ⟨p.2, ?_, p2, p3⟩
    rw [e, ← p1]
  obtain ⟨h1, e1, l1, o1⟩ := h1
  have hz : (x.map fun v => o.div (o.expf v) ((x.map o.expf).foldl o.add o.zero)).length =
      (x.map o.expf).length := by rw [List.length_map, List.length_map]
  obtain ⟨h2, e2, l2, o2⟩ := loop_line (f := fun i h => do
      let u ← VecMem.get ⟨some a, n⟩ i h
      VecMem.put ⟨some a, n⟩ i (o.div u ((x.map o.expf).foldl o.add o.zero)) h) l1 hz (k := n) (by omega) (by
    intro i h3 u v hu hv l3 o3
    have hi := (List.getElem?_eq_some_iff.mp hu).1
    rw [List.getElem?_map] at hu hv
    left
    rw [l3.get (y := u) (by rw [mix_here hz, List.getElem?_map]; exact hu) (by omega), ok_bind, put_is (by omega)]
    cases hx : x[i]? with
    | none => rw [hx] at hu; cases hu
    | some w =>
      rw [hx] at hu hv
      cases hu; cases hv
      rfl)
  refine ⟨h2, ?_, l2, o1.trans (by rw [← hy]; exact o2)⟩
  unfold softMaxRow
  simp only
  rw [e1, ok_bind]
  exact e2

end Verif.NetMem
