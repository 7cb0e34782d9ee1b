import Verif.NetMemLemmas

/-!
# The layers and the network in memory
-/

namespace Verif.NetMem

open Mat (Heap Addr View peek load poke loop poke_ok load_ok)
open VecMem (Vec elem setElem mapVec mulVec addVec subVec copyVec get put)
open Nnet (Ops Layer)
open Nnet.Spec (RowWise Pointwise Built pointwise series layerOn)
open Spec

variable {F : Type}

/-! ## Copying rows -/

theorem memcpy_line {h : Heap F} {a b : Addr} {x y : List F} (hl : Line h a x) (hb : Line h b y)
    (hne : b.block ≠ a.block) (hlen : y.length = x.length) {n : Int} (hn : n = x.length) :
    Turns (Mat.memcpy a b n) h a x y := by
  unfold Turns Mat.memcpy
  rw [if_neg (fun q => hne q.1.symm)]
  refine loop_line hl hlen hn ?_
  intro i h1 u v hu hv l1 o1
  left
  rw [(o1.line hne hb) i v hv]

theorem copyRow_line {h : Heap F} {a b : Addr} {x y : List F} (hl : Line h a x) (hb : Line h b y)
    (hne : b.block ≠ a.block) (hlen : y.length = x.length) {n k : Int} (hn : n = x.length) (hk : k = x.length) :
    Turns (Mat.copyRow a b n k) h a x y := by
  obtain ⟨h', e, p⟩ := memcpy_line hl hb hne hlen hn
  refine ⟨h', ?_, p⟩
  unfold Mat.copyRow
  rw [decide_eq_true (by omega), cassert_true, ok_bind, if_neg (fun q => hne (by rw [q])), e]

theorem copyVec_line {h : Heap F} {a b : Addr} {x y : List F} (hl : Line h a x) (hb : Line h b y)
    (hne : b.block ≠ a.block) (hlen : y.length = x.length) {n k : Int} (hn : n = x.length) (hk : k = x.length) :
    Turns (copyVec ⟨some a, n⟩ ⟨some b, k⟩) h a x y := by
  obtain ⟨h', e, p⟩ := memcpy_line hl hb hne hlen hn
  refine ⟨h', ?_, p⟩
  unfold copyVec
  simp only
  rw [if_neg (by omega)]
  unfold VecMem.copyFrom
  simp only
  rw [decide_eq_true (by omega), cassert_true, ok_bind, if_neg (fun q => hne (by cases q; rfl)), e]

/-! ## Matrices -/

theorem Spec.Shows.proper {h : Heap F} {v : View} {a : Addr} {m : List (List F)} (s : Shows h v a m) : Mat.Proper v a :=
  ⟨s.data, by rw [s.rows]; have := List.length_pos_iff.mpr s.nonempty; omega, s.wide, s.stride, s.size⟩

theorem Spec.Shows.keep {h h' : Heap F} {v : View} {a : Addr} {m : List (List F)} (s : Shows h v a m)
    (k : ∀ b : Addr, b.block = a.block → peek h' b = peek h b) : Shows h' v a m :=
  ⟨s.data, s.nonempty, s.rows, s.cols, s.wide, s.stride, s.size, fun i x hx j y hy =>
    (k ⟨a.block, a.off + i * v.stride + j⟩ rfl).trans (s.line i x hx j y hy)⟩

theorem Spec.Shows.live {h : Heap F} {v : View} {a : Addr} {m : List (List F)} (s : Shows h v a m) : Live h a.block := by
  have h0 := List.length_pos_iff.mpr s.nonempty
  have hx := List.getElem?_eq_getElem h0
  have hw := s.wide
  have hc := s.cols _ (List.getElem_mem h0)
  have hy := List.getElem?_eq_getElem (l := m[0]) (i := 0) (by omega)
  have := live_peek (s.line 0 _ hx 0 _ hy)
  exact this

theorem Spec.Shows.inOrder {h : Heap F} {v : View} {b : Nat} {m : List (List F)} (s : Shows h v ⟨b, 0⟩ m) :
    InOrder h v := by
  refine .inr ⟨b, s.data, s.proper, ?_⟩
  rintro i j ⟨i0, i1, j0, j1⟩
  rw [s.rows] at i1
  have hx := List.getElem?_eq_getElem (l := m) (i := i.toNat) (by omega)
  have hc := s.cols _ (List.getElem_mem (l := m) (n := i.toNat) (by omega))
  have hy := List.getElem?_eq_getElem (l := m[i.toNat]'(by omega)) (i := j.toNat) (by omega)
  have := s.line _ _ hx _ _ hy
  unfold Mat.Spec.place
  rw [show (i.toNat : Int) = i by omega, show (j.toNat : Int) = j by omega] at this
  rw [this]
  rfl

theorem Spec.Shows.block {h : Heap F} {v : View} {a : Addr} {m : List (List F)} (s : Shows h v a m) :
    block v = some a.block := by unfold Spec.block; rw [s.data]; rfl

/-- Only the block `b` has changed, and it is still there. -/
structure Apart (h h' : Heap F) (b : Nat) : Prop where
  other : ∀ a : Addr, a.block ≠ b → peek h' a = peek h a
  shape : Shape h h'

/-- The start of a row. -/
def rowAt (v : View) (a : Addr) (i : Nat) : Addr := ⟨a.block, a.off + i * v.stride⟩

theorem rowOf_ok {v : View} {a : Addr} (p : Mat.Proper v a) {i : Nat} (hi : (i : Int) < v.rows) :
    rowOf v i = .ok ⟨some (rowAt v a i), v.cols⟩ := by
  unfold rowOf
  rw [Mat.row_ok p (by omega) hi, ok_bind]
  unfold Mat.addr rowAt
  rw [Int.add_zero]

/-- Different rows have no elements in common. -/
theorem rows_apart {v : View} {a : Addr} (p : Mat.Proper v a) {i k j : Nat} (hne : i ≠ k) (hj : (j : Int) < v.cols) :
    ¬ ((rowAt v a i).off + j ≥ (rowAt v a k).off ∧ (rowAt v a i).off + j < (rowAt v a k).off + v.cols) := by
  unfold rowAt
  simp only
  have hs := p.stride
  have hc := p.cols
  rintro ⟨h1, h2⟩
  rcases Nat.lt_or_gt_of_ne hne with hlt | hgt
  · have : ((i : Int) + 1) * v.stride ≤ (k : Int) * v.stride := Int.mul_le_mul_of_nonneg_right (by omega) (by omega)
    rw [Int.add_mul, Int.one_mul] at this
    omega
  · have : ((k : Int) + 1) * v.stride ≤ (i : Int) * v.stride := Int.mul_le_mul_of_nonneg_right (by omega) (by omega)
    rw [Int.add_mul, Int.one_mul] at this
    omega

/-- A loop over the rows that replaces those of `m` by those of `z`. -/
theorem rows_loop {f : Int → Heap F → Exec (Heap F)} {h : Heap F} {v : View} {a : Addr} {m z : List (List F)}
    (hs : Shows h v a m) (hz : z.length = m.length) (hw : ∀ y ∈ z, (y.length : Int) = v.cols)
    (step : ∀ (i : Nat) (x y : List F) (h1 : Heap F), m[i]? = some x → z[i]? = some y → Line h1 (rowAt v a i) x →
      Apart h h1 a.block → Turns (f i) h1 (rowAt v a i) x y) :
    ∃ h', loop v.rows f h = .ok h' ∧ Shows h' v a z ∧ Apart h h' a.block := by
  have hp := hs.proper
  obtain ⟨h', e, p1, p2, p3⟩ := loop_nat (f := f) (fun n h1 =>
      (∀ i x, n ≤ i → m[i]? = some x → Line h1 (rowAt v a i) x) ∧
      (∀ i y, i < n → z[i]? = some y → Line h1 (rowAt v a i) y) ∧ Apart h h1 a.block) m.length hs.rows h
    ⟨fun i x _ hx => hs.line i x hx, fun i y hi _ => absurd hi (by omega), ⟨fun _ _ => rfl, .refl h⟩⟩ (by
      rintro i h1 hi ⟨q1, q2, q3⟩
      have hx := List.getElem?_eq_getElem hi
      have hy := List.getElem?_eq_getElem (show i < z.length by omega)
      obtain ⟨h2, e2, l2, o2⟩ := step i _ _ h1 hx hy (q1 i _ (Nat.le_refl _) hx) q3
      have hcx := hs.cols _ (List.getElem_mem hi)
      have far : ∀ k (u : List F), k ≠ i → (u.length : Int) = v.cols → Line h1 (rowAt v a k) u →
          Line h2 (rowAt v a k) u := by
        intro k u hk hu hl j w hwj
        have hj := (List.getElem?_eq_some_iff.mp hwj).1
        rw [o2.other ⟨(rowAt v a k).block, (rowAt v a k).off + j⟩ ?_]
        · exact hl j w hwj
        · rintro ⟨_, g1, g2⟩
          exact rows_apart hp hk (j := j) (by omega) ⟨g1, by simp only at g2; omega⟩
      refine ⟨h2, e2, ?_, ?_, ⟨fun b hb => ?_, q3.shape.trans o2.shape⟩⟩
      · intro k x hk hxk
        exact far k x (by omega) (hs.cols x (List.mem_of_getElem? hxk)) (q1 k x (by omega) hxk)
      · intro k y hk hyk
        by_cases hki : k = i
        · subst hki
          rw [hy] at hyk
          cases hyk
          exact l2
        · exact far k y hki (hw y (List.mem_of_getElem? hyk)) (q2 k y (by omega) hyk)
      · rw [o2.block b (by exact hb), q3.other b hb])
  refine ⟨h', e, ⟨hs.data, ?_, by rw [hz]; exact hs.rows, hw, hs.wide, hs.stride, hs.size, ?_⟩, p3⟩
  · intro hh
    rw [hh] at hz
    exact hs.nonempty (List.length_eq_zero_iff.mp hz.symm)
  · intro i y hy
    exact p2 i y (by have := (List.getElem?_eq_some_iff.mp hy).1; omega) hy

theorem forRows_ok {f : Int → Vec → Heap F → Exec (Heap F)} {h : Heap F} {v : View} {a : Addr} {m z : List (List F)}
    (hs : Shows h v a m) (hz : z.length = m.length) (hw : ∀ y ∈ z, (y.length : Int) = v.cols)
    (step : ∀ (i : Nat) (x y : List F) (h1 : Heap F), m[i]? = some x → z[i]? = some y → Line h1 (rowAt v a i) x →
      Apart h h1 a.block → Turns (f i ⟨some (rowAt v a i), v.cols⟩) h1 (rowAt v a i) x y) :
    ∃ h', forRows v f h = .ok h' ∧ Shows h' v a z ∧ Apart h h' a.block := by
  refine rows_loop hs hz hw ?_
  intro i x y h1 hx hy l1 a1
  have hi := (List.getElem?_eq_some_iff.mp hx).1
  obtain ⟨h2, e2, p⟩ := step i x y h1 hx hy l1 a1
  refine ⟨h2, ?_, p⟩
  beta_reduce
  rw [rowOf_ok hs.proper (by rw [hs.rows]; omega), ok_bind, e2]

/-- `CopyFromMat` between matrices of different blocks. -/
theorem copy_ok {h : Heap F} {d s : View} {a b : Addr} {m z : List (List F)} (hd : Shows h d a m) (hs : Shows h s b z)
    (hz : z.length = m.length) (hc : d.cols = s.cols) (hne : b.block ≠ a.block) :
    ∃ h', Mat.copyFromMat d s h = .ok h' ∧ Shows h' d a z ∧ Apart h h' a.block := by
  obtain ⟨h', e, p⟩ := rows_loop (f := fun i h => do
      let a ← d.row i
      let b ← s.row i
      Mat.copyRow a b d.cols s.cols h) hd hz (fun y hy => by rw [hc]; exact hs.cols y hy) (by
    intro i x y h1 hx hy l1 a1
    have hi := (List.getElem?_eq_some_iff.mp hx).1
    have hxc := hd.cols x (List.mem_of_getElem? hx)
    have hyc := hs.cols y (List.mem_of_getElem? hy)
    have lb : Line h1 (rowAt s b i) y := fun j w hw => by
      rw [a1.other ⟨(rowAt s b i).block, (rowAt s b i).off + j⟩ hne]
      exact hs.line i y hy j w hw
    obtain ⟨h2, e2, p⟩ := copyRow_line (n := d.cols) (k := s.cols) l1 lb (by exact hne) (by omega) (by omega) (by omega)
    refine ⟨h2, ?_, p⟩
    beta_reduce
    rw [Mat.row_ok hd.proper (by omega) (by rw [hd.rows]; omega), ok_bind,
      Mat.row_ok hs.proper (by omega) (by rw [hs.rows]; omega), ok_bind, ← e2]
    unfold Mat.addr rowAt
    rw [Int.add_zero, Int.add_zero])
  refine ⟨h', ?_, p⟩
  unfold Mat.copyFromMat
  rw [decide_eq_true ⟨by rw [hd.rows, hs.rows, hz], hc⟩, cassert_true, ok_bind, e]

/-! ## Change of size -/

/-- The block `old` has been freed and the block `new` allocated (or the one is the other), and nothing else has
happened to the blocks there were. -/
structure Move (h h' : Heap F) (old : Option Nat) (new : Nat) : Prop where
  fresh : old = some new ∨ new = h.length
  kept : ∀ a : Addr, some a.block ≠ old → a.block < h.length → peek h' a = peek h a
  live : ∀ c, Live h' c ↔ (Live h c ∧ some c ≠ old) ∨ c = new
  length : h.length ≤ h'.length

theorem Move.then {h h' h'' : Heap F} {old : Option Nat} {new : Nat} (p : Move h h' old new) (q : Apart h' h'' new) :
    Move h h'' old new := by
  refine ⟨p.fresh, ?_, ?_, by rw [q.shape.length]; exact p.length⟩
  · intro a h1 h2
    rw [q.other a ?_, p.kept a h1 h2]
    rcases p.fresh with g | g
    · intro hh; exact h1 (by rw [g, hh])
    · omega
  · intro c
    rw [q.shape.live, p.live]

theorem Apart.trans {h h' h'' : Heap F} {b : Nat} (p : Apart h h' b) (q : Apart h' h'' b) : Apart h h'' b :=
  ⟨fun a ha => by rw [q.other a ha, p.other a ha], p.shape.trans q.shape⟩

/-- A matrix of zeros. -/
def zeros (o : Ops F) (rows cols : Nat) : List (List F) := List.replicate rows (List.replicate cols o.zero)

theorem destroy_ok {h : Heap F} {v : View} (hv : InOrder h v) :
    ∃ h', Mat.destroy v h = .ok h' ∧ h'.length = h.length ∧ (∀ c, Live h' c ↔ Live h c ∧ some c ≠ block v) ∧
      ∀ a : Addr, some a.block ≠ block v → peek h' a = peek h a := by
  rcases hv with q | ⟨b, q, p, w⟩
  · refine ⟨h, by unfold Mat.destroy; rw [q], rfl, fun c => ?_, fun a _ => rfl⟩
    unfold block
    rw [q]
    simp
  · have := w 0 0 ⟨by omega, p.rows, by omega, p.cols⟩
    have h0 : Mat.Spec.place v ⟨b, 0⟩ 0 0 = ⟨b, 0⟩ := by
      unfold Mat.Spec.place
      rw [Int.zero_mul, Int.add_zero, Int.add_zero]
    rw [h0] at this
    obtain ⟨c0, hc0⟩ := Option.isSome_iff_exists.mp this
    obtain ⟨blk, hb⟩ := live_peek hc0
    simp only at hb
    have hlt := (List.getElem?_eq_some_iff.mp hb).1
    refine ⟨h.set b none, ?_, by rw [List.length_set], ?_, ?_⟩
    · unfold Mat.destroy Mat.free
      rw [q]
      simp only
      rw [hb]
      simp only
      rw [if_pos trivial]
    · intro c
      unfold block Live
      rw [q]
      simp only [Option.map_some, ne_eq, Option.some.injEq]
      by_cases hc : b = c
      · subst hc
        rw [List.getElem?_set_self hlt]
        simp
      · rw [List.getElem?_set_ne hc]
        exact ⟨fun g => ⟨g, fun g' => hc g'.symm⟩, fun g => g.1⟩
    · intro a ha
      unfold block at ha
      rw [q] at ha
      simp only [Option.map_some, ne_eq, Option.some.injEq] at ha
      unfold peek
      rw [List.getElem?_set_ne (fun e => ha e.symm)]

theorem init_append {w : Nat} {pad : Bool} {rows cols : Int} {h h' : Heap F} {v : View} (hp : 0 < rows * cols)
    (e : Mat.init w pad rows cols h = .ok (v, h')) : ∃ blk, h' = h ++ [some blk] := by
  unfold Mat.init at e
  cases h1 : matInit rows cols with
  | error x => rw [h1] at e; cases e
  | ok u =>
    rw [h1, ok_bind, if_neg (by omega)] at e
    simp only at e
    cases h2 : i32 (cols + ((16 / w : Int) - cols % (16 / w : Int)) % (16 / w : Int)) with
    | error x => rw [h2] at e; cases e
    | ok s =>
      rw [h2, ok_bind] at e
      cases e
      exact ⟨_, rfl⟩

theorem shows_zeros {h0 h : Heap F} {v : View} {a : Addr} (o : Ops F) {rows cols : Nat} (p : Mat.Proper v a)
    (hr : v.rows = rows) (hc : v.cols = cols) (s : Mat.Vs h0 h v a (fun _ _ => some o.zero)) :
    Shows h v a (zeros o rows cols) := by
  have h1 := p.rows
  have h2 := p.cols
  refine ⟨p.data, ?_, by rw [zeros, List.length_replicate, hr], ?_, p.cols, p.stride, p.size, ?_⟩
  · unfold zeros
    intro hh
    have := congrArg List.length hh
    rw [List.length_replicate, List.length_nil] at this
    omega
  · intro x hx
    rw [List.eq_of_mem_replicate hx, List.length_replicate, hc]
  · intro i x hx j y hy
    unfold zeros at hx
    have hi : i < rows := by
      have := (List.getElem?_eq_some_iff.mp hx).1
      rwa [List.length_replicate] at this
    have hx' := List.eq_of_mem_replicate (List.mem_of_getElem? hx)
    subst hx'
    have hj : j < cols := by
      have := (List.getElem?_eq_some_iff.mp hy).1
      rwa [List.length_replicate] at this
    have hy' := List.eq_of_mem_replicate (List.mem_of_getElem? hy)
    subst hy'
    exact s.here i j (by omega) (by omega) (by omega) (by omega)

/-- `out->Resize(rows, cols)`. -/
theorem resize_ok (o : Ops F) {h : Heap F} {v : View} (hv : InOrder h v) {rows cols : Nat} (hr : 0 < rows)
    (hc : 0 < cols) (hsize : rows * cols ≤ 2147483647) (hc' : cols ≤ 2147483632) :
    ∃ v' b h', resizeTo o v rows cols h = .ok (v', h') ∧ Shows h' v' ⟨b, 0⟩ (zeros o rows cols) ∧ v'.cols = cols ∧
      Move h h' (block v) b := by
  have hmul : ((rows * cols : Nat) : Int) = (rows : Int) * cols := Int.natCast_mul ..
  unfold resizeTo Mat.resizePlain
  by_cases hsame : v.data ≠ none ∧ (rows : Int) = v.rows ∧ (cols : Int) = v.cols
  · rw [if_pos hsame]
    rcases hv with q | ⟨b, q, p, w⟩
    · exact absurd q hsame.1
    · obtain ⟨h', e, s⟩ := Mat.setZero_ok p (Mat.vs_start w) o.zero
      have hsh := setZero_shape e
      have hs := shows_zeros o p hsame.2.1.symm hsame.2.2.symm s
      have hb : block v = some b := by unfold block; rw [q]; rfl
      refine ⟨v, b, h', ?_, hs, hsame.2.2.symm, .inl hb, ?_, ?_, by rw [hsh.length]⟩
      · show (Mat.setZero o.zero v h >>= fun h => _) = _
        rw [e, ok_bind]
      · intro a ha _
        apply s.other
        rintro i j _ _ _ _ rfl
        exact ha hb.symm
      · intro c
        rw [hsh.live, hb]
        constructor
        · intro g
          by_cases hcb : c = b
          · exact .inr hcb
          · exact .inl ⟨g, fun q => hcb (Option.some.inj q)⟩
        · rintro (g | rfl)
          · exact g.1
          · exact (hsh.live c).mp hs.live
  · rw [if_neg hsame]
    obtain ⟨k, ek, kl, klive, kpeek⟩ := destroy_ok hv
    have hpos : 0 < (rows : Int) * cols := Int.mul_pos (by omega) (by omega)
    obtain ⟨t, k1, et, pt, tr, tc, st, told, _⟩ := Mat.init_ok (F := F) (w := 4) (.inr (.inl rfl)) false
      (rows := rows) (cols := cols) (by omega) (by omega)
      (by rw [if_neg (by decide), Int.add_zero]; omega) (by omega) k
    obtain ⟨blk, hblk⟩ := init_append hpos et
    obtain ⟨k2, e2, s2⟩ := Mat.setZero_ok pt st o.zero
    have hsh := setZero_shape e2
    have hs := shows_zeros o pt tr tc s2
    refine ⟨t, k.length, k2, ?_, hs, tc, .inr kl, ?_, ?_, ?_⟩
    · rw [ek, ok_bind, et, ok_bind]
      show (Mat.setZero o.zero t k1 >>= fun h => _) = _
      rw [e2, ok_bind]
    · intro a ha hlt
      rw [s2.other a ?_, told a (by omega), kpeek a ha]
      rintro i j _ _ _ _ rfl
      simp only [Mat.addr] at hlt
      omega
    · intro c
      rw [hsh.live, ← klive, hblk]
      unfold Live
      by_cases hcl : c < k.length
      · rw [List.getElem?_append_left hcl]
        constructor
        · exact .inl
        · rintro (g | g)
          · exact g
          · omega
      · by_cases hce : c = k.length
        · subst hce
          rw [List.getElem?_concat_length]
          exact ⟨fun _ => .inr rfl, fun _ => ⟨blk, rfl⟩⟩
        · have h1 : (k ++ [some blk])[c]? = none := by
            rw [List.getElem?_eq_none_iff, List.length_append, List.length_singleton]; omega
          have h2 : k[c]? = none := by rw [List.getElem?_eq_none_iff]; omega
          rw [h1, h2]
          constructor
          · rintro ⟨_, g⟩; cases g
          · rintro (⟨_, g⟩ | g)
            · cases g
            · exact absurd g hce
    · rw [hsh.length, hblk, List.length_append, kl]
      omega

/-- A matrix elsewhere is as it was. -/
theorem Move.shows {h h' : Heap F} {old : Option Nat} {new : Nat} (p : Move h h' old new) {v : View} {a : Addr}
    {m : List (List F)} (s : Shows h v a m) (hne : some a.block ≠ old) : Shows h' v a m := by
  apply s.keep
  intro b hb
  exact p.kept b (by rw [hb]; exact hne) (by rw [hb]; exact live_lt s.live)

theorem Move.ne {h h' : Heap F} {old : Option Nat} {new : Nat} (p : Move h h' old new) {b : Nat} (hb : b < h.length)
    (hne : some b ≠ old) : b ≠ new := by
  rcases p.fresh with g | g
  · rintro rfl; exact hne g.symm
  · omega

/-! ## The product -/

theorem mapM_range {α : Type} {f : Nat → Exec α} {l : List α} {n : Nat} (hn : n = l.length)
    (hf : ∀ i x, l[i]? = some x → f i = .ok x) : (List.range n).mapM f = .ok l := by
  subst hn
  have key : ∀ (k : Nat) (l : List α), (∀ i x, l[i]? = some x → f (k + i) = .ok x) →
      (List.range' k l.length).mapM f = .ok l := by
    intro k l
    induction l generalizing k with
    | nil => intro _; rfl
    | cons y ys ih =>
      intro hf
      rw [List.length_cons, List.range'_succ, List.mapM_cons, show f k = .ok y from hf 0 y rfl, ok_bind,
        ih (k + 1) (fun i x hx => by rw [show k + 1 + i = k + (i + 1) by omega]; exact hf (i + 1) x hx)]
      rfl
  rw [List.range_eq_range']
  exact key 0 l (fun i x hx => by rw [Nat.zero_add]; exact hf i x hx)

theorem readRows_ok {h : Heap F} {v : View} {a : Addr} {m : List (List F)} (s : Shows h v a m) :
    readRows a v.rows v.cols v.stride h = .ok m := by
  unfold readRows
  apply mapM_range (by rw [s.rows]; omega)
  intro i x hx
  unfold readLine
  apply mapM_range (by have := s.cols x (List.mem_of_getElem? hx); omega)
  intro j y hy
  exact (s.line i x hx).load hy

/-- `MatMat`. -/
theorem matMat_ok {o : Ops F} {vm : List F → List (List F) → List F} (hvm : RowWise o vm) {h : Heap F} {A B C : View}
    {a b c : Addr} {m W z : List (List F)} (sA : Shows h A a m) (sB : Shows h B b W) (sC : Shows h C c z)
    (h1 : A.cols = B.rows) (h2 : A.rows = C.rows) (h3 : B.cols = C.cols) (ha : a.block ≠ c.block)
    (hb : b.block ≠ c.block) :
    ∃ h', matMat o A B C h = .ok h' ∧ Shows h' C c (m.map fun x => vm x W) ∧ Apart h h' c.block := by
  have hx : ∀ x ∈ m, x.length = W.length := fun x hx => by have := sA.cols x hx; have := sB.rows; omega
  have hg : o.gemm m W = m.map fun x => vm x W := hvm.gemm m W hx
  have hlen : ∀ y ∈ m.map (fun x => vm x W), (y.length : Int) = C.cols := by
    intro y hy
    obtain ⟨x, hxm, rfl⟩ := List.mem_map.mp hy
    have hw := sB.wide
    rw [hvm.size x W B.cols.toNat (hx x hxm) sB.nonempty (fun y hy => by have := sB.cols y hy; omega), ← h3]
    omega
  have hmz : (m.map fun x => vm x W).length = z.length := by
    rw [List.length_map]
    have := sA.rows; have := sC.rows; omega
  obtain ⟨h', e, p⟩ := rows_loop (f := fun i h => do
      let row ← aget (m.map fun x => vm x W) i
      loop B.cols (fun j h => do
        let x ← aget row j
        poke h ⟨c.block, c.off + i * C.stride + j⟩ (some x)) h) sC hmz hlen (by
    intro i x y hh hzi hyi l1 _
    unfold Turns
    beta_reduce
    rw [aget_nat hyi]
    simp only [ok_bind]
    have e1 := sC.cols x (List.mem_of_getElem? hzi)
    have e2 := hlen y (List.mem_of_getElem? hyi)
    refine loop_line l1 (by omega) (by omega) ?_
    intro j h2 u w hu hw _ _
    left
    rw [aget_nat hw, ok_bind]
    rfl)
  refine ⟨h', ?_, p⟩
  unfold matMat
  rw [decide_eq_true ⟨h1, h2, h3⟩, cassert_true, ok_bind, sA.data, sB.data, sC.data]
  simp only
  unfold sgemm
  have := sA.proper.rows; have := sA.wide; have := sA.stride; have := sB.wide; have := sB.stride; have := sC.stride
  rw [decide_eq_true ⟨by omega, by omega, by omega, by omega, by omega, by omega⟩, cassert_true, ok_bind, if_neg,
    readRows_ok sA, ok_bind]
  · rw [h1, readRows_ok sB, ok_bind, hg]
    unfold writeRows
    rw [h2]
    exact e
  · unfold spansMeet
    simp only [Bool.or_eq_true, decide_eq_true_eq]
    rintro (⟨q, _⟩ | ⟨q, _⟩)
    · exact ha q
    · exact hb q

end Verif.NetMem
