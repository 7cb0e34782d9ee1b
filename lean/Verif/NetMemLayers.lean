import Verif.NetMemRun

/-!
# Each layer in memory does what it does to lists of rows
-/

namespace Verif.NetMem

open Mat (Heap Addr View peek load poke loop)
open VecMem (Vec mulVec addVec subVec copyVec)
open Nnet (Ops Layer spliced clamp)
open Nnet.Spec (RowWise Pointwise Built pointwise series layerOn)
open Spec

variable {F : Type}

/-! ## What is left alone -/

/-- All that was there at first still is. -/
structure Base (h0 h : Heap F) : Prop where
  kept : ∀ a : Addr, a.block < h0.length → peek h a = peek h0 a
  length : h0.length ≤ h.length

theorem Base.refl (h : Heap F) : Base h h := ⟨fun _ _ => rfl, Nat.le_refl _⟩

theorem Move.ge {h0 h h' : Heap F} {old : Option Nat} {new : Nat} (p : Move h h' old new) (B : Base h0 h)
    (ho : ∀ b, old = some b → h0.length ≤ b) : h0.length ≤ new := by
  rcases p.fresh with g | g
  · exact ho new g
  · rw [g]; exact B.length

theorem Base.move {h0 h h' : Heap F} {old : Option Nat} {new : Nat} (B : Base h0 h) (p : Move h h' old new)
    (ho : ∀ b, old = some b → h0.length ≤ b) : Base h0 h' :=
  ⟨fun a ha => by
    rw [p.kept a (fun q => by have := ho _ q.symm; omega) (by have := B.length; omega), B.kept a ha],
    Nat.le_trans B.length p.length⟩

theorem Base.apart {h0 h h' : Heap F} {b : Nat} (B : Base h0 h) (p : Apart h h' b) (hb : h0.length ≤ b) : Base h0 h' :=
  ⟨fun a ha => by rw [p.other a (by omega), B.kept a ha], by rw [p.shape.length]; exact B.length⟩

theorem line_lt {h : Heap F} {a : Addr} {x : List F} (hl : Line h a x) (hx : x ≠ []) : a.block < h.length := by
  have h0 := List.length_pos_iff.mpr hx
  have := Mat.peek_block (hl 0 _ (List.getElem?_eq_getElem h0))
  exact this

theorem Base.line {h0 h : Heap F} (B : Base h0 h) {a : Addr} {x : List F} (hl : Line h0 a x) : Line h a x := by
  intro i y hy
  have hne : x ≠ [] := by rintro rfl; cases hy
  exact (B.kept ⟨a.block, a.off + i⟩ (show a.block < _ from line_lt hl hne)).trans (hl i y hy)

theorem Base.shows {h0 h : Heap F} (B : Base h0 h) {v : View} {a : Addr} {m : List (List F)} (s : Shows h0 v a m) :
    Shows h v a m := s.keep (fun b hb => B.kept b (by rw [hb]; exact live_lt s.live))

/-- What a layer has to achieve. -/
def Done (h : Heap F) (r : Exec (View × Heap F)) (old : Option Nat) (z : List (List F)) (e : Nat) : Prop :=
  ∃ v b h', r = .ok (v, h') ∧ Shows h' v ⟨b, 0⟩ z ∧ v.cols = e ∧ Move h h' old b

/-! ## Layers that copy their input and change it row by row -/

theorem copy_resized (o : Ops F) {h0 h : Heap F} (B : Base h0 h) {vin vout : View} {a : Addr} {m : List (List F)}
    (hin : Shows h vin a m) (hout : InOrder h vout) (hne : some a.block ≠ block vout)
    (hob : ∀ b, block vout = some b → h0.length ≤ b) {d : Nat} (hd : vin.cols = d) (hsize : m.length * d ≤ 2147483647)
    (hc' : d ≤ 2147483632) :
    ∃ v b h1 h2, resizeTo o vout vin.rows vin.cols h = .ok (v, h1) ∧ Mat.copyFromMat v vin h1 = .ok h2 ∧
      Shows h2 v ⟨b, 0⟩ m ∧ v.cols = d ∧ Move h h2 (block vout) b ∧ Base h0 h2 ∧ h0.length ≤ b := by
  have hpos := List.length_pos_iff.mpr hin.nonempty
  have hw := hin.wide
  obtain ⟨v, b, h1, e1, s1, c1, m1⟩ := resize_ok o hout hpos (by omega : 0 < d) hsize hc'
  obtain ⟨h2, e2, s2, a2⟩ := copy_ok s1 (m1.shows hin hne) (by unfold zeros; rw [List.length_replicate])
    (by rw [c1, hd]) (m1.ne (live_lt hin.live) hne)
  refine ⟨v, b, h1, h2, by rw [hin.rows, hd]; exact e1, e2, s2, c1, m1.then a2,
    B.move (m1.then a2) hob, m1.ge B hob⟩

theorem copyAnd_ok (o : Ops F) {h0 h : Heap F} (B : Base h0 h) {vin vout : View} {a : Addr} {m : List (List F)}
    (hin : Shows h vin a m) (hout : InOrder h vout) (hne : some a.block ≠ block vout)
    (hob : ∀ b, block vout = some b → h0.length ≤ b) {d : Nat} (hd : vin.cols = d) (hsize : m.length * d ≤ 2147483647)
    (hc' : d ≤ 2147483632) {f : Int → Vec → Heap F → Exec (Heap F)} {g : List F → List F}
    (hg : ∀ x ∈ m, (g x).length = x.length)
    (step : ∀ (i : Nat) (x : List F) (h1 : Heap F) (c : Addr), x ∈ m → Line h1 c x → Base h0 h1 → h0.length ≤ c.block →
      Turns (f i ⟨some c, (d : Int)⟩) h1 c x (g x)) :
    Done h (copyAnd o f vin vout h) (block vout) (m.map g) d := by
  obtain ⟨v, b, h1, h2, e1, e2, s2, c2, m2, B2, hb⟩ := copy_resized o B hin hout hne hob hd hsize hc'
  obtain ⟨h3, e3, s3, a3⟩ := forRows_ok (f := f) (z := m.map g) s2 (by rw [List.length_map]) (by
      intro y hy
      obtain ⟨x, hx, rfl⟩ := List.mem_map.mp hy
      rw [hg x hx]
      exact s2.cols x hx) (by
      intro i x y h3 hx hy l3 a3
      rw [List.getElem?_map, hx] at hy
      cases hy
      rw [c2]
      exact step i x h3 _ (List.mem_of_getElem? hx) l3 (B2.apart a3 hb) hb)
  refine ⟨v, b, h3, ?_, s3, c2, m2.then a3⟩
  unfold copyAnd
  rw [e1]
  simp only [ok_bind]
  rw [e2, ok_bind, e3, ok_bind]

/-- The layers that treat every row for itself. -/
theorem pointwise_done {o : Ops F} {vm : List F → List (List F) → List F} (hvm : RowWise o vm) {h0 h : Heap F}
    (B : Base h0 h) {M : LayerM} {l : Layer F} (hst : Stored h0 M l) {d e : Nat} (hl : Pointwise l d e) {vin vout : View}
    {a : Addr} {m : List (List F)} (hin : Shows h vin a m) (hout : InOrder h vout) (hne : some a.block ≠ block vout)
    (hob : ∀ b, block vout = some b → h0.length ≤ b) (hd : vin.cols = d) (he : 1 ≤ e) (hd1 : m.length * d ≤ 2147483647)
    (hd2 : d ≤ 2147483632) (he1 : m.length * e ≤ 2147483647) (he2 : e ≤ 2147483632) :
    Done h (M.propagate o vin vout h) (block vout) (m.map fun x => pointwise o vm x l) e := by
  have hx : ∀ x ∈ m, x.length = d := fun x hx => by have := hin.cols x hx; omega
  have hpos := List.length_pos_iff.mpr hin.nonempty
  have hsz := fun x (hxm : x ∈ m) => Nnet.pointwise_size hvm hl (hx x hxm)
  cases hst with
  | linear hW hb =>
    rename_i W b aW MW xb
    cases hl with
    | linear g0 g1 g2 g3 =>
      obtain ⟨hbd, ab, hba, hbl⟩ := hb
      have hWr := hW.rows
      have hWc : W.cols = e := by
        have h1 := hW.cols _ (List.getElem_mem (List.length_pos_iff.mpr g0))
        rw [g2 _ (List.getElem_mem _)] at h1
        exact h1.symm
      obtain ⟨v, b1, h1, e1, s1, c1, m1⟩ := resize_ok o hout hpos (by omega : 0 < e) he1 he2
      have B1 := B.move m1 hob
      have hge := m1.ge B hob
      have hWb := live_lt hW.live
      obtain ⟨h2, e2, s2, a2⟩ := matMat_ok hvm (m1.shows hin hne) (B1.shows hW) s1 (by rw [hd, hWr, g1])
        (by rw [hin.rows, s1.rows]; unfold zeros; rw [List.length_replicate]) (by rw [hWc, c1])
        (m1.ne (live_lt hin.live) hne) (by exact Nat.ne_of_lt (Nat.lt_of_lt_of_le hWb hge))
      have B2 := B1.apart a2 hge
      obtain ⟨h3, e3, s3, a3⟩ := forRows_ok (f := fun _ r h => addVec o.add r b h)
        (z := m.map fun x => pointwise o vm x (.linear MW xb)) s2 (by rw [List.length_map, List.length_map]) (by
          intro y hy
          obtain ⟨x, hxm, rfl⟩ := List.mem_map.mp hy
          rw [hsz x hxm, c1]) (by
          intro i x y h3 hxi hyi l3 a3
          rw [List.getElem?_map] at hxi hyi
          cases hmi : m[i]? with
          | none => rw [hmi] at hxi; cases hxi
          | some w =>
            rw [hmi] at hxi hyi
            cases hxi; cases hyi
            beta_reduce at l3 ⊢
            have hwm := List.mem_of_getElem? hmi
            have hlen : (vm w MW).length = e := hvm.size w MW e (by rw [hx w hwm, g1]) g0 g2
            rw [c1, show b = ⟨some ab, (xb.length : Int)⟩ by cases b; cases hba; cases hbd; rfl]
            have hne' : xb ≠ [] := by rintro rfl; simp at g3; omega
            exact addVec_ok o.add l3 ((B2.apart a3 hge).line hbl)
              (Nat.ne_of_lt (Nat.lt_of_lt_of_le (line_lt hbl hne') hge)) (by omega) (by omega) rfl)
      refine ⟨v, b1, h3, ?_, s3, c1, (m1.then a2).then a3⟩
      show linearM o W b vin vout h = _
      unfold linearM
      rw [decide_eq_true (by omega), cassert_true, ok_bind, hin.rows, hWc, e1]
      simp only [ok_bind]
      rw [e2, ok_bind, e3, ok_bind]
  | relu =>
    cases hl
    exact copyAnd_ok o B hin hout hne hob hd hd1 hd2 (fun x hxm => by rw [hsz x hxm, hx x hxm])
      (fun i x h1 c hxm l1 _ _ => reluRow_ok o l1 (by rw [hx x hxm]))
  | normalize =>
    cases hl
    refine copyAnd_ok o B hin hout hne hob hd hd1 hd2 (fun x hxm => by rw [hsz x hxm, hx x hxm])
      (fun i x h1 c hxm l1 _ _ => ?_)
    have := normalizeRow_ok o (o.ofInt vin.cols) l1 (n := d) (by rw [hx x hxm])
    rw [show pointwise o vm x .normalize = x.map fun v => o.mul v (o.rootOf (o.ofInt x.length)
      ((x.map fun w => o.mul w w).foldl o.add o.zero)) from rfl, hx x hxm, ← hd]
    rw [← hd] at this
    exact this
  | softmax =>
    cases hl
    exact copyAnd_ok o B hin hout hne hob hd hd1 hd2 (fun x hxm => by rw [hsz x hxm, hx x hxm])
      (fun i x h1 c hxm l1 _ _ => softMaxRow_ok o l1 (by rw [hx x hxm]))
  | logSoftmax =>
    cases hl
    exact copyAnd_ok o B hin hout hne hob hd hd1 hd2 (fun x hxm => by rw [hsz x hxm, hx x hxm])
      (fun i x h1 c hxm l1 _ _ => logSoftMaxRow_ok o l1 (by rw [hx x hxm]))
  | splice => cases hl
  | narrow => cases hl
  | batchNorm hs ht =>
    rename_i s t xs xt
    cases hl with
    | batchNorm g1 g2 =>
      obtain ⟨hsd, as, hsa, hsl⟩ := hs
      obtain ⟨htd, at', hta, htl⟩ := ht
      have key := copyAnd_ok o B hin hout hne hob hd hd1 hd2 (f := fun _ r h => do
          let h ← mulVec o.mul r s h
          addVec o.add r t h) (g := fun x => pointwise o vm x (.batchNorm xs xt))
        (fun x hxm => by rw [hsz x hxm, hx x hxm])
        (fun i x h1 c hxm l1 B1 hc => by
          have n1 : xs ≠ [] := by rintro rfl; simp at g1; omega
          have n2 : xt ≠ [] := by rintro rfl; simp at g2; omega
          have hxd := hx x hxm
          rw [show s = ⟨some as, (xs.length : Int)⟩ by cases s; cases hsa; cases hsd; rfl,
            show t = ⟨some at', (xt.length : Int)⟩ by cases t; cases hta; cases htd; rfl]
          obtain ⟨h2, e2, l2, o2⟩ := mulVec_ok o.mul l1 (B1.line hsl)
            (Nat.ne_of_lt (Nat.lt_of_lt_of_le (line_lt hsl n1) hc)) (by omega) (n := d) (by omega) rfl
          have hzl : (List.zipWith o.mul x xs).length = x.length := by rw [List.length_zipWith]; omega
          obtain ⟨h3, e3, l3, o3⟩ := addVec_ok o.add l2
            (o2.line (Nat.ne_of_lt (Nat.lt_of_lt_of_le (line_lt htl n2) hc)) (B1.line htl))
            (Nat.ne_of_lt (Nat.lt_of_lt_of_le (line_lt htl n2) hc)) (by omega) (n := d) (by omega) rfl
          refine ⟨h3, ?_, l3, o2.trans (by rw [← hzl]; exact o3)⟩
          beta_reduce
          rw [e2, ok_bind, e3])
      show Done h (batchNormM o s t vin vout h) _ _ _
      unfold batchNormM
      rw [decide_eq_true (by omega), cassert_true, ok_bind]
      exact key

/-! ## Splicing -/

theorem line_append {h : Heap F} {a : Addr} {x y : List F} :
    Line h a (x ++ y) ↔ Line h a x ∧ Line h ⟨a.block, a.off + x.length⟩ y := by
  constructor
  · intro hl
    refine ⟨fun i u hu => hl i u ?_, fun i u hu => ?_⟩
    · rw [List.getElem?_append_left (List.getElem?_eq_some_iff.mp hu).1, hu]
    · have := hl (x.length + i) u (by rw [List.getElem?_append_right (by omega), Nat.add_sub_cancel_left, hu])
      rw [Int.natCast_add, ← Int.add_assoc] at this
      exact this
  · rintro ⟨h1, h2⟩ i u hu
    by_cases hi : i < x.length
    · exact h1 i u (by rw [List.getElem?_append_left hi] at hu; exact hu)
    · rw [List.getElem?_append_right (by omega)] at hu
      have := h2 _ u hu
      simp only at this
      rw [show a.off + (x.length : Int) + ((i - x.length : Nat) : Int) = a.off + i by omega] at this
      exact this

theorem Only.apart_line {h h' : Heap F} {a b : Addr} {n : Nat} (p : Only h h' a n) {x : List F}
    (hb : b.off + x.length ≤ a.off ∨ a.off + n ≤ b.off) (hl : Line h b x) : Line h' b x := by
  intro i y hy
  have hi := (List.getElem?_eq_some_iff.mp hy).1
  rw [p.other ⟨b.block, b.off + i⟩ (by rintro ⟨_, g1, g2⟩; simp only at g1 g2; omega)]
  exact hl i y hy

theorem Only.within {h h' : Heap F} {a b : Addr} {n k : Nat} (p : Only h h' a n) (hblk : a.block = b.block)
    (h1 : b.off ≤ a.off) (h2 : a.off + n ≤ b.off + k) : Only h h' b k :=
  ⟨fun c hc => p.other c (fun q => hc ⟨by rw [q.1, hblk], by omega, by omega⟩), p.shape⟩

theorem subVec_ok {h : Heap F} {c : Addr} {n : Int} {acc rest : List F} (hl : Line h c (acc ++ rest)) (hr : rest ≠ [])
    {o d : Int} (ho : o = acc.length) (hd : 0 ≤ d) (h1 : o + d ≤ n) (h2 : n ≤ 2147483647) :
    subVec ⟨some c, n⟩ o d h = .ok ⟨some ⟨c.block, c.off + acc.length⟩, d⟩ := by
  have h0 := List.length_pos_iff.mpr hr
  have hp := (line_append.mp hl).2 0 _ (List.getElem?_eq_getElem h0)
  obtain ⟨blk, hb⟩ := live_peek hp
  have hb' : h[c.block]? = some (some blk) := hb
  unfold peek at hp
  rw [hb] at hp
  simp only at hp
  have hoff : 0 ≤ c.off + acc.length ∧ c.off + (acc.length : Int) ≤ blk.length := by
    split at hp
    · next g =>
      have := (List.getElem?_eq_some_iff.mp hp).1
      exact ⟨by omega, by omega⟩
    · cases hp
  unfold subVec
  rw [i32_of ⟨by omega, by omega⟩, ok_bind]
  simp only
  rw [decide_eq_true (by exact h1), cassert_true, ok_bind]
  unfold VecMem.advance
  simp only
  rw [hb']
  simp only
  rw [ho, if_pos hoff, ok_bind]

theorem spliceRow_done {h0 : Heap F} {vin : View} {a : Addr} {m : List (List F)} (hin : Shows h0 vin a m) {d N : Nat}
    (hd : vin.cols = d) (hN : (N : Int) ≤ 2147483647) (i : Nat) {c : Addr} (hne : a.block ≠ c.block) :
    ∀ (cs : List Int) (acc rest : List F) (h : Heap F), (∀ k ∈ cs, InI32 ((i : Int) + k)) →
      acc.length + rest.length = N → rest.length = cs.length * d → Line h c (acc ++ rest) →
      (∀ b : Addr, b.block = a.block → peek h b = peek h0 b) →
      ∃ h', spliceRow vin N i ⟨some c, (N : Int)⟩ cs acc.length h = .ok h' ∧
        Line h' c (acc ++ cs.flatMap fun k => (m[clamp m.length ((i : Int) + k)]?).getD []) ∧ Only h h' c N
  | [], acc, rest, h, _, h1, h2, hl, _ => by
    simp only [List.length_nil, Nat.zero_mul, List.length_eq_zero_iff] at h2
    subst h2
    refine ⟨h, ?_, by simpa using hl, .refl _ _ _⟩
    unfold spliceRow
    rw [decide_eq_true (by simp only [List.length_nil] at h1; omega), cassert_true, ok_bind]
  | k :: cs, acc, rest, h, hk, h1, h2, hl, hkeep => by
    have hpos : 0 < m.length := List.length_pos_iff.mpr hin.nonempty
    have hwide := hin.wide
    have hcl := Nnet.clamp_lt hpos ((i : Int) + k)
    rw [List.length_cons, Nat.add_mul, Nat.one_mul] at h2
    have hcnt : (if (if (i : Int) + k < 0 then 0 else (i : Int) + k) > vin.rows - 1 then
        vin.rows - 1 else (if (i : Int) + k < 0 then 0 else (i : Int) + k)) =
        ((clamp m.length ((i : Int) + k) : Nat) : Int) := by
      rw [hin.rows]
      unfold clamp
      split <;> split <;> try split
      all_goals omega
    have hrow := List.getElem?_eq_getElem hcl
    have hrl := hin.cols _ (List.getElem_mem hcl)
    have hsplit : rest = rest.take d ++ rest.drop d := (List.take_append_drop d rest).symm
    have htl : (rest.take d).length = d := by rw [List.length_take]; omega
    have hl' := hl
    rw [hsplit, ← List.append_assoc, line_append, line_append] at hl'
    obtain ⟨⟨la, lt⟩, lr⟩ := hl'
    have lrow : Line h (rowAt vin a (clamp m.length ((i : Int) + k))) m[clamp m.length ((i : Int) + k)] :=
      fun j w hw => (hkeep ⟨a.block, (rowAt vin a (clamp m.length ((i : Int) + k))).off + j⟩ rfl).trans
        (hin.line _ _ hrow j w hw)
    obtain ⟨h2', e2, l2, o2⟩ := copyVec_line (n := d) (k := d) lt lrow (by exact hne) (by omega) (by omega) (by omega)
    rw [htl] at o2
    have hacc := o2.apart_line (b := c) (.inl (by simp)) la
    have hrest := o2.apart_line (.inr (by simp only [List.length_append, htl]; omega)) lr
    have hnew : Line h2' c ((acc ++ m[clamp m.length ((i : Int) + k)]) ++ rest.drop d) := by
      rw [line_append, line_append]
      refine ⟨⟨hacc, l2⟩, ?_⟩
      rw [List.length_append, show m[clamp m.length ((i : Int) + k)].length = (rest.take d).length by omega,
        ← List.length_append]
      exact hrest
    obtain ⟨h3, e3, l3, o3⟩ := spliceRow_done hin hd hN i hne cs (acc ++ m[clamp m.length ((i : Int) + k)]) (rest.drop d) h2'
      (fun k' hk' => hk k' (by simp [hk'])) (by rw [List.length_append, List.length_drop]; omega)
      (by rw [List.length_drop]; omega) hnew (fun b hb => by rw [o2.block b (by rw [hb]; exact hne), hkeep b hb])
    refine ⟨h3, ?_, ?_, (o2.within (b := c) (k := N) rfl (by simp) (by simp only; omega)).trans o3⟩
    · unfold spliceRow
      rw [i32_of (hk k (by simp)), ok_bind]
      simp only
      rw [hcnt, hd, subVec_ok hl (by intro hh; rw [hh, List.length_nil] at h2; omega) rfl (by omega) (by omega) hN,
        ok_bind, rowOf_ok hin.proper (by rw [hin.rows]; omega), ok_bind, hd, e2, ok_bind,
        i32_of (by unfold InI32; omega), ok_bind]
      rw [List.length_append, show m[clamp m.length ((i : Int) + k)].length = d by omega] at e3
      rw [show (acc.length : Int) + (d : Int) = ((acc.length + d : Nat) : Int) by omega]
      exact e3
    · rw [List.flatMap_cons, hrow, Option.getD_some, ← List.append_assoc]
      exact l3

theorem splice_done (o : Ops F) {h : Heap F} {vin vout : View} {a : Addr} {m : List (List F)}
    (hin : Shows h vin a m) (hout : InOrder h vout) (hne : some a.block ≠ block vout)
    {d : Nat} (hd : vin.cols = d) {idx : List Int} (hi : idx ≠ [])
    (hsize : m.length * (idx.length * d) ≤ 2147483647) (hc' : idx.length * d ≤ 2147483632)
    (hidx : ∀ i : Nat, i < m.length → ∀ c ∈ idx, InI32 ((i : Int) + c)) :
    Done h (spliceM o idx vin vout h) (block vout) (spliced m idx) (idx.length * d) := by
  have hpos : 0 < m.length := List.length_pos_iff.mpr hin.nonempty
  have hil : 0 < idx.length := List.length_pos_iff.mpr hi
  have hwide := hin.wide
  have hx : ∀ x ∈ m, x.length = d := fun x hx => by have := hin.cols x hx; omega
  have hmul : 0 < idx.length * d := Nat.mul_pos hil (by omega)
  have hwr : wrap32 ((idx.length : Int) * d) = ((idx.length * d : Nat) : Int) := by
    rw [← Int.natCast_mul]
    exact wrap32_of ⟨by omega, by omega⟩
  obtain ⟨v, b, h1, e1, s1, c1, m1⟩ := resize_ok o hout hpos hmul hsize hc'
  have hin1 := m1.shows hin hne
  have hab := m1.ne (live_lt hin.live) hne
  obtain ⟨h2, e2, s2, a2⟩ := forRows_ok
    (f := fun i r h => spliceRow vin ((idx.length * d : Nat) : Int) i r idx 0 h) (z := spliced m idx) s1
    (by rw [Nnet.spliced_length]; unfold zeros; rw [List.length_replicate])
    (fun y hy => by rw [Nnet.spliced_size hpos hx idx y hy, c1]) (by
      intro i x y h3 hxi hyi l3 a3
      have hi' : i < m.length := by
        have := (List.getElem?_eq_some_iff.mp hyi).1
        rwa [Nnet.spliced_length] at this
      have hxl := s1.cols x (List.mem_of_getElem? hxi)
      rw [c1] at hxl ⊢
      have := spliceRow_done hin1 hd (N := idx.length * d) (by omega) i (c := rowAt v ⟨b, 0⟩ i) (by exact hab) idx [] x h3
        (hidx i hi') (by simp only [List.length_nil]; omega) (by omega) (by simpa using l3)
        (fun b' hb' => a3.other b' (by rw [hb']; exact hab))
      unfold spliced at hyi
      rw [List.getElem?_map, List.getElem?_range hi'] at hyi
      cases hyi
      rw [List.nil_append] at this
      obtain ⟨h4, g1, g2, g3⟩ := this
      exact ⟨h4, g1, g2, by rw [show x.length = idx.length * d by omega]; exact g3⟩)
  refine ⟨v, b, h2, ?_, s2, c1, m1.then a2⟩
  unfold spliceM
  rw [decide_eq_true (by omega), cassert_true, ok_bind, if_neg (by rw [hin.rows]; omega)]
  simp only
  rw [hd, hwr, hin.rows, e1]
  simp only [ok_bind]
  rw [e2, ok_bind]

/-! ## Narrowing -/

theorem narrow_done (o : Ops F) {h : Heap F} {vin vout : View} {a : Addr} {m : List (List F)}
    (hin : Shows h vin a m) (hout : InOrder h vout) (hne : some a.block ≠ block vout)
    {d : Nat} (hd : vin.cols = d) {l r : Nat}
    (hsize : m.length * d ≤ 2147483647) (hc' : d ≤ 2147483632) (hlr : l + r < m.length) :
    Done h (narrowM o l r vin vout h) (block vout) ((m.drop l).take (m.length - l - r)) d := by
  have hwide := hin.wide
  have hN : m.length ≤ 2147483647 := Nat.le_trans (Nat.le_mul_of_pos_right _ (by omega : 0 < d)) hsize
  have hs2 : (m.length - l - r) * d ≤ 2147483647 := Nat.le_trans (Nat.mul_le_mul_right d (by omega)) hsize
  obtain ⟨v, b, h1, e1, s1, c1, m1⟩ := resize_ok o hout (show 0 < m.length - l - r by omega) (by omega : 0 < d) hs2 hc'
  have hin1 := m1.shows hin hne
  have hab := m1.ne (live_lt hin.live) hne
  have hzl : ((m.drop l).take (m.length - l - r)).length = m.length - l - r := by
    rw [List.length_take, List.length_drop]; omega
  let w : View := ⟨some ⟨a.block, a.off + 0 + (l : Int) * vin.stride⟩, (m.length - l - r : Nat), d, vin.stride⟩
  have hw : Shows h1 w ⟨a.block, a.off + 0 + (l : Int) * vin.stride⟩ ((m.drop l).take (m.length - l - r)) := by
    have hst := hin.stride
    refine ⟨rfl, ?_, by rw [hzl], ?_, by show (0 : Int) < d; omega, by show (d : Int) ≤ vin.stride; omega, ?_, ?_⟩
    · intro hh
      rw [hh, List.length_nil] at hzl
      omega
    · intro x hx
      have hx := List.mem_of_mem_drop (List.mem_of_mem_take hx)
      show (x.length : Int) = d
      rw [← hd]; exact hin.cols x hx
    · show ((m.length - l - r : Nat) : Int) * vin.stride ≤ 2147483647
      have h2 : ((m.length - l - r : Nat) : Int) * vin.stride ≤ vin.rows * vin.stride :=
        Int.mul_le_mul_of_nonneg_right (by rw [hin.rows]; omega) (by omega)
      have := hin.size
      omega
    · intro i x hx j y hy
      have hi : i < m.length - l - r := by
        have := (List.getElem?_eq_some_iff.mp hx).1
        omega
      rw [List.getElem?_take_of_lt hi, List.getElem?_drop] at hx
      have := hin1.line _ x hx j y hy
      simp only at this ⊢
      rw [← this]
      congr 2
      rw [Int.natCast_add, Int.add_mul, Int.add_zero, Int.add_assoc a.off]
  obtain ⟨h2, e2, s2, a2⟩ := copy_ok s1 hw (by rw [hzl]; unfold zeros; rw [List.length_replicate]) c1 (by exact hab)
  refine ⟨v, b, h2, ?_, s2, c1, m1.then a2⟩
  unfold narrowM
  rw [decide_eq_true (by omega), cassert_true, ok_bind, i32_of (by unfold InI32; omega), ok_bind, hin.rows,
    if_neg (by omega), i32_of (by unfold InI32; omega), ok_bind, i32_of (by unfold InI32; omega), ok_bind,
    show ((m.length : Int) - l - r) = ((m.length - l - r : Nat) : Int) by omega, hd, e1]
  simp only [ok_bind]
  have hrange : vin.range l ((m.length - l - r : Nat) : Int) 0 d = .ok w := by
    unfold View.range
    rw [if_neg (by omega), hin.rows, hd, i32_of (by unfold InI32; omega), ok_bind, i32_of (by unfold InI32; omega), ok_bind,
      decide_eq_true ⟨by omega, by omega, by omega, by omega⟩, cassert_true, ok_bind, hin.data]
  rw [hrange, ok_bind, e2, ok_bind]

end Verif.NetMem
