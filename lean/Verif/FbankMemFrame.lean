import Verif.FbankMemLemmas

/-!
# One frame in memory
-/

namespace Verif.FbankMem

open Mat (Heap Addr View load poke loop peek)
open VecMem (Vec elem setElem get put subVec copyVec resizePlain resizeCopy destroy)
open NetMem
open NetMem.Spec (Line Shows VShows Live InOrder block)
open AmMem.Spec (Effect Sub)
open AmMem
open Fbank (Ops fbankDim frameShift frameLength paddedLength calcNumFrames preemphLoop powerLoop processWindow
  powerSpectrum melCompute melBin floorLog dot)
open Fbank.Spec (Tables ScratchOnly windowed energy feature loggable row frame frames numFrames)
open Spec

variable {F : Type}

theorem Turns.comp {f g : Heap F → Exec (Heap F)} {h : Heap F} {a : Addr} {x y z : List F} (hf : Turns f h a x y)
    (hlen : y.length = x.length) (hg : ∀ h', Line h' a y → Only h h' a x.length → Turns g h' a y z) :
    Turns (fun h => f h >>= g) h a x z := by
  obtain ⟨h1, e1, l1, o1⟩ := hf
  obtain ⟨h2, e2, l2, o2⟩ := hg h1 l1 o1
  exact ⟨h2, by show (f h >>= g) = _; rw [e1, ok_bind, e2], l2, o1.trans (by rw [← hlen]; exact o2)⟩

theorem put_turns {h : Heap F} {a : Addr} {x : List F} (hl : Line h a x) {i : Nat} (hi : i < x.length) {n : Int}
    (hn : n = x.length) (y : F) : Turns (put ⟨some a, n⟩ (i : Int) y) h a x (x.set i y) := by
  obtain ⟨h', e, l, o⟩ := hl.poke hi y
  exact ⟨h', by rw [put_is (by omega), e], l, o⟩

theorem get_at {h : Heap F} {a : Addr} {x : List F} (hl : Line h a x) {i : Nat} (hi : i < x.length) {n : Int}
    (hn : n = x.length) : get ⟨some a, n⟩ (i : Int) h = .ok x[i] :=
  hl.get (List.getElem?_eq_getElem hi) (by omega)

/-! ## Windows -/

theorem centre_ok (o : Ops F) {h : Heap F} {a : Addr} {x : List F} (hl : Line h a x) {n : Int} (hn : n = x.length) :
    Turns (centreM o ⟨some a, n⟩) h a x (x.map fun v => o.sub v (o.div (x.foldl o.add o.zero) (o.ofInt x.length))) := by
  have hz : (x.map fun v => o.sub v (o.div (x.foldl o.add o.zero) (o.ofInt x.length))).length = x.length := by
    rw [List.length_map]
  have hs : sumLoop n (fun i s => do
      let u ← get ⟨some a, n⟩ i h
      .ok (o.add s u)) o.zero = .ok (x.foldl o.add o.zero) := by
    refine sumLoop_ok (x := x) o.add o.zero hn ?_
    intro i u s hu
    have hi := (List.getElem?_eq_some_iff.mp hu).1
    rw [hl.get hu (by omega), ok_bind]
  unfold Turns centreM
  simp only
  rw [hs, ok_bind]
  subst hn
  refine loop_line hl hz rfl ?_
  intro i h1 u v hu hv l1 o1
  have hi := (List.getElem?_eq_some_iff.mp hu).1
  left
  rw [List.getElem?_map, hu] at hv
  cases hv
  rw [l1.get (by rw [mix_here hz]; exact hu) (by omega), ok_bind, put_is (by omega)]

theorem preemph_sim (o : Ops F) {a : Addr} {n : Int} : ∀ (i : Nat) (x y : List F) (h : Heap F), Line h a x →
    n = x.length → preemphLoop o i x = .ok y → i < x.length → Turns (preemphM o ⟨some a, n⟩ i) h a x y
  | 0, x, y, h, hl, hn, e, hi => by
    unfold preemphLoop at e
    rw [decide_eq_true hi, cassert_true, ok_bind, show (0 : Int) = ((0 : Nat) : Int) from rfl,
      aget_nat (List.getElem?_eq_getElem hi), ok_bind, aset_nat hi] at e
    cases e
    obtain ⟨h', e', p⟩ := put_turns hl hi hn (o.preemph x[0] x[0])
    refine ⟨h', ?_, p⟩
    unfold preemphM
    rw [show (0 : Int) = ((0 : Nat) : Int) from rfl, get_at hl hi hn, ok_bind, e']
  | i + 1, x, y, h, hl, hn, e, hi => by
    unfold preemphLoop at e
    rw [aget_nat (List.getElem?_eq_getElem hi), ok_bind,
      aget_nat (List.getElem?_eq_getElem (show i < x.length by omega)), ok_bind, aset_nat hi, ok_bind] at e
    obtain ⟨h1, e1, l1, o1⟩ := put_turns hl hi hn (o.preemph x[i + 1] x[i])
    obtain ⟨h2, e2, l2, o2⟩ := preemph_sim o (a := a) (n := n) i _ y h1 l1 (by rw [List.length_set]; exact hn) e
      (by rw [List.length_set]; omega)
    rw [List.length_set] at o2
    refine ⟨h2, ?_, l2, o1.trans o2⟩
    unfold preemphM
    rw [get_at hl hi hn, ok_bind, get_at hl (by omega) hn, ok_bind, e1, ok_bind, e2]

theorem processWindow_mem (o : Ops F) {t : TabM} {h : Heap F} {a : Addr} {x : List F} (hl : Line h a x) (h0 : x ≠ [])
    (hw : o.window.length = x.length) (ht : VShows h t.window o.window)
    (hne : ∀ b, t.window.data = some b → b.block ≠ a.block) {n : Int} (hn : n = x.length) :
    Turns (processWindowM o t ⟨some a, n⟩) h a x (windowed o x) := by
  have hpos := List.length_pos_iff.mpr h0
  have hp := Fbank.processWindow_ok o hpos hw
  unfold processWindow at hp
  simp only at hp
  obtain ⟨y, hy, hylen, _⟩ := Fbank.preemphLoop_ok o (x.length - 1)
    (x.map fun v => o.sub v (o.div (x.foldl o.add o.zero) (o.ofInt x.length))) (by rw [List.length_map]; omega)
  rw [List.length_map] at hylen
  rw [List.length_map, hy, ok_bind, decide_eq_true (by omega), cassert_true, ok_bind] at hp
  obtain ⟨b, hb, lb⟩ := ht.line
  have hdim := ht.dim
  obtain ⟨h1, e1, l1, o1⟩ := centre_ok o hl hn
  obtain ⟨h2, e2, l2, o2⟩ := preemph_sim o (a := a) (n := n) (x.length - 1) _ y h1 l1 (by rw [List.length_map]; exact hn) hy
    (by rw [List.length_map]; omega)
  rw [List.length_map] at o2
  have o12 := o1.trans o2
  have hz : (List.zipWith o.mul y o.window).length = y.length := by rw [List.length_zipWith]; omega
  obtain ⟨h3, e3, l3, o3⟩ := loop_line (f := fun i h => do
      let u ← get ⟨some a, n⟩ i h
      let v ← get t.window i h
      put ⟨some a, n⟩ i (o.mul u v) h) l2 hz (k := t.window.dim) (by omega) (by
    intro i h3 u v hu hv l3 o3
    left
    have hi := (List.getElem?_eq_some_iff.mp hu).1
    have hw' := List.getElem?_eq_getElem (show i < o.window.length by omega)
    have lb3 : Line h3 b o.window := o3.line (hne b hb) (o12.line (hne b hb) lb)
    have hg : get t.window (i : Int) h3 = .ok o.window[i] := by
      have := lb3.get hw' (n := t.window.dim) (by omega)
      rw [← hb] at this
      exact this
    rw [l3.get (by rw [mix_here hz]; exact hu) (by omega), ok_bind, hg, ok_bind, put_is (by omega)]
    rw [List.getElem?_zipWith, hu, hw'] at hv
    cases hv
    rfl)
  have hq := Except.ok.inj hp
  refine ⟨h3, ?_, ?_, o12.trans (by rw [← hylen]; exact o3)⟩
  · unfold processWindowM
    simp only
    rw [e1, ok_bind, show (n - 1).toNat = x.length - 1 by omega, e2, ok_bind, decide_eq_true (by omega), cassert_true,
      ok_bind, e3]
  · rw [← hq]
    exact l3

/-- The frame is put into the window. -/
theorem extract_ok (o : Ops F) {t : TabM} {h : Heap F} {w b : Addr} {cells : List (Option F)} {wave : List F}
    (hc : Cells h w cells) (hlen : cells.length = 512) (hl : Line h b wave) (hne : b.block ≠ w.block)
    (htab : Tables o) (ht : VShows h t.window o.window) (htw : ∀ c, t.window.data = some c → c.block ≠ w.block) {i : Nat}
    (hi : 160 * i + 400 ≤ wave.length) (hbig : wave.length < 536870912) :
    Fills (extractWindowM o t ⟨some b, wave.length⟩ i ⟨some w, 512⟩) h w 512
      (windowed o (frame wave i) ++ List.replicate 112 o.zero) := by
  have hfl : (frame wave i).length = 400 := by
    unfold Fbank.Spec.frame; rw [List.length_take, List.length_drop]; omega
  have hs1 := subVec_ok hc (n := 512) (k := 0) (m := 400) (by omega) (by omega) (by omega) (by omega)
  have hs2 := subVec_ok (line_cells hl) (n := wave.length) (k := 160 * i) (m := 400) (by omega) (by omega)
    (by rw [List.length_map]) (by omega)
  have lf : Line h ⟨b.block, b.off + ((160 * i : Nat) : Int)⟩ (frame wave i) := line_part hl (160 * i) 400
  have c1 := cells_take hc 400
  have hc1 : (cells.take 400).length = 400 := by rw [List.length_take]; omega
  obtain ⟨h1, e1, l1, o1⟩ := copyVec_fills (n := 400) (k := 400) (a := ⟨w.block, w.off + 0⟩)
    (by rw [Int.add_zero]; exact c1) lf (by exact hne) (by omega) (by omega) (by omega)
  rw [hc1] at o1
  have c2 : Cells h1 ⟨w.block, w.off + 0 + 400⟩ (cells.drop 400) := by
    rw [Int.add_zero]
    exact only_beside o1 (.inr (by simp only; omega)) (cells_drop hc 400)
  have hc2 : (cells.drop 400).length = 112 := by rw [List.length_drop]; omega
  obtain ⟨h2, e2, l2, o2⟩ := loop_cells (f := fun k h => put ⟨some w, 512⟩ ((frameLength : Nat) + k) o.zero h)
    (y := (List.replicate 112 o.zero).map some) c2 (by rw [List.length_map, List.length_replicate, hc2])
    (k := 512 - ((frameLength : Nat) : Int)) (by rw [hc2]; rfl) (by
      intro j h3 v hv _ _
      have hj := (List.getElem?_eq_some_iff.mp hv).1
      rw [List.length_map, List.length_replicate] at hj
      rw [List.getElem?_map, List.getElem?_replicate, if_pos hj] at hv
      cases hv
      rw [show ((frameLength : Nat) : Int) + (j : Int) = ((400 + j : Nat) : Int) by unfold frameLength; omega,
        put_is (by omega), show w.off + ((400 + j : Nat) : Int) = w.off + 0 + 400 + (j : Int) by omega])
  rw [hc2] at o2
  have l1' : Line h2 ⟨w.block, w.off + 0⟩ (frame wave i) :=
    cells_line (only_beside o2 (k := w.off + 0) (.inl (by rw [List.length_map, hfl]; exact Int.le_refl _)) (line_cells l1))
  have ht2 : VShows h2 t.window o.window := by
    obtain ⟨c, hcd, lc⟩ := ht.line
    exact ⟨ht.dim, c, hcd, o2.line (htw c hcd) (o1.line (htw c hcd) lc)⟩
  obtain ⟨h3, e3, l3, o3⟩ := processWindow_mem o (n := 400) l1' (by intro g; rw [g] at hfl; cases hfl)
    (by rw [hfl]; exact htab.1) ht2 (fun c hcd => htw c hcd) (by rw [hfl]; rfl)
  rw [hfl] at o3
  refine ⟨h3, ?_, ?_, ?_⟩
  · unfold extractWindowM
    rw [show ((i : Int) * ((frameShift : Nat) : Int)) = ((160 * i : Nat) : Int) by unfold frameShift; omega,
      i32_of (by unfold InI32; omega), ok_bind, i32_of (by unfold InI32 frameLength; omega), ok_bind]
    simp only
    rw [decide_eq_true (by unfold frameLength; omega), cassert_true, ok_bind,
      decide_eq_true (by unfold frameLength; omega), cassert_true, ok_bind,
      show subVec ⟨some w, 512⟩ 0 ((frameLength : Nat) : Int) h = _ from hs1, ok_bind,
      show subVec ⟨some b, (wave.length : Int)⟩ ((160 * i : Nat) : Int) ((frameLength : Nat) : Int) h = _ from hs2, ok_bind,
      show copyVec ⟨some ⟨w.block, w.off + ((0 : Nat) : Int)⟩, ((400 : Nat) : Int)⟩
        ⟨some ⟨b.block, b.off + ((160 * i : Nat) : Int)⟩, ((400 : Nat) : Int)⟩ h = _ from e1, ok_bind, e2, ok_bind]
    exact e3
  · apply cells_line
    rw [List.map_append]
    refine cells_append (by have := line_cells l3; rw [Int.add_zero] at this; exact this) ?_
    rw [List.length_map, Fbank.windowed_length, hfl]
    have h112 := only_beside o3 (k := w.off + 0 + 400) (.inr (by show w.off + 0 + ((400 : Nat) : Int) ≤ _; omega)) l2
    rw [Int.add_zero] at h112
    exact h112
  · have hw : ∀ {g g' : Heap F} {k : Int} {m : Nat}, Only g g' ⟨w.block, k⟩ m → w.off ≤ k → k + m ≤ w.off + 512 →
        Only g g' w 512 := fun p p1 p2 => only_mono p rfl p1 p2
    exact ((hw o1 (by omega) (by omega)).trans (hw o2 (by omega) (by omega))).trans (hw o3 (by omega) (by omega))

/-! ## The transform and the power spectrum -/

/-- Only the blocks `X` have changed, and the same blocks are there. -/
structure Within (h h' : Heap F) (X : Nat → Prop) : Prop where
  other : ∀ a : Addr, ¬ X a.block → peek h' a = peek h a
  shape : Shape h h'

theorem Within.trans {h h' h'' : Heap F} {X : Nat → Prop} (p : Within h h' X) (q : Within h' h'' X) : Within h h'' X :=
  ⟨fun a ha => by rw [q.other a ha, p.other a ha], p.shape.trans q.shape⟩

theorem Within.mono {h h' : Heap F} {X Y : Nat → Prop} (p : Within h h' X) (hy : ∀ c, X c → Y c) : Within h h' Y :=
  ⟨fun a ha => p.other a (fun g => ha (hy _ g)), p.shape⟩

theorem Within.cells {h h' : Heap F} {X : Nat → Prop} (p : Within h h' X) {a : Addr} {x : List (Option F)}
    (hl : Cells h a x) (ha : ¬ X a.block) : Cells h' a x := fun i c hc => by
  rw [p.other ⟨a.block, a.off + i⟩ ha]; exact hl i c hc

theorem Within.line {h h' : Heap F} {X : Nat → Prop} (p : Within h h' X) {a : Addr} {x : List F}
    (hl : Line h a x) (ha : ¬ X a.block) : Line h' a x := cells_line (p.cells (line_cells hl) ha)

theorem Within.vshows {h h' : Heap F} {X : Nat → Prop} (p : Within h h' X) {v : Vec} {x : List F} (s : VShows h v x)
    (hv : ∀ a, v.data = some a → ¬ X a.block) : VShows h' v x := by
  obtain ⟨a, h1, h2⟩ := s.line
  exact ⟨s.dim, a, h1, p.line h2 (hv a h1)⟩

theorem _root_.Verif.NetMem.Only.inside {h h' : Heap F} {a : Addr} {n : Nat} (p : Only h h' a n) {X : Nat → Prop}
    (hx : X a.block) : Within h h' X := ⟨fun b hb => p.block b (fun g => hb (by rw [g]; exact hx)), p.shape⟩

theorem Within.effect {h h' : Heap F} {X : Nat → Prop} (p : Within h h' X) (hx : ∀ c, X c → Live h c) : Effect h h' X X := by
  refine ⟨fun a _ h2 => p.other a h2, fun c => ?_, fun c g => .inl g, by rw [p.shape.length]⟩
  rw [p.shape.live]
  constructor
  · intro g
    by_cases hc : X c
    · exact .inr hc
    · exact .inl ⟨g, hc⟩
  · rintro (g | g)
    · exact g.1
    · exact hx c g

theorem readVec_ok {h : Heap F} {a : Addr} {x : List F} (hl : Line h a x) {n : Int} (hn : n = x.length) :
    readVec ⟨some a, n⟩ h = .ok x := by
  unfold readVec
  exact mapM_range (by simp only; omega) (fun i y hy => hl.elem hy n)

theorem scratch_ok (wild : Nat → F) {h : Heap F} {a : Addr} {x : List (Option F)} (hl : Cells h a x) {n : Int}
    (hn : n = x.length) : ∃ b, scratch wild ⟨some a, n⟩ h = .ok b ∧ b.length = x.length := by
  let b : List F := (List.range x.length).map fun i => ((x[i]?).join).getD (wild i)
  have hb : b.length = x.length := by rw [List.length_map, List.length_range]
  refine ⟨b, ?_, hb⟩
  unfold scratch
  refine mapM_range (by simp only; omega) ?_
  intro i y hy
  have hi := (List.getElem?_eq_some_iff.mp hy).1
  rw [List.getElem?_map, List.getElem?_range (by omega)] at hy
  have hx := List.getElem?_eq_getElem (show i < x.length by omega)
  have hp := hl i _ hx
  simp only [Option.map_some, Option.some.injEq] at hy
  rw [hx] at hy
  simp only
  rw [hp]
  cases hc : x[i] with
  | none => rw [hc] at hy; simp only [Option.join_some, Option.getD_none] at hy; rw [hy]
  | some z => rw [hc] at hy; simp only [Option.join_some, Option.getD_some] at hy; rw [hy]

theorem writeVec_ok {h : Heap F} {a : Addr} {x : List (Option F)} {y : List F} (hl : Cells h a x)
    (hlen : y.length = x.length) {n : Int} (hn : n = x.length) : Fills (writeVec ⟨some a, n⟩ y) h a x.length y := by
  unfold Fills writeVec
  obtain ⟨h', e, c, o⟩ := loop_cells (f := fun i h => do
      let z ← aget y i
      setElem ⟨some a, n⟩ i z h) (y := y.map some) hl (by rw [List.length_map, hlen]) hn (by
    intro i h1 v hv _ _
    rw [List.getElem?_map] at hv
    cases hy : y[i]? with
    | none => rw [hy] at hv; cases hv
    | some z =>
      rw [hy] at hv
      cases hv
      rw [aget_nat hy, ok_bind]
      rfl)
  exact ⟨h', e, cells_line c, o⟩

theorem powerLoop_sim (o : Ops F) {a : Addr} {n : Int} : ∀ (k i : Nat) (x y : List F) (h : Heap F), Line h a x →
    n = x.length → powerLoop o k i x = .ok y → 2 * (i + k) ≤ x.length → Turns (powerLoopM o ⟨some a, n⟩ k i) h a x y
  | 0, i, x, y, h, hl, hn, e, hi => by
    cases e
    exact ⟨h, rfl, hl, .refl _ _ _⟩
  | k + 1, i, x, y, h, hl, hn, e, hi => by
    have h1 : i * 2 < x.length := by omega
    have h2 : i * 2 + 1 < x.length := by omega
    have h3 : i < x.length := by omega
    unfold powerLoop at e
    rw [aget_nat (List.getElem?_eq_getElem h1), ok_bind, aget_nat (List.getElem?_eq_getElem h2), ok_bind,
      aset_nat h3, ok_bind] at e
    obtain ⟨g1, e1, l1, o1⟩ := put_turns hl h3 hn
      (o.add (o.mul x[i * 2] x[i * 2]) (o.mul x[i * 2 + 1] x[i * 2 + 1]))
    obtain ⟨g2, e2, l2, o2⟩ := powerLoop_sim o (a := a) (n := n) k (i + 1) _ y g1 l1 (by rw [List.length_set]; exact hn) e
      (by rw [List.length_set]; omega)
    rw [List.length_set] at o2
    refine ⟨g2, ?_, l2, o1.trans o2⟩
    unfold powerLoopM
    rw [get_at hl h1 hn, ok_bind, get_at hl h2 hn, ok_bind, e1, ok_bind, e2]

theorem power_ok (o : Ops F) {h : Heap F} {a : Addr} {x y : List F} (hl : Line h a x) {n : Int} (hn : n = x.length)
    (h2 : 2 ≤ x.length) (e : powerSpectrum o x = .ok y) : Turns (powerSpectrumM o ⟨some a, n⟩) h a x y := by
  obtain ⟨w, ew, hw, _⟩ := Fbank.powerLoop_ok o (x.length / 2 - 1) 1 x (by omega) (by omega)
  have h0 : 0 < x.length := by omega
  have h1 : 1 < x.length := by omega
  unfold powerSpectrum at e
  rw [decide_eq_true (by omega), cassert_true, ok_bind, show (0 : Int) = ((0 : Nat) : Int) from rfl,
    show (1 : Int) = ((1 : Nat) : Int) from rfl, aget_nat (List.getElem?_eq_getElem h0), ok_bind,
    aget_nat (List.getElem?_eq_getElem h1), ok_bind, ew, ok_bind, aset_nat (by omega), ok_bind,
    aset_nat (by rw [List.length_set]; omega)] at e
  cases e
  obtain ⟨g1, e1, l1, o1⟩ := powerLoop_sim o (a := a) (n := n) _ _ x w h hl hn ew (by omega)
  obtain ⟨g2, e2, l2, o2⟩ := put_turns (n := n) l1 (i := 0) (by omega) (by omega) (o.mul x[0] x[0])
  obtain ⟨g3, e3, l3, o3⟩ := put_turns (n := n) l2 (i := x.length / 2) (by rw [List.length_set]; omega)
    (by rw [List.length_set]; omega) (o.mul x[1] x[1])
  rw [hw] at o2
  rw [List.length_set, hw] at o3
  refine ⟨g3, ?_, l3, (o1.trans o2).trans o3⟩
  unfold powerSpectrumM
  simp only
  rw [decide_eq_true (by omega), cassert_true, ok_bind, show (0 : Int) = ((0 : Nat) : Int) from rfl,
    show (1 : Int) = ((1 : Nat) : Int) from rfl, get_at hl h0 hn, ok_bind, get_at hl h1 hn, ok_bind,
    show n.tdiv 2 = ((x.length / 2 : Nat) : Int) by rw [hn, Int.tdiv_eq_ediv_of_nonneg (by omega)]; omega,
    show (((x.length / 2 : Nat) : Int) - ((1 : Nat) : Int)).toNat = x.length / 2 - 1 by omega, e1, ok_bind, e2, ok_bind, e3]

/-! ## Filters -/

theorem vecVec_ok (o : Ops F) {h : Heap F} {a b : Addr} {x y : List F} (hl : Line h a x) (hr : Line h b y)
    (hlen : y.length = x.length) {n k : Int} (hn : n = x.length) (hk : k = y.length) :
    vecVecM o ⟨some a, n⟩ ⟨some b, k⟩ h = .ok (dot o x y) := by
  have hz : (List.zipWith o.mul x y).length = x.length := by rw [List.length_zipWith]; omega
  unfold vecVecM dot
  simp only
  rw [decide_eq_true (by omega), cassert_true, ok_bind]
  refine sumLoop_ok (x := List.zipWith o.mul x y) o.add o.zero (by omega) ?_
  intro i u s hu
  have hi := (List.getElem?_eq_some_iff.mp hu).1
  have hx := List.getElem?_eq_getElem (show i < x.length by omega)
  have hy := List.getElem?_eq_getElem (show i < y.length by omega)
  rw [hl.elem hx, ok_bind, hr.elem hy, ok_bind]
  rw [List.getElem?_zipWith, hx, hy] at hu
  cases hu
  rfl

theorem mel_ok (o : Ops F) {t : TabM} {h : Heap F} {w f : Addr} {x : List F} {cells : List (Option F)} {E : List F}
    (hl : Line h w x) (hx : x.length = 512) (hc : Cells h f cells) (hlen : cells.length = 40) (hne : w.block ≠ f.block)
    (htab : Tables o) (ht : List.Forall₂ (fun p q => p.1 = (q.1 : Int) ∧ q.2 ≠ [] ∧ VShows h p.2 q.2) t.bins o.bins)
    (htf : ∀ p ∈ t.bins, ∀ a, p.2.data = some a → a.block ≠ f.block)
    (e : melCompute o x = .ok E) : Fills (melM o t ⟨some w, 512⟩ ⟨some f, 40⟩) h f 40 E := by
  obtain ⟨_, hn40, hbins⟩ := htab
  have hbl := ht.length_eq
  have hE : E = o.bins.map (fun b => dot o b.2 ((x.drop b.1).take b.2.length)) := by
    unfold melCompute at e
    rw [Fbank.mapM_ok _ (fun b => dot o b.2 ((x.drop b.1).take b.2.length)) _ (by
      intro b hb
      unfold melBin
      have := hbins b hb
      rw [decide_eq_true (by omega), cassert_true, ok_bind])] at e
    exact (Except.ok.inj e).symm
  have hElen : E.length = 40 := by rw [hE, List.length_map, hn40]
  obtain ⟨h', e', c', o'⟩ := loop_cells (f := fun i h => do
      let b ← aget t.bins i
      let s ← subVec ⟨some w, 512⟩ b.1 b.2.dim h
      let e ← vecVecM o b.2 s h
      put ⟨some f, 40⟩ i e h) (y := E.map some) hc (by rw [List.length_map]; omega) (k := ((fbankDim : Nat) : Int))
      (by rw [hlen]) (by
    intro i h1 v hv _ o1
    rw [hlen] at o1
    have hi := (List.getElem?_eq_some_iff.mp hv).1
    rw [List.length_map] at hi
    have hp := List.getElem?_eq_getElem (show i < t.bins.length by omega)
    have hq := List.getElem?_eq_getElem (show i < o.bins.length by omega)
    obtain ⟨g1, g2, g3⟩ := List.forall₂_iff_get.mp ht |>.2 i (by omega) (by omega)
    simp only [List.get_eq_getElem] at g1 g2 g3
    obtain ⟨a, ha, la⟩ := g3.line
    have hd := g3.dim
    have hb := hbins _ (List.getElem_mem (show i < o.bins.length by omega))
    have hpos := List.length_pos_iff.mpr g2
    have la1 : Line h1 a o.bins[i].2 := o1.line (htf _ (List.getElem_mem _) a ha) la
    have lw1 : Line h1 w x := o1.line hne hl
    have hs := subVec_ok (line_cells lw1) (n := 512) (k := o.bins[i].1) (m := o.bins[i].2.length) hpos (by omega)
      (by rw [List.length_map]; omega) (by omega)
    have hpart : ((x.drop o.bins[i].1).take o.bins[i].2.length).length = o.bins[i].2.length := by
      rw [List.length_take, List.length_drop]; omega
    have hvv := vecVec_ok o (n := (o.bins[i].2.length : Int)) (k := (o.bins[i].2.length : Int)) la1
      (line_part lw1 o.bins[i].1 o.bins[i].2.length) hpart rfl (by rw [hpart])
    have hvec : t.bins[i].2 = ⟨some a, (o.bins[i].2.length : Int)⟩ := by
      rw [← ha, ← hd]
    rw [aget_nat hp, ok_bind, g1, hd, show subVec ⟨some w, 512⟩ (o.bins[i].1 : Int) (o.bins[i].2.length : Int) h1 = _ from hs,
      ok_bind, hvec, hvv, ok_bind, put_is (by omega)]
    rw [hE, List.map_map, List.getElem?_map, hq] at hv
    cases hv
    rfl)
  rw [hlen] at o'
  refine ⟨h', ?_, cells_line c', o'⟩
  unfold melM
  rw [decide_eq_true (by rfl), cassert_true, ok_bind, e']

theorem floor_ok (o : Ops F) {h : Heap F} {a : Addr} {x : List F} (hl : Line h a x) {n : Int} (hn : n = x.length) :
    Turns (floorM o ⟨some a, n⟩) h a x (x.map fun v => if o.lt v o.eps then o.eps else v) := by
  have hz : (x.map fun v => if o.lt v o.eps then o.eps else v).length = x.length := by rw [List.length_map]
  refine loop_line hl hz hn ?_
  intro i h1 u v hu hv l1 o1
  rw [List.getElem?_map, hu] at hv
  simp only [Option.map_some, Option.some.injEq] at hv
  rw [l1.elem (by rw [mix_here hz]; exact hu), ok_bind]
  by_cases hc : o.lt u o.eps = true
  · left
    rw [if_pos hc] at hv ⊢
    rw [← hv]
    rfl
  · right
    rw [if_neg hc] at hv ⊢
    exact ⟨rfl, hv⟩

theorem log_ok (o : Ops F) {h : Heap F} {a : Addr} {x : List F} (hl : Line h a x) {n : Int} (hn : n = x.length)
    (hx : x.all o.nonneg = true) : Turns (logM o ⟨some a, n⟩) h a x (x.map o.log) := by
  have hz : (x.map o.log).length = x.length := by rw [List.length_map]
  refine loop_line hl hz hn ?_
  intro i h1 u v hu hv l1 o1
  rw [List.getElem?_map, hu] at hv
  cases hv
  left
  rw [l1.elem (by rw [mix_here hz]; exact hu), ok_bind,
    List.all_eq_true.mp hx u (List.mem_of_getElem? hu), cassert_true, ok_bind]
  rfl

/-- A loop that ends well or with the fault `x`. -/
theorem range_or {S : Type} {f : S → Nat → Exec S} (P : Nat → S → Prop) (s : S) (h0 : P 0 s) {x : Fault} :
    ∀ n : Nat, (∀ i s, i < n → P i s → (∃ s', f s i = .ok s' ∧ P (i + 1) s') ∨ f s i = .error x) →
      (∃ s', (List.range n).foldlM f s = .ok s' ∧ P n s') ∨ (List.range n).foldlM f s = .error x
  | 0, _ => .inl ⟨s, rfl, h0⟩
  | n + 1, step => by
    rw [List.range_succ, List.foldlM_append]
    rcases range_or P s h0 n (fun i s hi => step i s (by omega)) with ⟨s1, e1, p1⟩ | e1
    · rw [e1, ok_bind, List.foldlM_cons]
      rcases step n s1 (by omega) p1 with ⟨s2, e2, p2⟩ | e2
      · exact .inl ⟨s2, by rw [e2, ok_bind]; rfl, p2⟩
      · exact .inr (by rw [e2, error_bind])
    · exact .inr (by rw [e1, error_bind])

theorem log_fail (o : Ops F) {h : Heap F} {a : Addr} {x : List F} (hl : Line h a x) {n : Int} (hn : n = x.length)
    (hx : ¬ x.all o.nonneg = true) : logM o ⟨some a, n⟩ h = .error .assert := by
  have hz : (x.map o.log).length = x.length := by rw [List.length_map]
  unfold logM loop
  simp only
  rw [show n.toNat = x.length by omega]
  rcases range_or (f := fun h (i : Nat) => do
      let x ← elem ⟨some a, n⟩ (i : Int) h
      cassert (o.nonneg x)
      setElem ⟨some a, n⟩ (i : Int) (o.log x) h) (x := .assert)
      (fun i h1 => Line h1 a (mix x (x.map o.log) i) ∧ (x.take i).all o.nonneg = true) h
      ⟨by rw [mix_zero]; exact hl, rfl⟩ x.length (by
        rintro i h1 hi ⟨l1, q1⟩
        have hu := List.getElem?_eq_getElem hi
        have hel := l1.elem (i := i) (y := x[i]) (by rw [mix_here hz]; exact hu) n
        rw [hel, ok_bind]
        by_cases hp : o.nonneg x[i] = true
        · left
          obtain ⟨h2, e2, l2, _⟩ := l1.poke (i := i) (by rw [mix_length hz]; exact hi) (o.log x[i])
          refine ⟨h2, ?_, ?_, ?_⟩
          · rw [hp, cassert_true, ok_bind]
            exact e2
          · rw [← mix_set hz (by rw [List.getElem?_map, hu]; rfl)]
            exact l2
          · rw [List.take_add_one, hu, List.all_append, q1]
            simpa using hp
        · right
          rw [Bool.eq_false_iff.mpr hp, cassert_false, error_bind]) with ⟨h', _, _, q⟩ | g
  · rw [List.take_length] at q
    exact absurd q hx
  · exact g

/-! ## Features of a frame -/

theorem forall2_within {h h' : Heap F} {X : Nat → Prop} (p : Within h h' X) {t : List (Int × Vec)} {bs : List (Nat × List F)}
    (ht : List.Forall₂ (fun p q => p.1 = (q.1 : Int) ∧ q.2 ≠ [] ∧ VShows h p.2 q.2) t bs)
    (hv : ∀ q ∈ t, ∀ a, q.2.data = some a → ¬ X a.block) :
    List.Forall₂ (fun p q => p.1 = (q.1 : Int) ∧ q.2 ≠ [] ∧ VShows h' p.2 q.2) t bs := by
  induction ht with
  | nil => exact .nil
  | cons h1 _ ih =>
    exact .cons ⟨h1.1, h1.2.1, p.vshows h1.2.2 (hv _ List.mem_cons_self)⟩
      (ih (fun q hq => hv q (List.mem_cons_of_mem _ hq)))

theorem Spec.Loaded.within {h h' : Heap F} {X : Nat → Prop} {t : TabM} {o : Ops F} (s : Loaded h t o) (p : Within h h' X)
    (h1 : ∀ a, t.window.data = some a → ¬ X a.block) (h2 : ∀ q ∈ t.bins, ∀ a, q.2.data = some a → ¬ X a.block) :
    Loaded h' t o := ⟨p.vshows s.window h1, forall2_within p s.bins h2⟩

/-- The window, the scratch buffer and the feature of a frame are there. -/
structure Rooms (h : Heap F) (w u f : Nat) : Prop where
  window : ∃ x, Cells h ⟨w, 0⟩ x ∧ x.length = 512
  buffer : ∃ x, Cells h ⟨u, 0⟩ x ∧ x.length = 512
  feat : ∃ x, Cells h ⟨f, 0⟩ x ∧ x.length = 40

/-- The blocks of the three. -/
def Trio (w u f c : Nat) : Prop := c = w ∨ c = u ∨ c = f

theorem computeFrame_ok (o : Ops F) (wild : Nat → F) {t : TabM} {h : Heap F} {w u f : Nat} (htab : Tables o)
    (hf : ScratchOnly o) (ht : Loaded h t o) (hclear : Clear t (Trio w u f)) (hwu : w ≠ u) (hwf : w ≠ f) (huf : u ≠ f)
    {x : List F} (hx : x.length = 400) (hl : Line h ⟨w, 0⟩ (windowed o x ++ List.replicate 112 o.zero))
    {cu cf : List (Option F)} (hcu : Cells h ⟨u, 0⟩ cu) (hlu : cu.length = 512) (hcf : Cells h ⟨f, 0⟩ cf)
    (hlf : cf.length = 40) :
    (∀ r, row o x = .ok r → ∃ h', computeFrameM o t wild ⟨some ⟨w, 0⟩, 512⟩ ⟨some ⟨f, 0⟩, 40⟩ ⟨some ⟨u, 0⟩, 512⟩ h =
        .ok h' ∧ Line h' ⟨f, 0⟩ r ∧ r.length = 40 ∧ Rooms h' w u f ∧ Within h h' (Trio w u f)) ∧
    (∀ e, row o x = .error e →
      computeFrameM o t wild ⟨some ⟨w, 0⟩, 512⟩ ⟨some ⟨f, 0⟩, 40⟩ ⟨some ⟨u, 0⟩, 512⟩ h = .error e) := by
  have hw : (windowed o x ++ List.replicate 112 o.zero).length = 512 := by
    rw [List.length_append, Fbank.windowed_length, List.length_replicate, hx]
  obtain ⟨b, eb, hb⟩ := scratch_ok wild hcu (n := 512) (by rw [hlu]; rfl)
  have hb' : b.length = 512 := by omega
  have er := readVec_ok hl (n := 512) (by rw [hw]; rfl)
  have hi := hf.indep _ b (List.replicate 512 o.zero) hw hb' List.length_replicate
  have hs : Fbank.Spec.spectrum o x = (o.fft (windowed o x ++ List.replicate 112 o.zero) b).map Prod.fst := hi.symm
  have start : computeFrameM o t wild ⟨some ⟨w, 0⟩, 512⟩ ⟨some ⟨f, 0⟩, 40⟩ ⟨some ⟨u, 0⟩, 512⟩ h = (do
      let r ← o.fft (windowed o x ++ List.replicate 112 o.zero) b
      let h ← writeVec ⟨some ⟨w, 0⟩, 512⟩ r.1 h
      let h ← writeVec ⟨some ⟨u, 0⟩, 512⟩ r.2 h
      let h ← powerSpectrumM o ⟨some ⟨w, 0⟩, 512⟩ h
      let _ ← subVec ⟨some ⟨w, 0⟩, 512⟩ 0 257 h
      let h ← melM o t ⟨some ⟨w, 0⟩, 512⟩ ⟨some ⟨f, 0⟩, 40⟩ h
      let h ← floorM o ⟨some ⟨f, 0⟩, 40⟩ h
      logM o ⟨some ⟨f, 0⟩, 40⟩ h) := by
    unfold computeFrameM fftM
    simp only
    rw [decide_eq_true (by unfold paddedLength; omega), cassert_true, ok_bind, decide_eq_true (by rfl), cassert_true,
      ok_bind, er, ok_bind, eb, ok_bind]
    simp only [bind_assoc]
    rfl
  rw [start]
  unfold row
  rw [hs]
  cases hc : o.fft (windowed o x ++ List.replicate 112 o.zero) b with
  | error e =>
    refine ⟨fun r h => (by cases h), fun e' h => ?_⟩
    rw [error_bind]
    cases h
    rfl
  | ok p =>
    obtain ⟨s, b1⟩ := p
    obtain ⟨hl1, hl2⟩ := hf.size _ _ _ _ hw hb' hc
    obtain ⟨w1, hp1, hp2, hp3⟩ := Fbank.powerSpectrum_ok o (w := s) (by omega) (by omega)
    have hm : melCompute o w1 = .ok (o.bins.map (energy o s)) := by
      unfold melCompute
      exact Fbank.mapM_ok _ _ _ (fun bin hbin => Fbank.melBin_ok o hl1 (by omega)
        (fun k hk => hp3 k (by omega)) (htab.2.2 bin hbin))
    have hTw : Trio w u f w := .inl rfl
    have hTu : Trio w u f u := .inr (.inl rfl)
    have hTf : Trio w u f f := .inr (.inr rfl)
    obtain ⟨g1, e1, l1, o1⟩ := writeVec_ok (y := s) (n := 512) (line_cells hl) (by rw [List.length_map]; omega)
      (by rw [List.length_map, hw]; rfl)
    obtain ⟨g2, e2, l2, o2⟩ := writeVec_ok (y := b1) (n := 512) (only_cells o1 (by exact hwu.symm) hcu) (by omega)
      (by rw [hlu]; rfl)
    have l1' : Line g2 ⟨w, 0⟩ s := o2.line (by exact hwu) l1
    obtain ⟨g3, e3, l3, o3⟩ := power_ok o (n := 512) l1' (by rw [hl1]; rfl) (by omega) hp1
    have V3 : Within h g3 (Trio w u f) := ((o1.inside hTw).trans (o2.inside hTu)).trans (o3.inside hTw)
    have hw1 : w1.length = 512 := by omega
    have hsub := subVec_ok (line_cells l3) (n := 512) (k := 0) (m := 257) (by omega) (by omega)
      (by rw [List.length_map]; omega) (by omega)
    have cf3 : Cells g3 ⟨f, 0⟩ cf :=
      only_cells o3 (by exact hwf.symm) (only_cells o2 (by exact huf.symm) (only_cells o1 (by exact hwf.symm) hcf))
    have t3 := ht.within V3 hclear.window hclear.bins
    obtain ⟨g4, e4, l4, o4⟩ := mel_ok o l3 hw1 cf3 hlf (by exact hwf) htab t3.bins
      (fun q hq a ha g => hclear.bins q hq a ha (by rw [g]; exact hTf)) hm
    have hE : (o.bins.map (energy o s)).length = 40 := by rw [List.length_map]; exact htab.2.1
    obtain ⟨g5, e5, l5, o5⟩ := floor_ok o (n := 40) l4 (by rw [hE]; rfl)
    have V5 : Within h g5 (Trio w u f) := (V3.trans (o4.inside hTf)).trans (o5.inside hTf)
    have step : (do
        let r ← (Except.ok (s, b1) : Exec (List F × List F))
        let h ← writeVec ⟨some ⟨w, 0⟩, 512⟩ r.1 h
        let h ← writeVec ⟨some ⟨u, 0⟩, 512⟩ r.2 h
        let h ← powerSpectrumM o ⟨some ⟨w, 0⟩, 512⟩ h
        let _ ← subVec ⟨some ⟨w, 0⟩, 512⟩ 0 257 h
        let h ← melM o t ⟨some ⟨w, 0⟩, 512⟩ ⟨some ⟨f, 0⟩, 40⟩ h
        let h ← floorM o ⟨some ⟨f, 0⟩, 40⟩ h
        logM o ⟨some ⟨f, 0⟩, 40⟩ h) = logM o ⟨some ⟨f, 0⟩, 40⟩ g5 := by
      rw [ok_bind, e1, ok_bind, e2, ok_bind, e3, ok_bind, show subVec ⟨some ⟨w, 0⟩, 512⟩ 0 257 g3 = _ from hsub, ok_bind, e4,
        ok_bind, e5, ok_bind]
    rw [step]
    have hrow : ((Except.ok (s, b1) : Exec (List F × List F)).map Prod.fst >>= fun s =>
        if loggable o s then (.ok (o.bins.map (feature o s)) : Exec (List F)) else .error .assert) =
        if loggable o s then .ok (o.bins.map (feature o s)) else .error .assert := rfl
    rw [hrow]
    have hall : ((o.bins.map (energy o s)).map fun v => if o.lt v o.eps then o.eps else v).all o.nonneg = loggable o s := by
      unfold loggable
      rw [List.map_map, List.all_map]
      rfl
    have hlen5 : ((o.bins.map (energy o s)).map fun v => if o.lt v o.eps then o.eps else v).length = 40 := by
      rw [List.length_map, hE]
    by_cases hlog : loggable o s = true
    · rw [if_pos hlog]
      refine ⟨fun r h => ?_, fun e h => (by cases h)⟩
      cases h
      obtain ⟨g6, e6, l6, o6⟩ := log_ok o (n := 40) l5 (by rw [hlen5]; rfl) (by rw [hall]; exact hlog)
      rw [List.map_map, List.map_map] at l6
      have V6 := V5.trans (o6.inside hTf)
      have hr : (o.bins.map (feature o s)).length = 40 := by rw [List.length_map]; exact htab.2.1
      refine ⟨g6, e6, l6, hr, ⟨⟨w1.map some, ?_, by rw [List.length_map, hw1]⟩, ⟨b1.map some, ?_, by
        rw [List.length_map, hl2]⟩, ⟨(o.bins.map (feature o s)).map some, line_cells l6, by rw [List.length_map, hr]⟩⟩, V6⟩
      · exact only_cells o6 (by exact hwf) (only_cells o5 (by exact hwf) (only_cells o4 (by exact hwf) (line_cells l3)))
      · exact only_cells o6 (by exact huf) (only_cells o5 (by exact huf) (only_cells o4 (by exact huf)
          (only_cells o3 (by exact hwu.symm) (line_cells l2))))
    · rw [if_neg hlog]
      refine ⟨fun r h => (by cases h), fun e h => ?_⟩
      cases h
      exact log_fail o (n := 40) l5 (by rw [hlen5]; rfl) (by rw [hall]; exact hlog)

end Verif.FbankMem
