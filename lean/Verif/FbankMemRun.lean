import Verif.FbankMemFrame

/-!
# A call of the feature extraction in memory
-/

namespace Verif.FbankMem

open Mat (Heap Addr View load poke loop peek)
open VecMem (Vec elem setElem get put subVec copyVec resizePlain resizeCopy destroy)
open NetMem
open NetMem.Spec (Line Shows VShows Live InOrder block)
open AmMem.Spec (Effect Sub Rows)
open AmMem
open Fbank (Ops fbankDim frameShift frameLength paddedLength calcNumFrames)
open Fbank.Spec (Tables ScratchOnly windowed row frame frames numFrames)
open Spec

variable {F : Type}

/-! ## Effects after each other -/

/-- What is done after another thing, to blocks that may or may not be those of before. -/
theorem _root_.Verif.AmMem.Spec.Effect.seq {h h1 h2 : Heap F} {P Q R S : Nat → Prop} (a : Effect h h1 P Q)
    (b : Effect h1 h2 R S) (hR : ∀ c, R c → ¬ Q c → Live h c ∧ ¬ P c) :
    Effect h h2 (fun c => P c ∨ (R c ∧ ¬ Q c)) (fun c => S c ∨ (Q c ∧ ¬ R c)) := by
  have a' := a.frame (fun c => R c ∧ ¬ Q c) (fun c hc => hR c hc.1 hc.2)
  have b' := b.frame (fun c => Q c ∧ ¬ R c) (fun c hc => ⟨(a.live c).mpr (.inr hc.1), hc.2⟩)
  refine a'.trans (b'.of (fun c => ?_) (fun _ => Iff.rfl))
  by_cases hq : Q c <;> by_cases hr : R c <;> simp [hq, hr]

/-- What is done to blocks that are there already. -/
theorem _root_.Verif.AmMem.Spec.Effect.then {h h1 h2 : Heap F} {P Q R S : Nat → Prop} (a : Effect h h1 P Q)
    (b : Effect h1 h2 R S) (hR : ∀ c, R c → Q c) : Effect h h2 P (fun c => S c ∨ (Q c ∧ ¬ R c)) :=
  (a.seq b (fun c g1 g2 => absurd (hR c g1) g2)).of (fun c => ⟨fun g => g.elim id (fun g => absurd (hR c g.1) g.2), .inl⟩)
    (fun _ => Iff.rfl)

theorem vshows_step {h h' : Heap F} {P Q : Nat → Prop} (E : Effect h h' P Q) {v : Vec} {x : List F} (s : VShows h v x)
    (hx : x ≠ []) (hv : ∀ a, v.data = some a → ¬ P a.block) : VShows h' v x ∧ ∀ a, v.data = some a → ¬ Q a.block := by
  obtain ⟨a, h1, h2⟩ := s.line
  refine ⟨⟨s.dim, a, h1, E.line h2 (hv a h1)⟩, fun b hb => ?_⟩
  rw [h1] at hb
  cases hb
  exact E.not (line_lt h2 hx) (hv a h1)

theorem tables_step {h h' : Heap F} {P Q : Nat → Prop} (E : Effect h h' P Q) {t : TabM} {o : Ops F} (ho : Tables o)
    (s : Loaded h t o) (c : Clear t P) : Loaded h' t o ∧ Clear t Q := by
  have hw := vshows_step E s.window (by intro g; have := ho.1; rw [g] at this; cases this) c.window
  have hb : List.Forall₂ (fun p q => p.1 = (q.1 : Int) ∧ q.2 ≠ [] ∧ VShows h' p.2 q.2) t.bins o.bins ∧
      ∀ q ∈ t.bins, ∀ a, q.2.data = some a → ¬ Q a.block := by
    have := s.bins
    have hc := c.bins
    revert this hc
    generalize t.bins = tb
    generalize o.bins = ob
    intro hf
    induction hf with
    | nil => exact fun _ => ⟨.nil, fun q hq => by cases hq⟩
    | cons g1 _ ih =>
      intro hc
      obtain ⟨i1, i2⟩ := ih (fun q hq => hc q (List.mem_cons_of_mem _ hq))
      obtain ⟨j1, j2⟩ := vshows_step E g1.2.2 g1.2.1 (hc _ List.mem_cons_self)
      refine ⟨.cons ⟨g1.1, g1.2.1, j1⟩ i1, fun q hq => ?_⟩
      rcases List.mem_cons.mp hq with rfl | hq
      · exact j2
      · exact i2 q hq
  exact ⟨⟨hw.1, hb.1⟩, ⟨hw.2, hb.2⟩⟩

/-! ## Rows -/

/-- One row of a matrix has been written. -/
theorem shows_set {h h' : Heap F} {v : View} {a : Addr} {m : List (List F)} (s : Shows h v a m) {i : Nat}
    (hi : i < m.length) {y : List F} (hy : (y.length : Int) = v.cols) (hl : Line h' (rowAt v a i) y)
    (ho : Only h h' (rowAt v a i) y.length) : Shows h' v a (m.set i y) := by
  refine ⟨s.data, ?_, by rw [List.length_set]; exact s.rows, ?_, s.wide, s.stride, s.size, ?_⟩
  · intro g
    have := congrArg List.length g
    rw [List.length_set, List.length_nil] at this
    omega
  · intro x hx
    rcases List.mem_or_eq_of_mem_set hx with g | rfl
    · exact s.cols x g
    · exact hy
  · intro k x hx
    by_cases hk : i = k
    · subst hk
      rw [List.getElem?_set_self hi] at hx
      cases hx
      exact hl
    · rw [List.getElem?_set_ne hk] at hx
      intro j z hz
      have hj := (List.getElem?_eq_some_iff.mp hz).1
      have hxc := s.cols x (List.mem_of_getElem? hx)
      have := s.line k x hx j z hz
      rw [← this]
      refine ho.other ⟨(rowAt v a k).block, (rowAt v a k).off + j⟩ ?_
      rintro ⟨_, g1, g2⟩
      exact rows_apart s.proper (Ne.symm hk) (j := j) (by omega) ⟨g1, by simp only at g2; omega⟩

theorem Within.shows {h h' : Heap F} {X : Nat → Prop} (p : Within h h' X) {v : View} {a : Addr} {m : List (List F)}
    (s : Shows h v a m) (ha : ¬ X a.block) : Shows h' v a m :=
  s.keep (fun b hb => p.other b (by rw [hb]; exact ha))

theorem frames_get {wave : List F} {i : Nat} (hi : i < numFrames wave.length) :
    (frames wave)[i]? = some (frame wave i) := by
  unfold Fbank.Spec.frames
  rw [List.getElem?_map, List.getElem?_range hi]
  rfl

theorem frames_take {wave : List F} {i : Nat} (hi : i < numFrames wave.length) :
    ((frames wave).take (i + 1)).mapM (row o) = (((frames wave).take i).mapM (row o) >>= fun rs => do
      let r ← row o (frame wave i)
      .ok (rs ++ [r])) := by
  rw [List.take_add_one, frames_get hi, Option.toList_some, Fbank.mapM_append_exec]
  congr 1
  funext rs
  rw [List.mapM_cons, List.mapM_nil]
  cases row o (frame wave i) <;> rfl

/-- The blocks that change in the loop. -/
def Four (w u f M c : Nat) : Prop := Trio w u f c ∨ c = M

/-- The matrix on the way: the rows there are, then zeros. -/
def part (o : Ops F) (rs : List (List F)) (n : Nat) : List (List F) :=
  rs ++ List.replicate (n - rs.length) (List.replicate 40 o.zero)

theorem frame_ok (o : Ops F) (wild : Nat → F) {t : TabM} {h : Heap F} {w u f M B : Nat} (htab : Tables o)
    (hf : ScratchOnly o) (ht : Loaded h t o) (hclear : Clear t (Four w u f M)) (hwu : w ≠ u) (hwf : w ≠ f) (huf : u ≠ f)
    (hM : ¬ Trio w u f M) (hB : ¬ Four w u f M B) {wave : List F} (hl : Line h ⟨B, 0⟩ wave)
    (hbig : wave.length < 536870912) (R : Rooms h w u f) {v : View} {rs : List (List F)} {n : Nat}
    (hv : Shows h v ⟨M, 0⟩ (part o rs n)) (hcols : v.cols = 40) (hn : n = numFrames wave.length) (hi : rs.length < n) :
    (∀ r, row o (frame wave rs.length) = .ok r → ∃ h', frameM o t wild ⟨some ⟨B, 0⟩, wave.length⟩ ⟨some ⟨w, 0⟩, 512⟩
        ⟨some ⟨u, 0⟩, 512⟩ ⟨some ⟨f, 0⟩, 40⟩ v (rs.length : Nat) h = .ok h' ∧ Rooms h' w u f ∧ Within h h' (Four w u f M) ∧
        Shows h' v ⟨M, 0⟩ (part o (rs ++ [r]) n)) ∧
    (∀ e, row o (frame wave rs.length) = .error e → frameM o t wild ⟨some ⟨B, 0⟩, wave.length⟩ ⟨some ⟨w, 0⟩, 512⟩
        ⟨some ⟨u, 0⟩, 512⟩ ⟨some ⟨f, 0⟩, 40⟩ v (rs.length : Nat) h = .error e) := by
  have hlong : 160 * rs.length + 400 ≤ wave.length := by
    rw [hn] at hi
    unfold numFrames at hi
    split at hi <;> omega
  have hfl : (frame wave rs.length).length = 400 := by
    unfold Fbank.Spec.frame; rw [List.length_take, List.length_drop]; omega
  obtain ⟨cw, hcw, hlw⟩ := R.window
  obtain ⟨cu, hcu, hlu⟩ := R.buffer
  obtain ⟨cf, hcf, hlf⟩ := R.feat
  have hTw : Trio w u f w := .inl rfl
  have hTf : Trio w u f f := .inr (.inr rfl)
  have c3 : Clear t (Trio w u f) := ⟨fun a ha g => hclear.window a ha (.inl g), fun q hq a ha g => hclear.bins q hq a ha (.inl g)⟩
  obtain ⟨g1, e1, l1, o1⟩ := extract_ok o (w := ⟨w, 0⟩) (b := ⟨B, 0⟩) hcw hlw hl
    (by intro g; exact hB (.inl (.inl g))) htab ht.window
    (fun c hc g => c3.window c hc (by rw [g]; exact hTw)) hlong hbig
  have V1 : Within h g1 (Trio w u f) := o1.inside hTw
  have t1 := ht.within V1 c3.window c3.bins
  obtain ⟨k1, k2⟩ := computeFrame_ok o wild htab hf t1 c3 hwu hwf huf hfl l1
    (only_cells o1 (by exact hwu.symm) hcu) hlu (only_cells o1 (by exact hwf.symm) hcf) hlf
  refine ⟨fun r hr => ?_, fun e he => ?_⟩
  · obtain ⟨g2, e2, l2, hr40, R2, V2⟩ := k1 r hr
    have V12 := V1.trans V2
    have s2 : Shows g2 v ⟨M, 0⟩ (part o rs n) := V12.shows hv hM
    have hlen : (part o rs n).length = n := by
      unfold part; rw [List.length_append, List.length_replicate]; omega
    have hx := List.getElem?_eq_getElem (l := part o rs n) (i := rs.length) (by omega)
    have hxc := s2.cols _ (List.mem_of_getElem? hx)
    have hM' : f ≠ M := fun g => hM (by rw [← g]; exact hTf)
    obtain ⟨g3, e3, l3, o3⟩ := copyVec_line (n := v.cols) (k := 40) (s2.line _ _ hx) l2 (by exact hM') (by omega) (by omega)
      (by omega)
    have hrow : rowOf v ((rs.length : Nat) : Int) = .ok ⟨some (rowAt v ⟨M, 0⟩ rs.length), v.cols⟩ :=
      rowOf_ok s2.proper (by rw [s2.rows]; omega)
    have hlr : ((part o rs n)[rs.length]'(by omega)).length = r.length := by omega
    rw [hlr] at o3
    have s3 := shows_set s2 (i := rs.length) (y := r) (by omega) (by omega) l3 o3
    have V3 : Within g2 g3 (Four w u f M) := o3.inside (.inr rfl)
    refine ⟨g3, ?_, ?_, (V12.mono (fun c g => .inl g)).trans V3, ?_⟩
    · unfold frameM
      rw [e1, ok_bind, e2, ok_bind, hrow, ok_bind]
      exact e3
    · have keep : ∀ c (x : List (Option F)), Trio w u f c → Cells g2 ⟨c, 0⟩ x → Cells g3 ⟨c, 0⟩ x := fun c x hc hx =>
        only_cells o3 (by intro g; exact hM (by have g' : c = M := g; rw [← g']; exact hc)) hx
      obtain ⟨x1, p1, q1⟩ := R2.window
      obtain ⟨x2, p2, q2⟩ := R2.buffer
      obtain ⟨x3, p3, q3⟩ := R2.feat
      exact ⟨⟨x1, keep w x1 (.inl rfl) p1, q1⟩, ⟨x2, keep u x2 (.inr (.inl rfl)) p2, q2⟩, ⟨x3, keep f x3 hTf p3, q3⟩⟩
    · have : (part o rs n).set rs.length r = part o (rs ++ [r]) n := by
        unfold part
        rw [List.set_append_right _ _ (Nat.le_refl _), Nat.sub_self, List.length_append, List.length_singleton,
          show n - rs.length = (n - (rs.length + 1)) + 1 by omega, List.replicate_succ, List.set_cons_zero,
          List.append_assoc]
        rfl
      rw [← this]
      exact s3
  · unfold frameM
    rw [e1, ok_bind, k2 e he, error_bind]

theorem loop_ok (o : Ops F) (wild : Nat → F) {t : TabM} {h : Heap F} {w u f M B : Nat} (htab : Tables o)
    (hf : ScratchOnly o) (ht : Loaded h t o) (hclear : Clear t (Four w u f M)) (hwu : w ≠ u) (hwf : w ≠ f) (huf : u ≠ f)
    (hM : ¬ Trio w u f M) (hB : ¬ Four w u f M B) {wave : List F} (hl : Line h ⟨B, 0⟩ wave)
    (hbig : wave.length < 536870912) (R : Rooms h w u f) {v : View} {n : Nat}
    (hv : Shows h v ⟨M, 0⟩ (part o [] n)) (hcols : v.cols = 40) (hn : n = numFrames wave.length) :
    (∀ rows, (frames wave).mapM (row o) = .ok rows → ∃ h', loop n (frameM o t wild ⟨some ⟨B, 0⟩, wave.length⟩
        ⟨some ⟨w, 0⟩, 512⟩ ⟨some ⟨u, 0⟩, 512⟩ ⟨some ⟨f, 0⟩, 40⟩ v) h = .ok h' ∧ Rooms h' w u f ∧
        Within h h' (Four w u f M) ∧ Shows h' v ⟨M, 0⟩ rows) ∧
    (∀ e, (frames wave).mapM (row o) = .error e → loop n (frameM o t wild ⟨some ⟨B, 0⟩, wave.length⟩
        ⟨some ⟨w, 0⟩, 512⟩ ⟨some ⟨u, 0⟩, 512⟩ ⟨some ⟨f, 0⟩, 40⟩ v) h = .error e) := by
  have hflen : (frames wave).length = n := by unfold Fbank.Spec.frames; rw [List.length_map, List.length_range, hn]
  have key : ∀ x : Fault, (∀ i e, i < n → (∃ rs, ((frames wave).take i).mapM (row o) = .ok rs) →
      row o (frame wave i) = .error e → e = x) →
      (∃ h', loop n (frameM o t wild ⟨some ⟨B, 0⟩, wave.length⟩
        ⟨some ⟨w, 0⟩, 512⟩ ⟨some ⟨u, 0⟩, 512⟩ ⟨some ⟨f, 0⟩, 40⟩ v) h = .ok h' ∧ (Rooms h' w u f ∧
        Within h h' (Four w u f M) ∧ ∃ rs, ((frames wave).take n).mapM (row o) = .ok rs ∧ rs.length = n ∧
          Shows h' v ⟨M, 0⟩ (part o rs n))) ∨
      loop n (frameM o t wild ⟨some ⟨B, 0⟩, wave.length⟩
        ⟨some ⟨w, 0⟩, 512⟩ ⟨some ⟨u, 0⟩, 512⟩ ⟨some ⟨f, 0⟩, 40⟩ v) h = .error x := by
    intro x hx
    unfold loop
    rw [Int.toNat_natCast]
    refine range_or (fun i h1 => Rooms h1 w u f ∧ Within h h1 (Four w u f M) ∧
      ∃ rs, ((frames wave).take i).mapM (row o) = .ok rs ∧ rs.length = i ∧ Shows h1 v ⟨M, 0⟩ (part o rs n)) h
      ⟨R, ⟨fun _ _ => rfl, .refl h⟩, [], rfl, rfl, hv⟩ n ?_
    rintro i h1 hi ⟨R1, V1, rs, er, rfl, s1⟩
    obtain ⟨k1, k2⟩ := frame_ok o wild htab hf (ht.within V1 hclear.window hclear.bins) hclear hwu hwf huf hM hB
      (V1.line hl hB) hbig R1 s1 hcols hn hi
    have htake := frames_take (o := o) (wave := wave) (i := rs.length) (by omega)
    rw [er, ok_bind] at htake
    cases hr : row o (frame wave rs.length) with
    | ok r =>
      obtain ⟨h2, e2, R2, V2, s2⟩ := k1 r hr
      rw [hr, ok_bind] at htake
      exact .inl ⟨h2, e2, R2, V1.trans V2, rs ++ [r], htake, by rw [List.length_append]; rfl, s2⟩
    | error e =>
      rw [← hx _ e hi ⟨rs, er⟩ hr]
      exact .inr (k2 e hr)
  have whole : ∀ i e, i < n → (∃ rs, ((frames wave).take i).mapM (row o) = .ok rs) → row o (frame wave i) = .error e →
      (frames wave).mapM (row o) = .error e := by
    rintro i e hi ⟨rs, er⟩ hr
    have h1 := frames_take (o := o) (wave := wave) (i := i) (by omega)
    rw [er, ok_bind, hr, error_bind] at h1
    rw [← List.take_append_drop (i + 1) (frames wave), Fbank.mapM_append_exec, h1, error_bind]
  refine ⟨fun rows hrows => ?_, fun e he => ?_⟩
  · rcases key .ub (fun i e hi hrs hr => by rw [whole i e hi hrs hr] at hrows; cases hrows) with ⟨h', e', R', V', rs, er, hrl, s'⟩ | g
    · rw [List.take_of_length_le (by omega), hrows] at er
      cases er
      refine ⟨h', e', R', V', ?_⟩
      unfold part at s'
      rw [hrl, Nat.sub_self, List.replicate_zero, List.append_nil] at s'
      exact s'
    · rcases key .assert (fun i e hi hrs hr => by rw [whole i e hi hrs hr] at hrows; cases hrows) with ⟨h', e', _⟩ | g'
      · rw [g] at e'; cases e'
      · rw [g] at g'; cases g'
  · rcases key e (fun i e' hi hrs hr => by rw [whole i e' hi hrs hr] at he; cases he; rfl) with ⟨h', e', R', V', rs, er, hrl, s'⟩ | g
    · rw [List.take_of_length_le (by omega), he] at er
      cases er
    · exact g

/-! ## The whole call -/

/-- The operations of the network of which only the zero is used: resizing a matrix. -/
def net (o : Ops F) : Nnet.Ops F :=
  ⟨o.zero, o.zero, o.add, o.sub, o.mul, o.div, o.lt, o.ofInt, o.log, o.log, o.log, o.mul, fun x _ => x⟩

theorem Spec.Has.live {h : Heap F} {v : Vec} {x : List F} {P : Nat → Prop} (s : Has h v x P) {c : Nat} (hc : P c) :
    Live h c := by
  cases s with
  | empty => exact absurd hc id
  | full hx hl => rw [hc]; exact line_live hl hx

theorem Spec.Has.dim {h : Heap F} {v : Vec} {x : List F} {P : Nat → Prop} (s : Has h v x P) : v.dim = x.length := by
  cases s <;> rfl

/-- Samples are appended to the buffer. -/
theorem append_ok (o : Ops F) {h : Heap F} {buf wave : Vec} {x y : List F} {P : Nat → Prop} (hb : Has h buf x P)
    (hw : VShows h wave y) (hy : y ≠ []) (hwP : ∀ a, wave.data = some a → ¬ P a.block)
    (hbig : x.length + y.length < 536870912) :
    ∃ h' B, appendM o buf wave h = .ok (⟨some ⟨B, 0⟩, (x ++ y).length⟩, h') ∧
      Line h' ⟨B, 0⟩ (x ++ y) ∧ Effect h h' P (fun c => c = B) := by
  have h0 := List.length_pos_iff.mpr hy
  obtain ⟨h1, B, e1, l1, E1⟩ := resizeCopy_ok o.zero hb (n := x.length + y.length) (by omega) (by omega)
  obtain ⟨w1, n1⟩ := vshows_step E1 hw hy hwP
  obtain ⟨a, ha, la⟩ := w1.line
  have hne := n1 a ha
  rw [Nat.add_sub_cancel_left] at l1
  have hsub := subVec_ok (line_cells l1) (n := x.length + y.length) (k := x.length) (m := y.length) h0 (Nat.le_refl _)
    (by rw [List.length_map, List.length_append, List.length_replicate]) (by omega)
  have c1 := cells_drop (line_cells l1) x.length
  have hdrop : ((x ++ List.replicate y.length o.zero).map some).drop x.length =
      (List.replicate y.length o.zero).map some := by
    rw [← List.map_drop, List.drop_left]
  rw [hdrop] at c1
  have hlc : ((List.replicate y.length o.zero).map (some : F → Option F)).length = y.length := by
    rw [List.length_map, List.length_replicate]
  obtain ⟨h2, e2, l2, o2⟩ := copyVec_fills (n := (y.length : Int)) (k := (y.length : Int)) c1 la (by exact hne)
    (by rw [hlc]) (by rw [hlc]) (by rw [hlc])
  rw [hlc] at o2
  have lx : Line h1 ⟨B, 0⟩ x := by
    have := line_part l1 0 x.length
    rw [List.drop_zero, List.take_left] at this
    exact this
  have lx2 : Line h2 ⟨B, 0⟩ x := cells_line (only_beside o2 (k := 0) (.inl (by
    rw [List.length_map])) (line_cells lx))
  have hall : Line h2 ⟨B, 0⟩ (x ++ y) := by
    apply cells_line
    rw [List.map_append]
    refine cells_append (line_cells lx2) ?_
    rw [List.length_map]
    exact line_cells l2
  refine ⟨h2, B, ?_, hall, E1.trans (o2.apart.effect ((E1.live B).mpr (.inr rfl)))⟩
  have hwave : wave = ⟨some a, (y.length : Int)⟩ := by rw [← ha, ← hw.dim]
  unfold appendM
  rw [hb.dim, hw.dim, i32_of (by unfold InI32; omega), ok_bind,
    show ((x.length : Int) + (y.length : Int)) = ((x.length + y.length : Nat) : Int) by omega, e1, ok_bind]
  simp only
  rw [show ((x.length + y.length : Nat) : Int) - (x.length : Int) = (y.length : Int) by omega,
    i32_of (by unfold InI32; omega), ok_bind, hsub, ok_bind, hwave, e2, ok_bind, List.length_append]

/-- The samples that are not needed any more are removed. -/
theorem shrink_ok (o : Ops F) {h : Heap F} {B : Nat} {x : List F} (hl : Line h ⟨B, 0⟩ x)
    (hbig : x.length < 536870912) (hn : 0 < numFrames x.length) :
    ∃ h' C N, shrinkM o ⟨some ⟨B, 0⟩, x.length⟩ (numFrames x.length : Nat) h =
        .ok ((⟨some ⟨C, 0⟩, (x.drop (160 * numFrames x.length)).length⟩,
          ⟨some ⟨N, 0⟩, (x.drop (160 * numFrames x.length)).length⟩), h') ∧
      Line h' ⟨C, 0⟩ (x.drop (160 * numFrames x.length)) ∧ Live h' N ∧ N ≠ C ∧
      Effect h h' (fun c => c = B) (fun c => c = C ∨ c = N) ∧ h.length ≤ N := by
  have hle : 160 * numFrames x.length + 240 ≤ x.length := by unfold numFrames at hn ⊢; split at hn <;> split <;> omega
  have hx : x ≠ [] := by intro g; rw [g] at hle; simp at hle
  generalize hk : numFrames x.length = k at *
  have hlen : (x.drop (160 * k)).length = x.length - 160 * k := List.length_drop
  generalize hz : x.drop (160 * k) = z at *
  have hz0 : 0 < z.length := by omega
  obtain ⟨h1, e1, l1, E1⟩ := newZero_ok o.zero h (n := z.length) hz0 (by omega)
  have lB := E1.line hl id
  have hBlt : B < h.length := line_lt hl hx
  have hsub := subVec_ok (line_cells lB) (n := x.length) (k := 160 * k) (m := z.length) hz0 (by omega)
    (by rw [List.length_map]) (by omega)
  have lz : Line h1 ⟨B, 0 + ((160 * k : Nat) : Int)⟩ z := by
    have := line_part lB (160 * k) z.length
    rw [hz, List.take_length] at this
    exact this
  obtain ⟨h2, e2, l2, o2⟩ := copyVec_line (n := (z.length : Int)) (k := (z.length : Int)) l1 lz
    (by show B ≠ h.length; omega) (by rw [List.length_replicate]) (by rw [List.length_replicate])
    (by rw [List.length_replicate])
  have hN1 : Live h1 h.length := (E1.live _).mpr (.inr rfl)
  have E2 : Effect h h2 (fun _ => False) (fun c => c = h.length) := E1.trans (o2.apart.effect hN1)
  obtain ⟨h3, C, e3, l3, E3⟩ := resizeZeroVec_ok o.zero hx (E2.line hl id) (n := z.length) hz0 (by omega)
  have hN2 : h.length < h2.length := line_lt l2 (by intro g; rw [g] at hz0; cases hz0)
  have hNC : h.length ≠ C := by
    intro g
    exact E3.not hN2 (by intro g'; omega) g
  have l2' : Line h3 ⟨h.length, 0⟩ z := E3.line l2 (by intro g; have g' : h.length = B := g; omega)
  obtain ⟨h4, e4, l4, o4⟩ := copyVec_line (n := (z.length : Int)) (k := (z.length : Int)) l3 l2'
    (by exact hNC) (by rw [List.length_replicate]) (by rw [List.length_replicate]) (by rw [List.length_replicate])
  have E4 := E3.trans (o4.apart.effect ((E3.live C).mpr (.inr rfl)))
  have E24 := E2.seq E4 (fun c hc _ => by
    have hc' : c = B := hc
    rw [hc']
    exact ⟨line_live hl hx, id⟩)
  have Eall : Effect h h4 (fun c => c = B) (fun c => c = C ∨ c = h.length) := E24.of (fun c => by
      constructor
      · rintro (g | g)
        · exact absurd g id
        · exact g.1
      · intro g
        exact .inr ⟨g, by omega⟩) (fun c => by
      constructor
      · rintro (g | g)
        · exact .inl g
        · exact .inr g.1
      · rintro (g | g)
        · exact .inl g
        · exact .inr ⟨g, by omega⟩)
  refine ⟨h4, C, h.length, ?_, l4, (Eall.live _).mpr (.inr (.inr rfl)), hNC, Eall, Nat.le_refl _⟩
  unfold shrinkM
  simp only
  rw [show ((frameShift : Nat) : Int) * (k : Int) = ((160 * k : Nat) : Int) by unfold frameShift; omega,
    i32_of (by unfold InI32; omega), ok_bind,
    show (x.length : Int) - ((160 * k : Nat) : Int) = (z.length : Int) by omega,
    i32_of (by unfold InI32; omega), ok_bind, e1, ok_bind]
  simp only
  rw [hsub, ok_bind, e2, ok_bind, e3, ok_bind]
  simp only
  rw [e4, ok_bind]

/-- The three vectors without contents and the frames. -/
theorem framesM_ok (o : Ops F) (wild : Nat → F) {t : TabM} {h : Heap F} {M B : Nat} (htab : Tables o)
    (hf : ScratchOnly o) (ht : Loaded h t o) (hclear : Clear t (fun c => c = M)) (hBM : B ≠ M) {wave : List F}
    (hl : Line h ⟨B, 0⟩ wave) (hbig : wave.length < 536870912) (h0 : 0 < numFrames wave.length) {v : View}
    (hv : Shows h v ⟨M, 0⟩ (part o [] (numFrames wave.length))) (hcols : v.cols = 40) :
    (∀ rows, (frames wave).mapM (row o) = .ok rows → ∃ h' w u f, framesM o t wild ⟨some ⟨B, 0⟩, wave.length⟩ v
        (numFrames wave.length : Nat) h = .ok ((⟨some ⟨w, 0⟩, 512⟩, ⟨some ⟨u, 0⟩, 512⟩, ⟨some ⟨f, 0⟩, 40⟩), h') ∧
        Shows h' v ⟨M, 0⟩ rows ∧ (w ≠ u ∧ w ≠ f ∧ u ≠ f ∧ h.length ≤ w ∧ h.length ≤ u ∧ h.length ≤ f) ∧
        Effect h h' (fun c => c = M) (fun c => Four w u f M c)) ∧
    (∀ e, (frames wave).mapM (row o) = .error e → framesM o t wild ⟨some ⟨B, 0⟩, wave.length⟩ v
        (numFrames wave.length : Nat) h = .error e) := by
  have hx : wave ≠ [] := by
    intro g
    rw [g] at h0
    exact absurd h0 (Nat.lt_irrefl 0)
  have hBlt : B < h.length := line_lt hl hx
  have hMlt : M < h.length := live_lt hv.live
  have ew := newRaw_ok o.zero h (n := 512) (by omega) (by omega)
  obtain ⟨cw, Ew⟩ := alloc_effect h 512
  generalize hw1 : h ++ [some (List.replicate 512 none)] = h1 at ew cw Ew
  have hlen1 : h1.length = h.length + 1 := by rw [← hw1, List.length_append]; rfl
  have eu := newRaw_ok o.zero h1 (n := 512) (by omega) (by omega)
  obtain ⟨cu, Eu⟩ := alloc_effect h1 512
  generalize hu1 : h1 ++ [some (List.replicate 512 none)] = h2 at eu cu Eu
  have hlen2 : h2.length = h1.length + 1 := by rw [← hu1, List.length_append]; rfl
  have ef := newRaw_ok o.zero h2 (n := 40) (by omega) (by omega)
  obtain ⟨cf, Ef⟩ := alloc_effect h2 40
  generalize hf1 : h2 ++ [some (List.replicate 40 none)] = h3 at ef cf Ef
  have E2 : Effect h h2 (fun _ => False) (fun c => c = h1.length ∨ c = h.length) :=
    (Ew.then Eu (fun c g => absurd g id)).of (fun _ => Iff.rfl) (fun c => by simp)
  have E3 : Effect h h3 (fun _ => False) (fun c => Trio h.length h1.length h2.length c) :=
    (E2.then Ef (fun c g => absurd g id)).of (fun _ => Iff.rfl) (fun c => by
      unfold Trio
      constructor
      · rintro (g | ⟨g | g, _⟩)
        · exact .inr (.inr g)
        · exact .inr (.inl g)
        · exact .inl g
      · rintro (g | g | g)
        · exact .inr ⟨.inr g, id⟩
        · exact .inr ⟨.inl g, id⟩
        · exact .inl g)
  have E3M : Effect h h3 (fun c => c = M) (fun c => Four h.length h1.length h2.length M c) :=
    (E3.frame (fun c => c = M) (by rintro c rfl; exact ⟨hv.live, id⟩)).of (fun c => by simp) (fun c => Iff.rfl)
  obtain ⟨t3, k3⟩ := tables_step E3M htab ht hclear
  have hR : Rooms h3 h.length h1.length h2.length := by
    have cu2 : Cells h2 ⟨h.length, 0⟩ (List.replicate 512 none) := fun i c hc =>
      (Eu.kept ⟨h.length, 0 + (i : Int)⟩ (by show h.length < _; omega) id).trans (cw i c hc)
    refine ⟨⟨_, fun i c hc => (Ef.kept ⟨h.length, 0 + (i : Int)⟩ (by show h.length < _; omega) id).trans (cu2 i c hc),
        List.length_replicate⟩,
      ⟨_, fun i c hc => (Ef.kept ⟨h1.length, 0 + (i : Int)⟩ (by show h1.length < _; omega) id).trans (cu i c hc),
        List.length_replicate⟩, ⟨_, cf, List.length_replicate⟩⟩
  obtain ⟨r1, r2⟩ := loop_ok o wild htab hf t3 k3 (by omega) (by omega) (by omega)
    (by unfold Trio; omega) (B := B) (by unfold Four Trio; omega) (E3.line hl id) hbig hR (E3.shows hv id) hcols rfl
  have start : framesM o t wild ⟨some ⟨B, 0⟩, wave.length⟩ v (numFrames wave.length : Nat) h = (do
      let g ← loop (numFrames wave.length : Nat) (frameM o t wild ⟨some ⟨B, 0⟩, wave.length⟩ ⟨some ⟨h.length, 0⟩, 512⟩
        ⟨some ⟨h1.length, 0⟩, 512⟩ ⟨some ⟨h2.length, 0⟩, 40⟩ v) h3
      .ok ((⟨some ⟨h.length, 0⟩, 512⟩, ⟨some ⟨h1.length, 0⟩, 512⟩, ⟨some ⟨h2.length, 0⟩, 40⟩), g)) := by
    unfold framesM paddedLength fbankDim
    rw [ew, ok_bind]
    simp only
    rw [eu, ok_bind]
    simp only
    rw [ef, ok_bind]
    rfl
  rw [start]
  refine ⟨fun rows hrows => ?_, fun e he => ?_⟩
  · obtain ⟨h4, e4, R4, V4, s4⟩ := r1 rows hrows
    refine ⟨h4, h.length, h1.length, h2.length, by rw [e4, ok_bind], s4, ⟨by omega, by omega, by omega, by omega, by omega,
      by omega⟩, E3M.trans (V4.effect (fun c hc => (E3M.live c).mpr (.inr hc)))⟩
  · rw [r2 e he, error_bind]

theorem process_ok (o : Ops F) (wild : Nat → F) {t : TabM} {h : Heap F} (htab : Tables o) (hf : ScratchOnly o)
    {buf wave : Vec} {x y : List F} {P : Nat → Prop} (hb : Has h buf x P) (hw : VShows h wave y) (hy : y ≠ [])
    {feats : View} (hv : InOrder h feats) (hPv : ∀ c, P c → some c ≠ block feats) (ht : Loaded h t o)
    (hclear : Clear t (fun c => P c ∨ some c = block feats)) (hwave : ∀ a, wave.data = some a → ¬ P a.block)
    (hbig : x.length + y.length < 536870912) :
    (∀ rows, (frames (x ++ y)).mapM (row o) = .ok rows → ∃ buf' feats' h' Q,
      processM o t wild buf wave feats h = .ok (buf', feats', h') ∧
      Has h' buf' ((x ++ y).drop (160 * numFrames (x ++ y).length)) Q ∧ Rows h' feats' rows ∧
      (∀ c, Q c → some c ≠ block feats') ∧
      Effect h h' (fun c => P c ∨ some c = block feats) (fun c => Q c ∨ some c = block feats')) ∧
    (∀ e, (frames (x ++ y)).mapM (row o) = .error e → processM o t wild buf wave feats h = .error e) := by
  have hpos := List.length_pos_iff.mpr hy
  have hlen : (x ++ y).length = x.length + y.length := List.length_append
  have hz : x ++ y ≠ [] := by intro g; rw [g] at hlen; simp at hlen; omega
  obtain ⟨h1, B, e1, l1, E1⟩ := append_ok o hb hw hy hwave hbig
  generalize hxy : x ++ y = z at *
  have hblk : ∀ c, some c = block feats → Live h c := fun c hc => hv.live hc.symm
  have hBv : ∀ c, some c = block feats → c ≠ B := fun c hc =>
    E1.not (live_lt (hblk c hc)) (fun g => hPv c g hc)
  have v1 : InOrder h1 feats := E1.inOrder hv (fun c hc g => hPv c g hc)
  have hwd : ¬ wave.dim = 0 := by rw [hw.dim]; omega
  have start : processM o t wild buf wave feats h = (
      if calcNumFrames (z.length : Int) = 0 then do
        let r ← Mat.resizePlain o.zero 4 feats 0 0 true false h1
        .ok (⟨some ⟨B, 0⟩, (z.length : Int)⟩, r.1, r.2)
      else do
        let m ← Mat.resizePlain o.zero 4 feats (calcNumFrames (z.length : Int)) fbankDim true false h1
        let f ← framesM o t wild ⟨some ⟨B, 0⟩, (z.length : Int)⟩ m.1 (calcNumFrames (z.length : Int)) m.2
        let r ← shrinkM o ⟨some ⟨B, 0⟩, (z.length : Int)⟩ (calcNumFrames (z.length : Int)) f.2
        let h ← destroy r.1.2 r.2
        let h ← destroy f.1.2.2 h
        let h ← destroy f.1.2.1 h
        let h ← destroy f.1.1 h
        .ok (r.1.1, m.1, h)) := by
    unfold processM
    rw [if_neg hwd, e1, ok_bind]
  rw [start, Fbank.calcNumFrames_eq]
  have E1v : Effect h h1 (fun c => P c ∨ some c = block feats) (fun c => c = B ∨ some c = block feats) :=
    E1.frame (fun c => some c = block feats) (fun c hc => ⟨hblk c hc, fun g => hPv c g hc⟩)
  by_cases h0 : numFrames z.length = 0
  · rw [h0, if_pos (show ((0 : Nat) : Int) = 0 from rfl)]
    obtain ⟨h2, e2, E2⟩ := resizeZero_ok (net o) v1
    have hfr : frames z = [] := by unfold Fbank.Spec.frames; rw [h0]; rfl
    rw [hfr]
    refine ⟨fun rows hrows => ?_, fun e he => by cases he⟩
    cases hrows
    refine ⟨_, .empty, h2, fun c => c = B, by rw [show Mat.resizePlain o.zero 4 feats 0 0 true false h1 = _ from e2,
      ok_bind], ?_, .inl ⟨rfl, rfl⟩, ?_, ?_⟩
    · rw [Nat.mul_zero, List.drop_zero]
      exact .full hz (E2.line l1 (fun g => hBv B g rfl))
    · intro c hc g
      cases g
    · refine (E1v.then E2 (fun c hc => .inr hc)).of (fun _ => Iff.rfl) (fun c => ?_)
      constructor
      · rintro (g | ⟨g | g, g'⟩)
        · exact absurd g id
        · exact .inl g
        · exact absurd g g'
      · rintro (g | g)
        · exact .inr ⟨.inl g, fun g' => hBv c g' g⟩
        · cases g
  · have hn0 : 0 < numFrames z.length := by omega
    have hzbig : z.length < 536870912 := by omega
    have hnb : numFrames z.length * 160 + 240 ≤ z.length := by
      unfold numFrames at h0 ⊢
      split at h0 <;> split <;> omega
    rw [if_neg (by omega)]
    obtain ⟨m, M, h2, e2, s2, hc2, mv⟩ := resize_ok (net o) v1 (rows := numFrames z.length) (cols := 40) hn0 (by omega)
      (by omega) (by omega)
    have E2 := mv.effect
    have E12 : Effect h h2 (fun c => P c ∨ some c = block feats) (fun c => c = B ∨ c = M) := by
      refine (E1v.then E2 (fun c hc => .inr hc)).of (fun _ => Iff.rfl) (fun c => ?_)
      constructor
      · rintro (g | ⟨g | g, g'⟩)
        · exact .inr g
        · exact .inl g
        · exact absurd g g'
      · rintro (g | g)
        · exact .inr ⟨.inl g, fun g' => hBv c g' g⟩
        · exact .inl g
    have hB1 : B < h1.length := line_lt l1 hz
    have hBM : B ≠ M := fun g => E2.not hB1 (fun g' => hBv B g' rfl) g
    have l2 : Line h2 ⟨B, 0⟩ z := E2.line l1 (fun g => hBv B g rfl)
    obtain ⟨t2, k2⟩ := tables_step E12 htab ht hclear
    have k2' : Clear t (fun c => c = M) :=
      ⟨fun a ha g => k2.window a ha (.inr g), fun q hq a ha g => k2.bins q hq a ha (.inr g)⟩
    have s2' : Shows h2 m ⟨M, 0⟩ (part o [] (numFrames z.length)) := s2
    obtain ⟨r1, r2⟩ := framesM_ok o wild htab hf t2 k2' hBM l2 hzbig hn0 s2' (by rw [hc2]; rfl)
    rw [show Mat.resizePlain o.zero 4 feats ((numFrames z.length : Nat) : Int) ((fbankDim : Nat) : Int) true false h1 =
      .ok (m, h2) from e2, ok_bind]
    refine ⟨fun rows hrows => ?_, fun e he => by rw [r2 e he, error_bind]⟩
    obtain ⟨h3, w, u, f, e3, s3, ⟨hwu, hwf, huf, hw2, hu2, hf2⟩, E3⟩ := r1 rows hrows
    have hB2 : B < h2.length := line_lt l2 hz
    have hM2 : M < h2.length := live_lt s2.live
    have l3 : Line h3 ⟨B, 0⟩ z := E3.line l2 (by exact hBM)
    obtain ⟨h4, C, N, e4, l4, hN4, hNC, E4, hNlen⟩ := shrink_ok o l3 hzbig hn0
    have hlive3 : ∀ c, Four w u f M c → Live h3 c := fun c hc => (E3.live c).mpr (.inr hc)
    have hlt3 : ∀ c, Four w u f M c → c < h3.length := fun c hc => live_lt (hlive3 c hc)
    have hNot : ∀ c, Four w u f M c → c ≠ C ∧ c ≠ N := fun c hc => by
      have hcB : c ≠ B := by
        rcases hc with (g | g | g) | g <;> omega
      have := E4.not (hlt3 c hc) hcB
      exact ⟨fun g => this (.inl g), fun g => this (.inr g)⟩
    have hM := hNot M (.inr rfl)
    have hw := hNot w (.inl (.inl rfl))
    have hu := hNot u (.inl (.inr (.inl rfl)))
    have hff := hNot f (.inl (.inr (.inr rfl)))
    obtain ⟨h5, e5, E5⟩ := free_ok hN4
    have live4 : ∀ c, Four w u f M c → Live h4 c := fun c hc => (E4.live c).mpr (.inl ⟨hlive3 c hc, by
      rcases hc with (g | g | g) | g <;> omega⟩)
    have lf : Live h5 f := (E5.live f).mpr (.inl ⟨live4 f (.inl (.inr (.inr rfl))), hff.2⟩)
    obtain ⟨h6, e6, E6⟩ := free_ok lf
    have lu : Live h6 u := (E6.live u).mpr (.inl ⟨(E5.live u).mpr (.inl ⟨live4 u (.inl (.inr (.inl rfl))), hu.2⟩), huf⟩)
    obtain ⟨h7, e7, E7⟩ := free_ok lu
    have lw : Live h7 w := (E7.live w).mpr (.inl ⟨(E6.live w).mpr (.inl ⟨(E5.live w).mpr (.inl ⟨live4 w (.inl (.inl rfl)),
      hw.2⟩), hwf⟩), hwu⟩)
    obtain ⟨h8, e8, E8⟩ := free_ok lw
    have F3 : Effect h h3 (fun c => P c ∨ some c = block feats) (fun c => Four w u f M c ∨ (c = B ∧ ¬ c = M)) := by
      refine (E12.then E3 (fun c hc => .inr hc)).of (fun _ => Iff.rfl) (fun c => ?_)
      constructor
      · rintro (g | ⟨g | g, g'⟩)
        · exact .inl g
        · exact .inr ⟨g, g'⟩
        · exact absurd g g'
      · rintro (g | g)
        · exact .inl g
        · exact .inr ⟨.inl g.1, g.2⟩
    have F4 := F3.then E4 (fun c hc => .inr ⟨hc, by rw [show c = B from hc]; exact hBM⟩)
    have F5 := F4.then E5 (fun c hc => .inl (.inr hc))
    have F6 := F5.then E6 (fun c hc => by
      rw [show c = f from hc]
      exact .inr ⟨.inr ⟨.inl (.inl (.inr (.inr rfl))), by omega⟩, hff.2⟩)
    have F7 := F6.then E7 (fun c hc => by
      rw [show c = u from hc]
      exact .inr ⟨.inr ⟨.inr ⟨.inl (.inl (.inr (.inl rfl))), by omega⟩, hu.2⟩, huf⟩)
    have F8 := F7.then E8 (fun c hc => by
      rw [show c = w from hc]
      exact .inr ⟨.inr ⟨.inr ⟨.inr ⟨.inl (.inl (.inl rfl)), by omega⟩, hw.2⟩, hwf⟩, hwu⟩)
    have hCw : C ≠ w := hw.1.symm
    have hCu : C ≠ u := hu.1.symm
    have hCf : C ≠ f := hff.1.symm
    have hMw : M ≠ w := by omega
    have hMu : M ≠ u := by omega
    have hMf : M ≠ f := by omega
    have E58 : Effect h4 h8 (fun c => c = N ∨ Trio w u f c) (fun _ => False) := by
      have G5 : Effect h4 h5 (fun c => c = N ∨ Trio w u f c) (fun c => False ∨ Trio w u f c) :=
        E5.frame (fun c => Trio w u f c) (fun c hc => ⟨live4 c (.inl hc), (hNot c (.inl hc)).2⟩)
      have G6 := G5.then E6 (fun c hc => .inr (.inr (.inr hc)))
      have G7 := G6.then E7 (fun c hc => .inr ⟨.inr (.inr (.inl hc)), by rw [show c = u from hc]; exact huf⟩)
      have G8 := G7.then E8 (fun c hc => by
        rw [show c = w from hc]
        exact .inr ⟨.inr ⟨.inr (.inl rfl), hwf⟩, hwu⟩)
      refine G8.of (fun _ => Iff.rfl) (fun c => ⟨?_, fun g => absurd g id⟩)
      unfold Trio
      rintro (g | ⟨g | ⟨g | ⟨g | g | g | g, a1⟩, a2⟩, a3⟩)
      · exact g
      · exact g
      · exact g
      · exact g
      · exact a3 g
      · exact a2 g
      · exact a1 g
    have hz' : z.drop (160 * numFrames z.length) ≠ [] := by
      intro g
      have := congrArg List.length g
      rw [List.length_drop, List.length_nil] at this
      omega
    refine ⟨⟨some ⟨C, 0⟩, ((z.drop (160 * numFrames z.length)).length : Int)⟩, m, h8, fun c => c = C, ?_, ?_, ?_, ?_, ?_⟩
    · rw [e3, ok_bind]
      simp only
      rw [e4, ok_bind]
      simp only [destroy]
      rw [e5, ok_bind, e6, ok_bind, e7, ok_bind, e8, ok_bind]
    · exact .full hz' (E58.line l4 (by
        unfold Trio
        rintro (g | g | g | g)
        · exact hNC g.symm
        · exact hCw g
        · exact hCu g
        · exact hCf g))
    · refine .inr ⟨M, E58.shows (E4.shows s3 (fun g => hBM g.symm)) ?_⟩
      unfold Trio
      rintro (g | g | g | g)
      · exact hM.2 g
      · exact hMw g
      · exact hMu g
      · exact hMf g
    · intro c hc g
      unfold block at g
      rw [s2.data] at g
      simp only [Option.map_some, Option.some.injEq] at g
      exact hM.1 (by rw [← g, hc])
    · refine F8.of (fun _ => Iff.rfl) (fun c => ?_)
      have hbm : some c = block m ↔ c = M := by
        unfold block
        rw [s2.data]
        simp
      rw [hbm]
      unfold Four Trio
      constructor
      · rintro (g | ⟨g | ⟨g | ⟨g | ⟨(g | g) | ⟨((g | g | g) | g) | g, b1⟩, a1⟩, a2⟩, a3⟩, a4⟩)
        · exact absurd g id
        · exact absurd g id
        · exact absurd g id
        · exact absurd g id
        · exact .inl g
        · exact absurd g a1
        · exact absurd g a4
        · exact absurd g a3
        · exact absurd g a2
        · exact .inr g
        · exact absurd g.1 b1
      · rintro (g | g)
        · exact .inr ⟨.inr ⟨.inr ⟨.inr ⟨.inl (.inl g), by rw [g]; exact hNC.symm⟩, by rw [g]; exact hCf⟩,
            by rw [g]; exact hCu⟩, by rw [g]; exact hCw⟩
        · exact .inr ⟨.inr ⟨.inr ⟨.inr ⟨.inr ⟨.inl (.inr g), by rw [g]; exact hBM.symm⟩, by rw [g]; exact hM.2⟩,
            by rw [g]; exact hMf⟩, by rw [g]; exact hMu⟩, by rw [g]; exact hMw⟩

end Verif.FbankMem
