import Verif.NetMemLayers

/-!
# The loop over the layers, with its two matrices
-/

namespace Verif.NetMem

open Mat (Heap Addr View peek)
open Nnet (Ops Layer spliced)
open Nnet.Spec (RowWise Pointwise Built pointwise series layerOn)
open Spec

variable {F : Type}

/-- `layer_input`, with the rows `m` in the block `p`, and `layer_output`; the other blocks are those of `h0`. -/
structure Pair (h0 h : Heap F) (vi : View) (p : Nat) (vo : View) (m : List (List F)) : Prop where
  shows : Shows h vi ⟨p, 0⟩ m
  order : InOrder h vo
  base : Base h0 h
  ge : h0.length ≤ p
  other : ∀ b, block vo = some b → h0.length ≤ b ∧ b ≠ p
  live : ∀ c, Live h c ↔ Live h0 c ∨ c = p ∨ some c = block vo

theorem Pair.ne {h0 h : Heap F} {vi vo : View} {p : Nat} {m : List (List F)} (P : Pair h0 h vi p vo m) :
    some p ≠ block vo := fun q => (P.other p q.symm).2 rfl

theorem Pair.step {h0 h h' : Heap F} {vi vo v : View} {p b : Nat} {m z : List (List F)} (P : Pair h0 h vi p vo m)
    (s : Shows h' v ⟨b, 0⟩ z) (M : Move h h' (block vo) b) : Pair h0 h' v b vi z := by
  have hob : ∀ b, block vo = some b → h0.length ≤ b := fun b hb => (P.other b hb).1
  have hvi : block vi = some p := P.shows.block
  have hpb : p ≠ b := M.ne (live_lt P.shows.live) P.ne
  refine ⟨s, (M.shows P.shows P.ne).inOrder, P.base.move M hob, M.ge P.base hob, ?_, ?_⟩
  · intro c hc
    rw [hvi] at hc
    cases hc
    exact ⟨P.ge, hpb⟩
  · intro c
    rw [M.live, P.live, hvi]
    constructor
    · rintro (⟨q | rfl | q, g⟩ | rfl)
      · exact .inl q
      · exact .inr (.inr rfl)
      · exact absurd q g
      · exact .inr (.inl rfl)
    · rintro (q | rfl | q)
      · exact .inl ⟨.inl q, fun g => by have := hob c g.symm; have := live_lt q; omega⟩
      · exact .inr rfl
      · cases q
        exact .inl ⟨.inr (.inl rfl), P.ne⟩

theorem netLoop_ok {o : Ops F} {vm : List F → List (List F) → List F} (hvm : RowWise o vm) {h0 : Heap F}
    {n : Nat} {ls : List (Layer F)} {d e L R w : Nat} (hb : Built ls d e L R w) (hnw : n * w ≤ 2147483647)
    (hw : w ≤ 2147483632) (hn30 : n ≤ 1073741823) :
    ∀ {Ms : List LayerM} {h : Heap F} {vi vo : View} {p : Nat} {m : List (List F)} {x : Int → List F} {off : Int},
      List.Forall₂ (Stored h0) Ms ls → Pair h0 h vi p vo m → vi.cols = d → Nnet.Shows m x off d → m.length ≤ n →
      L + R < m.length →
      ∃ vi' vo' h' p' y, netLoop o Ms vi vo h = .ok (vi', vo', h') ∧ Pair h0 h' vi' p' vo' y ∧ vi'.cols = e ∧
        y.length = m.length - L - R ∧ Nnet.Shows y (series o vm ls x) (off + L) e := by
  have fits : ∀ {a b : Nat}, a ≤ n → b ≤ w → a * b ≤ 2147483647 := fun ha hb =>
    Nat.le_trans (Nat.mul_le_mul ha hb) hnw
  induction hb with
  | nil h1 h2 =>
    intro Ms h vi vo p m x off hst P hc hs hn hlr
    cases hst
    exact ⟨vi, vo, h, p, m, rfl, P, hc, by omega, by simpa [series] using hs⟩
  | row h1 h2 hl hs ih =>
    rename_i l ls d e f L R w
    intro Ms h vi vo p m x off hst P hc hsh hn hlr
    have he : 1 ≤ e ∧ e ≤ w := by cases hs <;> exact ⟨by assumption, by assumption⟩
    cases hst with
    | cons g gs =>
      obtain ⟨v, b, h', e1, s1, c1, m1⟩ := pointwise_done hvm P.base g hl P.shows P.order P.ne
        (fun b hb => (P.other b hb).1) hc he.1 (fits hn h2) (by omega) (fits hn he.2) (by omega)
      obtain ⟨vi', vo', h2', p', y, e2, P2, c2, l2, s2⟩ := ih hnw hw fits gs (P.step s1 m1) c1
        (hsh.map (fun v => pointwise o vm v l) (fun v hv => Nnet.pointwise_size hvm hl hv))
        (by rw [List.length_map]; exact hn) (by rw [List.length_map]; exact hlr)
      refine ⟨vi', vo', h2', p', y, ?_, P2, c2, by rw [l2, List.length_map], ?_⟩
      · unfold netLoop
        rw [e1, ok_bind]
        exact e2
      · have : layerOn o vm x l = fun t => pointwise o vm (x t) l := by cases hl <;> rfl
        unfold series
        rw [this]
        exact s2
  | context h1 h2 h0' hl hr hl' hr' hs ih =>
    rename_i idx l r ls d f L R w
    intro Ms h vi vo p m x off hst P hc hsh hn hlr
    have he : 1 ≤ idx.length * d ∧ idx.length * d ≤ w := by cases hs <;> exact ⟨by assumption, by assumption⟩
    have hctx := Nnet.context_ok hsh hl hr (by omega)
    have hsl := Nnet.spliced_length m idx
    cases hst with
    | cons g gs =>
      cases gs with
      | cons g' gs =>
        cases g
        cases g'
        obtain ⟨v, b, h', e1, s1, c1, m1⟩ := splice_done o P.shows P.order P.ne hc h0' (fits hn he.2) (by omega) (by
          intro i hi c hc
          have := hl c hc
          have := hr c hc
          unfold InI32
          omega)
        have P1 := P.step s1 m1
        obtain ⟨v2, b2, h2', e2, s2, c2, m2⟩ := narrow_done o (l := l) (r := r) P1.shows P1.order P1.ne c1
          (by rw [hsl]; exact fits hn he.2) (by omega) (by rw [hsl]; omega)
        rw [hsl] at s2
        obtain ⟨vi', vo', h3, p', y, e3, P3, c3, l3, s3⟩ := ih hnw hw fits gs (P1.step s2 m2) c2 hctx
          (by rw [List.length_take, List.length_drop, hsl]; omega)
          (by rw [List.length_take, List.length_drop, hsl]; omega)
        refine ⟨vi', vo', h3, p', y, ?_, P3, c3, ?_, ?_⟩
        · unfold netLoop
          rw [show (LayerM.splice idx).propagate o vi vo h = spliceM o idx vi vo h from rfl, e1, ok_bind]
          unfold netLoop
          rw [show (LayerM.narrow l r).propagate o v vi h' = narrowM o l r v vi h' from rfl, e2, ok_bind]
          exact e3
        · rw [l3, List.length_take, List.length_drop, hsl]; omega
        · unfold series series
          rw [show off + ((l + L : Nat) : Int) = off + l + L by omega]
          exact s3

theorem Spec.InOrder.keep {h h' : Heap F} {v : View} (hv : InOrder h v)
    (k : ∀ a : Addr, some a.block = block v → peek h' a = peek h a) : InOrder h' v := by
  rcases hv with q | ⟨b, q, p, w⟩
  · exact .inl q
  · refine .inr ⟨b, q, p, fun i j hij => ?_⟩
    rw [k _ (by unfold block; rw [q]; rfl)]
    exact w i j hij

theorem Spec.InOrder.live {h : Heap F} {v : View} (hv : InOrder h v) {b : Nat} (hb : block v = some b) : Live h b := by
  rcases hv with q | ⟨b', q, p, w⟩
  · unfold block at hb
    rw [q] at hb
    cases hb
  · unfold block at hb
    rw [q] at hb
    cases hb
    have := w 0 0 ⟨by omega, p.rows, by omega, p.cols⟩
    obtain ⟨c, hc⟩ := Option.isSome_iff_exists.mp this
    have := live_peek hc
    exact this

theorem propagate_ok {o : Ops F} {vm : List F → List (List F) → List F} (hvm : RowWise o vm) {h : Heap F}
    {ls : List (Layer F)} {d e L R w : Nat} (hb : Built ls d e L R w) {Ms : List LayerM}
    (hst : List.Forall₂ (Stored h) Ms ls) {vin vout : View} {a : Addr} {m : List (List F)} (hin : Shows h vin a m)
    (hd : vin.cols = d) (hout : InOrder h vout) (hnw : m.length * w ≤ 2147483647) (hw : w ≤ 2147483632)
    (hn30 : m.length ≤ 1073741823) {x : Int → List F} {off : Int} (hs : Nnet.Shows m x off d) (hlr : L + R < m.length) :
    ∃ v b h' y, propagate o Ms vin vout h = .ok (v, h') ∧ Shows h' v ⟨b, 0⟩ y ∧ v.cols = e ∧
      y.length = m.length - L - R ∧ Nnet.Shows y (series o vm ls x) (off + L) e ∧
      (block vout = some b ∨ h.length ≤ b) ∧
      (∀ c : Addr, some c.block ≠ block vout → c.block < h.length → peek h' c = peek h c) ∧
      (∀ c, Live h' c ↔ (Live h c ∧ some c ≠ block vout) ∨ c = b) ∧ h.length ≤ h'.length := by
  have hpos := List.length_pos_iff.mpr hin.nonempty
  have hdw := Nnet.Built.in_size hb
  have hew := Nnet.Built.out_size hb
  -- the copy of the input
  obtain ⟨v1, b1, h1, h2, e1, e2, s2, c2, m2, _, _⟩ := copy_resized o (Base.refl h) hin (vout := .empty) (.inl rfl)
    (by intro q; cases q) (by intro b q; cases q) hd (Nat.le_trans (Nat.mul_le_mul_left _ hdw.2) hnw) (by omega)
  have hb1 : b1 = h.length := by
    rcases m2.fresh with q | q
    · cases q
    · exact q
  have P : Pair h h2 v1 b1 .empty m := by
    refine ⟨s2, .inl rfl, (Base.refl h).move m2 (by intro b q; cases q), (by omega), (by intro b q; cases q), ?_⟩
    intro c
    rw [m2.live]
    constructor
    · rintro (⟨q, _⟩ | q)
      · exact .inl q
      · exact .inr (.inl q)
    · rintro (q | q | q)
      · exact .inl ⟨q, by intro q; cases q⟩
      · exact .inr q
      · cases q
  -- the layers
  obtain ⟨vi, vo, h3, p, y, e3, P3, c3, l3, s3⟩ := netLoop_ok hvm hb hnw hw hn30 hst P c2 hs (Nat.le_refl _) hlr
  -- the result
  have hvo : ∀ b, block vout = some b → b < h.length := fun b hb => live_lt (hout.live hb)
  have hout3 : InOrder h3 vout := hout.keep (fun c hc => P3.base.kept c (hvo _ hc.symm))
  have hpv : some p ≠ block vout := fun q => by have := hvo p q.symm; have := P3.ge; omega
  have hyl : 0 < y.length := by omega
  obtain ⟨v, b, h4, e4, s4, c4, m4⟩ := resize_ok o hout3 hyl (by omega : 0 < e)
    (Nat.le_trans (Nat.mul_le_mul (by omega : y.length ≤ m.length) hew.2) hnw) (by omega)
  have s4' := m4.shows P3.shows hpv
  obtain ⟨h5, e5, s5, a5⟩ := copy_ok s4 s4' (by unfold zeros; rw [List.length_replicate]) (by rw [c4, c3])
    (m4.ne (live_lt P3.shows.live) hpv)
  have m5 := m4.then a5
  -- the end
  have hbo : ∀ k, block vo = some k → k ≠ b := fun k hk =>
    m5.ne (live_lt (P3.order.live hk)) (fun q => by have := hvo k q.symm; have := (P3.other k hk).1; omega)
  have ho5 : InOrder h5 vo := P3.order.keep (fun c hc => m5.kept c
    (fun q => by have := hvo _ q.symm; have := (P3.other _ hc.symm).1; omega) (live_lt (P3.order.live hc.symm)))
  obtain ⟨h6, e6, l6, v6, p6⟩ := destroy_ok ho5
  have hi6 : InOrder h6 vi := (m5.shows P3.shows hpv).inOrder.keep (fun c hc => p6 c (by
    rw [hc, P3.shows.block]
    exact P3.ne))
  obtain ⟨h7, e7, l7, v7, p7⟩ := destroy_ok hi6
  rw [P3.shows.block] at v7 p7
  have hbp : p ≠ b := m5.ne (live_lt P3.shows.live) hpv
  refine ⟨v, b, h7, y, ?_, ?_, c4, l3, s3, ?_, ?_, ?_, ?_⟩
  · unfold propagate
    rw [e1]
    simp only [ok_bind]
    rw [e2, ok_bind, e3]
    simp only [ok_bind]
    rw [P3.shows.rows, c3, e4]
    simp only [ok_bind]
    rw [e5, ok_bind, e6, ok_bind, e7, ok_bind]
  · refine s5.keep (fun c hc => ?_)
    simp only at hc
    rw [p7 c (by rw [hc]; exact fun q => hbp (Option.some.inj q).symm),
      p6 c (by rw [hc]; exact fun q => hbo b q.symm rfl)]
  · rcases m4.fresh with q | q
    · exact .inl q
    · exact .inr (by have := P3.base.length; omega)
  · intro c h1 h2
    have hc3 : c.block < h3.length := Nat.lt_of_lt_of_le h2 P3.base.length
    rw [p7 c (fun q => by have := P3.ge; have := Option.some.inj q; simp only at this; omega),
      p6 c (fun q => by have := (P3.other _ q.symm).1; omega), m5.kept c h1 hc3, P3.base.kept c h2]
  · intro c
    rw [v7, v6, m5.live, P3.live]
    constructor
    · rintro ⟨⟨⟨q | q | q, g⟩ | rfl, g2⟩, g3⟩
      · exact .inl ⟨q, g⟩
      · exact absurd (by rw [q]) g3
      · exact absurd q g2
      · exact .inr rfl
    · rintro (⟨q, g⟩ | rfl)
      · have := live_lt q
        exact ⟨⟨.inl ⟨.inl q, g⟩, fun k => by have := (P3.other _ k.symm).1; omega⟩,
          fun k => by have := P3.ge; have := Option.some.inj k; simp only at this; omega⟩
      · exact ⟨⟨.inr rfl, fun k => hbo c k.symm rfl⟩, fun k => hbp (Option.some.inj k).symm⟩
  · have := m5.length
    have := P3.base.length
    omega

end Verif.NetMem
