import Verif.SttMemLemmas
import Verif.OverflowLemmas

/-!
# The interface with the decoder's memory and the one with values
-/

namespace Verif.SttMem

open Verif Verif.Nnet.Spec Verif.Fbank.Spec Verif.Pcm
open Verif.Stt (Rec Msg Sound Fine zeros)
open Verif.Mdec (MRun NoStale Stale LmLabels Small FewTokens SameTokens Full VFull)

variable {F D : Type}

/-- Rows of scores to the decoder. -/
def processRows (r : Rec F D) (rows : List (List F)) (d : Mdec.Mem F) : Exec (Mdec.Mem F) :=
  rows.foldlM (fun d row => do
    let (_, _, d) ← Mdec.process r.dec r.fuel row d
    .ok d) d

/-- The part of an utterance behind the acoustic model: `rows1` before the end of the stream, `rows2` after it. -/
def decodeAll (r : Rec F D) (fill : Nat → UInt8) (rows1 rows2 : List (List F)) : Exec (Back F) := do
  let m ← Mdec.new
  let d ← Mdec.initDecoder r.dec r.fuel m
  let b ← rows1.foldlM (decodeRow r zeros) ⟨Am.Inst.new, d, [0], r.zero⟩
  let d ← processRows r rows2 b.dec
  storeHyp r fill { b with dec := Mdec.endOfStream d }

/-- The same for the decoder with values. -/
def decodeAllV (r : Rec F D) (fill : Nat → UInt8) (rows1 rows2 : List (List F)) : Exec (Stt.Back F) := do
  let d ← Decoder.initDecoder r.dec r.fuel Decoder.fresh
  let b ← rows1.foldlM (Stt.decodeRow r zeros) ⟨Am.Inst.new, d, [0], r.zero⟩
  let d ← Stt.decodeRows r rows2 b.dec
  Stt.storeHyp r fill { b with dec := Decoder.endOfStream d }

variable {r : Rec F D} {vm : List F → List (List F) → List F} {e L R c w : Nat}

/-- The acoustic model gets through every utterance. -/
theorem am_total (S : Sound r vm e L R c w) {feats : List (List F)} (hf : ∀ f ∈ feats, f.length = 40) :
    ∃ rows1 i1 rows2 i2, Am.feed r.nn r.am Am.Inst.new (feats.map fun f => ([], f)) = .ok (rows1, i1) ∧
      Am.endOfStream r.nn r.am i1 [] = .ok (rows2, i2) ∧
      rows1 ++ rows2 = (List.range feats.length).map fun t : Nat =>
        List.zipWith (fun x y => r.nn.add x (r.nn.mul r.nn.negOne y))
          (series r.nn vm r.am.layers (edge feats) t) r.am.logPrior := by
  have inv : ∀ {rows inst}, Am.utterance r.nn r.am (feats.map fun f => ([], f)) = .ok (rows, inst) →
      ∃ rows1 i1 rows2 i2, Am.feed r.nn r.am Am.Inst.new (feats.map fun f => ([], f)) = .ok (rows1, i1) ∧
        Am.endOfStream r.nn r.am i1 [] = .ok (rows2, i2) ∧ rows1 ++ rows2 = rows := by
    intro rows inst h
    unfold Am.utterance at h
    obtain ⟨⟨rows1, i1⟩, h1, h⟩ := bind_ok h
    obtain ⟨⟨rows2, i2⟩, h2, h⟩ := bind_ok h
    cases h
    exact ⟨rows1, i1, rows2, _, h1, h2, rfl⟩
  by_cases hz : feats = []
  · subst hz
    exact inv (Am.C28_no_frames r.nn r.am)
  · obtain ⟨rows, inst', q1, q2, q3⟩ := Am.C28_scores S.hvm r.am S.hb S.hprior S.hleft S.hright S.hchunk S.hc
      S.hsize S.hbig (feats.map fun f => (([] : List (List F)), f)) (by simpa using hz)
      (by
        intro f hf'
        obtain ⟨g, hg, rfl⟩ := List.mem_map.mp hf'
        exact hf g hg)
    obtain ⟨rows1, i1, rows2, i2, h1, h2, h3⟩ := inv q1
    refine ⟨rows1, i1, rows2, i2, h1, h2, ?_⟩
    rw [h3]
    have hm : (feats.map fun f => (([] : List (List F)), f)).map Prod.snd = feats := by
      rw [List.map_map]; exact List.map_id feats
    rw [List.length_map] at q2 q3
    rw [hm] at q3
    apply List.ext_getElem?
    intro t
    by_cases ht : t < feats.length
    · rw [q3 t ht, List.getElem?_map, List.getElem?_range ht]
      rfl
    · rw [List.getElem?_eq_none (by omega), List.getElem?_eq_none (by simp; omega)]

/-- The utterance a recognition leaves, given what is behind the features. -/
def doneUtt (r : Rec F D) (fmt : Format) (b : Nat) (bytes : List UInt8) (back : Back F) : Utt F :=
  after r b ⟨⟨true, fmt, []⟩, [], back⟩ bytes back

/-- A whole utterance is its rows of scores. -/
theorem recognise_eq (S : Sound r vm e L R c w) {fmt : Format}
    (hfmt : Pcm.Reader.new.setFormat fmt = .ok ⟨true, fmt, []⟩) {b : Nat} (hb : Width fmt.bits b) (fill : Nat → UInt8)
    (cs : List (Stt.Mem F × List UInt8)) (hcs : ∀ p ∈ cs, p.2 ≠ [] ∧ p.2.length < 536870500)
    {feats rows1 rows2 : List (List F)} {i1 i2 : Am.Inst F}
    (hf : (frames ((Pcm.Spec.samples b (cs.map Prod.snd).flatten).map r.conv)).mapM (row r.fb) = .ok feats)
    (h1 : Am.feed r.nn r.am Am.Inst.new (feats.map fun f => ([], f)) = .ok (rows1, i1))
    (h2 : Am.endOfStream r.nn r.am i1 [] = .ok (rows2, i2)) :
    recognise r fmt fill cs = decodeAll r fill rows1 rows2 >>= fun back =>
      .ok (doneUtt r fmt b (cs.map Prod.snd).flatten { back with am := i2 }, .none) := by
  unfold recognise initApi decodeAll
  cases hm : (Mdec.new : Exec (Mdec.Mem F)) with
  | error x => rfl
  | ok m =>
    rw [ok_bind, ok_bind]
    cases hd : Mdec.initDecoder r.dec r.fuel m with
    | error x => rfl
    | ok d =>
      rw [ok_bind, ok_bind, hfmt]
      rw [ok_bind]
      simp only
      have G : Good L R c 0 b (⟨⟨true, fmt, []⟩, [], ⟨Am.Inst.new, d, [0], r.zero⟩⟩ : Utt F) :=
        ⟨rfl, hb, hb.pos, rfl, Stt.fine_new r.zero⟩
      rw [(feed_stream S .none cs G hcs).2 feats hf, backSteps_rows h1]
      cases hc : rows1.foldlM (decodeRow r zeros) ⟨Am.Inst.new, d, [0], r.zero⟩ with
      | error x => rfl
      | ok b1 =>
        rw [ok_bind, ok_bind, ok_bind, ok_bind]
        simp only
        unfold endApi
        have e1 : Am.endOfStream r.nn r.am (after r b ⟨⟨true, fmt, []⟩, [], ⟨Am.Inst.new, d, [0], r.zero⟩⟩
          (cs.map Prod.snd).flatten { b1 with am := i1 }).back.am [] = .ok (rows2, i2) := h2
        rw [e1, ok_bind]
        simp only
        show ((processRows r rows2 b1.dec >>= fun d => storeHyp r fill { b1 with am := i2, dec := Mdec.endOfStream d } >>=
          fun back => .ok _) >>= _) = _
        cases processRows r rows2 b1.dec with
        | error x => rfl
        | ok d2 =>
          rw [ok_bind, ok_bind]
          have := storeHyp_am r fill { b1 with dec := Mdec.endOfStream d2 } i2
          rw [show storeHyp r fill { b1 with am := i2, dec := Mdec.endOfStream d2 } = _ from this]
          cases storeHyp r fill { b1 with dec := Mdec.endOfStream d2 } with
          | error x => rfl
          | ok b2 => rfl

theorem recognise_eqV (S : Sound r vm e L R c w) {fmt : Format}
    (hfmt : Pcm.Reader.new.setFormat fmt = .ok ⟨true, fmt, []⟩) {b : Nat} (hb : Width fmt.bits b) (fill : Nat → UInt8)
    (cs : List (Stt.Mem F × List UInt8)) (hcs : ∀ p ∈ cs, p.2 ≠ [] ∧ p.2.length < 536870500)
    {feats rows1 rows2 : List (List F)} {i1 i2 : Am.Inst F}
    (hf : (frames ((Pcm.Spec.samples b (cs.map Prod.snd).flatten).map r.conv)).mapM (row r.fb) = .ok feats)
    (h1 : Am.feed r.nn r.am Am.Inst.new (feats.map fun f => ([], f)) = .ok (rows1, i1))
    (h2 : Am.endOfStream r.nn r.am i1 [] = .ok (rows2, i2)) (h : Stt.Handle F D) (msg : Msg) :
    Stt.recognise r fmt fill cs = .ok (h, msg) ↔ ∃ back, decodeAllV r fill rows1 rows2 = .ok back ∧
      h = .ready r (Stt.after r b ⟨⟨true, fmt, []⟩, [], { back with am := i2 }⟩ (cs.map Prod.snd).flatten
        { back with am := i2 }) ∧ msg = .none := by
  unfold Stt.recognise Stt.initApi decodeAllV
  simp only
  cases hd : Decoder.initDecoder r.dec r.fuel Decoder.fresh with
  | error x =>
    constructor
    · intro hh; cases hh
    · rintro ⟨back, hh, _⟩; cases hh
  | ok d =>
    rw [ok_bind, hfmt]
    simp only
    rw [ok_bind]
    simp only
    have G : Stt.Good L R c 0 b (⟨⟨true, fmt, []⟩, [], ⟨Am.Inst.new, d, [0], r.zero⟩⟩ : Stt.Utt F) :=
      ⟨rfl, hb, hb.pos, rfl, Stt.fine_new r.zero⟩
    have key : ∀ b1 : Stt.Back F, Stt.endApi fill (.ready r (Stt.after r b ⟨⟨true, fmt, []⟩, [],
        ⟨Am.Inst.new, d, [0], r.zero⟩⟩ (cs.map Prod.snd).flatten { b1 with am := i1 })) .none =
        ((Stt.decodeRows r rows2 b1.dec >>= fun d => Stt.storeHyp r fill { b1 with dec := Decoder.endOfStream d }) >>=
        fun back => .ok (.ready r (Stt.after r b ⟨⟨true, fmt, []⟩, [], { back with am := i2 }⟩ (cs.map Prod.snd).flatten
          { back with am := i2 }), .none)) := by
      intro b1
      rw [Stt.end_ready]
      unfold Stt.finish
      have e1 : Am.endOfStream r.nn r.am (Stt.after r b ⟨⟨true, fmt, []⟩, [], ⟨Am.Inst.new, d, [0], r.zero⟩⟩
        (cs.map Prod.snd).flatten { b1 with am := i1 }).back.am [] = .ok (rows2, i2) := h2
      rw [e1, ok_bind]
      simp only
      show ((Stt.decodeRows r rows2 b1.dec >>= fun d =>
        Stt.storeHyp r fill { b1 with am := i2, dec := Decoder.endOfStream d } >>= fun back => .ok _) >>= _) = _
      cases Stt.decodeRows r rows2 b1.dec with
      | error x => rfl
      | ok d2 =>
        rw [ok_bind, ok_bind]
        have := Stt.storeHyp_amEq r fill { b1 with dec := Decoder.endOfStream d2 } i2
        rw [show Stt.storeHyp r fill { b1 with am := i2, dec := Decoder.endOfStream d2 } = _ from this]
        cases Stt.storeHyp r fill { b1 with dec := Decoder.endOfStream d2 } with
        | error x => rfl
        | ok b2 => rfl
    constructor
    · intro hh
      obtain ⟨⟨h', m'⟩, g1, g2⟩ := bind_ok hh
      obtain ⟨feats', back, k1, k2, rfl, rfl⟩ := (Stt.feed_stream S .none cs G hcs h' m').mp g1
      have k1 : (frames ((Pcm.Spec.samples b (cs.map Prod.snd).flatten).map r.conv)).mapM (row r.fb) = .ok feats' := k1
      rw [hf] at k1
      cases k1
      rw [Stt.backSteps_rows h1] at k2
      obtain ⟨b1, k3, k2⟩ := bind_ok k2
      cases k2
      simp only at g2
      rw [key b1] at g2
      obtain ⟨b2, k4, g2⟩ := bind_ok g2
      cases g2
      rw [ok_bind, k3, ok_bind]
      exact ⟨b2, k4, rfl, rfl⟩
    · rintro ⟨back, hh, rfl, rfl⟩
      rw [ok_bind] at hh
      obtain ⟨b1, k3, hh⟩ := bind_ok hh
      rw [(Stt.feed_stream S .none cs G hcs _ _).mpr ⟨feats, { b1 with am := i1 }, hf, by
        rw [Stt.backSteps_rows h1, k3]; rfl, rfl, rfl⟩, ok_bind]
      simp only
      rw [key b1]
      rw [show (Stt.decodeRows r rows2 b1.dec >>= fun d => Stt.storeHyp r fill { b1 with dec := Decoder.endOfStream d }) =
        .ok back from hh]
      rfl

/-! ## The two decoders -/

/-- The same utterance before both decoders, after the rows `fs`. -/
structure Same (r : Rec F D) (bd : Prop) (fs : List (List F)) (b : Back F) (v : Stt.Back F) : Prop where
  am : b.am = v.am
  hyp : b.hyp = v.hyp
  ll : b.ll = v.ll
  dec : ∃ h bs cs, Full r.dec bd b.dec h ∧ VFull h v.dec ∧ MRun r.dec NoStale fs bs cs b.dec ∧ Decoder.Run r.dec fs bs cs v.dec

theorem Same.frames {bd : Prop} {fs : List (List F)} {b : Back F} {v : Stt.Back F} (h : Same r bd fs b v) :
    b.dec.frames = v.dec.frames := by
  obtain ⟨h, _, _, r1, v1, _⟩ := h.dec
  rw [r1.frames, v1.frames]

theorem Same.tokens {bd : Prop} {fs : List (List F)} {b : Back F} {v : Stt.Back F} (h : Same r bd fs b v) :
    SameTokens b.dec v.dec := by
  obtain ⟨h, _, _, r1, v1, _⟩ := h.dec
  exact Mdec.sameTokens_of r1 v1

theorem stale_more {e : Decoder.Env F D} {fs : List (List F)} (gs : List (List F)) (h : Stale e fs) : Stale e (fs ++ gs) := by
  obtain ⟨pre, g, post, bs, cs, m, fuel, c, m1, h1, h2⟩ := h
  exact ⟨pre, g, post ++ gs, bs, cs, m, fuel, c, m1, by rw [h1]; simp, h2⟩

/-- The text of the best path, `eos` frames. -/
theorem storeHyp_same {bd : Prop} {fs : List (List F)} {b : Back F} {v : Stt.Back F} (h : Same r bd fs b v)
    (eos : Bool) (fill : Nat → UInt8) :
    (∀ b', storeHyp r fill { b with dec := { b.dec with eos := eos } } = .ok b' →
      ∃ v', Stt.storeHyp r fill { v with dec := { v.dec with eos := eos } } = .ok v' ∧ b'.am = v'.am ∧
        b'.hyp = v'.hyp ∧ b'.ll = v'.ll ∧ b'.dec = { b.dec with eos := eos } ∧ v'.dec = { v.dec with eos := eos }) ∧
    (∀ v', Stt.storeHyp r fill { v with dec := { v.dec with eos := eos } } = .ok v' →
      ∃ b', storeHyp r fill { b with dec := { b.dec with eos := eos } } = .ok b' ∧ b'.am = v'.am ∧
        b'.hyp = v'.hyp ∧ b'.ll = v'.ll ∧ b'.dec = { b.dec with eos := eos } ∧ v'.dec = { v.dec with eos := eos }) := by
  have hfr := h.frames
  obtain ⟨hh, _, _, r1, v1, _⟩ := h.dec
  have hbp := Mdec.bestPath_same r1 v1 eos
  unfold storeHyp Stt.storeHyp
  simp only
  constructor
  · intro b' hb
    obtain ⟨⟨ws, wt⟩, h1, hb⟩ := bind_ok hb
    obtain ⟨t, h2, hb⟩ := bind_ok hb
    cases hb
    rw [(hbp _).mp h1, ok_bind]
    simp only at h2 ⊢
    rw [h2]
    refine ⟨_, rfl, h.am, rfl, ?_, by trivial, by trivial⟩
    simp only [hfr, h.ll]
    rfl
  · intro v' hv
    obtain ⟨⟨ws, wt⟩, h1, hv⟩ := bind_ok hv
    obtain ⟨t, h2, hv⟩ := bind_ok hv
    cases hv
    rw [(hbp _).mpr h1, ok_bind]
    simp only at h2 ⊢
    rw [h2]
    refine ⟨_, rfl, h.am, rfl, ?_, by trivial, by trivial⟩
    simp only [hfr, h.ll]
    rfl

theorem eos_same {bd : Prop} {fs : List (List F)} {b : Back F} {v : Stt.Back F} (h : Same r bd fs b v) :
    b.dec.eos = v.dec.eos := by
  obtain ⟨h, _, _, r1, v1, _⟩ := h.dec
  rw [r1.eos, v1.eos]

/-- The text of the best path, in the middle. -/
theorem storeHyp_mid {bd : Prop} {fs : List (List F)} {b : Back F} {v : Stt.Back F} (h : Same r bd fs b v) :
    (∀ b', storeHyp r zeros b = .ok b' → ∃ v', Stt.storeHyp r zeros v = .ok v' ∧ Same r bd fs b' v') ∧
    (∀ v', Stt.storeHyp r zeros v = .ok v' → ∃ b', storeHyp r zeros b = .ok b' ∧ Same r bd fs b' v') := by
  have he := eos_same h
  obtain ⟨k1, k2⟩ := storeHyp_same h b.dec.eos zeros
  have e1 : ({ b with dec := { b.dec with eos := b.dec.eos } } : Back F) = b := rfl
  have e2 : ({ v with dec := { v.dec with eos := b.dec.eos } } : Stt.Back F) = v := by rw [he]
  have e3 : ({ v.dec with eos := b.dec.eos } : Decoder.Dec F) = v.dec := by rw [he]
  rw [e1, e2] at k1 k2
  rw [e3] at k1 k2
  constructor
  · intro b' hb
    obtain ⟨v', g1, g2, g3, g4, g5, g6⟩ := k1 b' hb
    exact ⟨v', g1, g2, g3, g4, by rw [g5, g6]; exact h.dec⟩
  · intro v' hv
    obtain ⟨b', g1, g2, g3, g4, g5, g6⟩ := k2 v' hv
    exact ⟨b', g1, g2, g3, g4, by rw [g5, g6]; exact h.dec⟩

theorem tmod_zero {a : Int} {n : Nat} (h : a = n) : a.tmod 20 = 0 ↔ n % 20 = 0 := by
  subst h
  have : (n : Int).tmod 20 = ((n % 20 : Nat) : Int) := rfl
  rw [this]
  omega

/-- One row, read off the decoder with memory. -/
theorem row_fwd (hl : LmLabels r.dec) {fs : List (List F)} {b b' : Back F} {v : Stt.Back F}
    (h : Same r False fs b v) {row : List F} (hb : decodeRow r zeros b row = .ok b') :
    Stale r.dec (fs ++ [row]) ∨ ∃ v', Stt.decodeRow r zeros v row = .ok v' ∧ Same r False (fs ++ [row]) b' v' := by
  unfold decodeRow at hb
  obtain ⟨⟨x, c, d⟩, h1, hb⟩ := bind_ok hb
  obtain ⟨hh, bs, cs, r1, v1, m1, n1⟩ := h.dec
  by_cases hst : ∀ m1, Mdec.propagate r.dec r.fuel row b.dec = .ok (true, c, m1) → NoStale m1
  · right
    obtain ⟨h', d', _, g2, g3, g4⟩ := Mdec.step_fwd hl r1 v1 h1 hst
    have hs : Same r False (fs ++ [row]) { b with dec := d } { v with dec := d' } :=
      ⟨h.am, h.hyp, h.ll, h', _, _, g3, g4, .frame m1 h1 hst, .frame n1 g2⟩
    have hf : d.frames = d'.frames := hs.frames
    unfold Stt.decodeRow
    rw [g2, ok_bind]
    simp only at hb ⊢
    by_cases hz : d.frames.tmod 20 = 0
    · rw [if_pos hz] at hb
      rw [if_pos ((tmod_zero hf).mp hz)]
      exact (storeHyp_mid hs).1 b' hb
    · rw [if_neg hz] at hb
      rw [if_neg (fun hc => hz ((tmod_zero hf).mpr hc))]
      cases hb
      exact ⟨_, rfl, hs⟩
  · left
    have : ∃ m1, Mdec.propagate r.dec r.fuel row b.dec = .ok (true, c, m1) ∧ ¬ NoStale m1 :=
      Classical.byContradiction fun hc => hst fun m1 hm => Classical.byContradiction fun hn => hc ⟨m1, hm, hn⟩
    obtain ⟨m2, g1, g2⟩ := this
    exact ⟨fs, row, [], bs, cs, b.dec, r.fuel, c, m2, rfl, m1, g1, g2⟩

/-- One row, read off the decoder with values. -/
theorem row_bwd (hl : LmLabels r.dec) {fs : List (List F)} {b : Back F} {v v' : Stt.Back F}
    (h : Same r True fs b v) {row : List F} (hfew : FewTokens r.dec (fs ++ [row])) (hlen : fs.length < 2147483647)
    (hv : Stt.decodeRow r zeros v row = .ok v') :
    Stale r.dec (fs ++ [row]) ∨ ∃ b', decodeRow r zeros b row = .ok b' ∧ Same r True (fs ++ [row]) b' v' := by
  unfold Stt.decodeRow at hv
  obtain ⟨⟨x, c, d'⟩, h1, hv⟩ := bind_ok hv
  obtain ⟨hh, bs, cs, r1, v1, m1, n1⟩ := h.dec
  have hrun := Decoder.Run.frame n1 h1
  have hfit : Mdec.Fits hh := by
    unfold Mdec.Fits
    rw [v1.idx]
    exact Mdec.fewTokens_self (Mdec.fewTokens_prefix hfew) n1
  have hfr := Mdec.run_frames hrun
  rw [List.length_append, List.length_singleton] at hfr
  rcases Mdec.step_bwd hl r1 v1 hfit h1 (Mdec.fewTokens_self hfew hrun) (by omega) with
    ⟨c1, m2, g1, g2⟩ | ⟨d, h', g1, g2, g3, g4⟩
  · exact .inl ⟨fs, row, [], bs, cs, b.dec, r.fuel, c1, m2, rfl, m1, g1, g2⟩
  · right
    have hs : Same r True (fs ++ [row]) { b with dec := d } { v with dec := d' } :=
      ⟨h.am, h.hyp, h.ll, h', _, _, g3, g4, .frame m1 g1 g2, hrun⟩
    have hf : d.frames = d'.frames := hs.frames
    unfold decodeRow
    rw [g1, ok_bind]
    simp only at hv ⊢
    by_cases hz : d'.frames % 20 = 0
    · rw [if_pos hz] at hv
      rw [if_pos ((tmod_zero hf).mpr hz)]
      exact (storeHyp_mid hs).2 v' hv
    · rw [if_neg hz] at hv
      rw [if_neg (fun hc => hz ((tmod_zero hf).mp hc))]
      cases hv
      exact ⟨_, rfl, hs⟩

theorem rows_fwd (hl : LmLabels r.dec) : ∀ {rows fs : List (List F)} {b b' : Back F} {v : Stt.Back F},
    Same r False fs b v → rows.foldlM (decodeRow r zeros) b = .ok b' →
    Stale r.dec (fs ++ rows) ∨ ∃ v', rows.foldlM (Stt.decodeRow r zeros) v = .ok v' ∧ Same r False (fs ++ rows) b' v'
  | [], fs, b, b', v, h, hb => by
    cases hb
    exact .inr ⟨v, rfl, by rw [List.append_nil]; exact h⟩
  | row :: rows, fs, b, b', v, h, hb => by
    rw [List.foldlM_cons] at hb
    obtain ⟨b1, h1, h2⟩ := bind_ok hb
    rw [show fs ++ row :: rows = (fs ++ [row]) ++ rows by simp]
    rcases row_fwd hl h h1 with h3 | ⟨v1, h3, h4⟩
    · exact .inl (stale_more rows h3)
    · rcases rows_fwd hl h4 h2 with h5 | ⟨v', h5, h6⟩
      · exact .inl h5
      · exact .inr ⟨v', by rw [List.foldlM_cons, h3]; exact h5, h6⟩

theorem fewTokens_take {e : Decoder.Env F D} {fs gs : List (List F)} (h : FewTokens e (fs ++ gs)) : FewTokens e fs := by
  intro n bs cs d hr
  by_cases hn : n ≤ fs.length
  · exact h n bs cs d (by rw [List.take_append_of_le_length hn]; exact hr)
  · refine h fs.length bs cs d ?_
    rw [List.take_append_of_le_length (Nat.le_refl _), List.take_length]
    rw [List.take_of_length_le (by omega)] at hr
    exact hr

theorem rows_bwd (hl : LmLabels r.dec) : ∀ {rows fs : List (List F)} {b : Back F} {v v' : Stt.Back F},
    Same r True fs b v → FewTokens r.dec (fs ++ rows) → fs.length + rows.length ≤ 2147483647 →
    rows.foldlM (Stt.decodeRow r zeros) v = .ok v' →
    Stale r.dec (fs ++ rows) ∨ ∃ b', rows.foldlM (decodeRow r zeros) b = .ok b' ∧ Same r True (fs ++ rows) b' v'
  | [], fs, b, v, v', h, _, _, hv => by
    cases hv
    exact .inr ⟨b, rfl, by rw [List.append_nil]; exact h⟩
  | row :: rows, fs, b, v, v', h, hfew, hlen, hv => by
    rw [List.foldlM_cons] at hv
    obtain ⟨v1, h1, h2⟩ := bind_ok hv
    rw [List.length_cons] at hlen
    rw [show fs ++ row :: rows = (fs ++ [row]) ++ rows by simp] at hfew ⊢
    rcases row_bwd hl h (fewTokens_take hfew) (by omega) h1 with h3 | ⟨b1, h3, h4⟩
    · exact .inl (stale_more rows h3)
    · rcases rows_bwd hl h4 hfew (by rw [List.length_append, List.length_singleton]; omega) h2 with h5 | ⟨b', h5, h6⟩
      · exact .inl h5
      · exact .inr ⟨b', by rw [List.foldlM_cons, h3]; exact h5, h6⟩

/-- The rows after the end of the stream, without text in between. -/
theorem tail_fwd (hl : LmLabels r.dec) : ∀ {rows fs : List (List F)} {b : Back F} {m : Mdec.Mem F} {v : Stt.Back F},
    Same r False fs b v → processRows r rows b.dec = .ok m →
    Stale r.dec (fs ++ rows) ∨ ∃ d, Stt.decodeRows r rows v.dec = .ok d ∧
      Same r False (fs ++ rows) { b with dec := m } { v with dec := d }
  | [], fs, b, m, v, h, hb => by
    cases hb
    exact .inr ⟨v.dec, rfl, by rw [List.append_nil]; exact h⟩
  | row :: rows, fs, b, m, v, h, hb => by
    unfold processRows at hb
    rw [List.foldlM_cons] at hb
    obtain ⟨m1, h1, h2⟩ := bind_ok hb
    obtain ⟨⟨x, c, m2⟩, h1, h3⟩ := bind_ok h1
    cases h3
    rw [show fs ++ row :: rows = (fs ++ [row]) ++ rows by simp]
    obtain ⟨hh, bs, cs, r1, v1, k1, n1⟩ := h.dec
    by_cases hst : ∀ m1, Mdec.propagate r.dec r.fuel row b.dec = .ok (true, c, m1) → NoStale m1
    · obtain ⟨h', d', _, g2, g3, g4⟩ := Mdec.step_fwd hl r1 v1 h1 hst
      have hs : Same r False (fs ++ [row]) { b with dec := m1 } { v with dec := d' } :=
        ⟨h.am, h.hyp, h.ll, h', _, _, g3, g4, .frame k1 h1 hst, .frame n1 g2⟩
      rcases tail_fwd hl hs h2 with h5 | ⟨d, h5, h6⟩
      · exact .inl h5
      · refine .inr ⟨d, ?_, h6⟩
        unfold Stt.decodeRows
        rw [List.foldlM_cons, g2]
        exact h5
    · left
      have : ∃ m1, Mdec.propagate r.dec r.fuel row b.dec = .ok (true, c, m1) ∧ ¬ NoStale m1 :=
        Classical.byContradiction fun hc => hst fun m1 hm => Classical.byContradiction fun hn => hc ⟨m1, hm, hn⟩
      obtain ⟨m3, g1, g2⟩ := this
      exact stale_more rows ⟨fs, row, [], bs, cs, b.dec, r.fuel, c, m3, rfl, k1, g1, g2⟩

theorem tail_bwd (hl : LmLabels r.dec) : ∀ {rows fs : List (List F)} {b : Back F} {v : Stt.Back F} {d : Decoder.Dec F},
    Same r True fs b v → FewTokens r.dec (fs ++ rows) → fs.length + rows.length ≤ 2147483647 →
    Stt.decodeRows r rows v.dec = .ok d →
    Stale r.dec (fs ++ rows) ∨ ∃ m, processRows r rows b.dec = .ok m ∧
      Same r True (fs ++ rows) { b with dec := m } { v with dec := d }
  | [], fs, b, v, d, h, _, _, hv => by
    cases hv
    exact .inr ⟨b.dec, rfl, by rw [List.append_nil]; exact h⟩
  | row :: rows, fs, b, v, d, h, hfew, hlen, hv => by
    obtain ⟨x, c, d1, h1, h2⟩ := Stt.decodeRows_cons hv
    rw [List.length_cons] at hlen
    rw [show fs ++ row :: rows = (fs ++ [row]) ++ rows by simp] at hfew ⊢
    obtain ⟨hh, bs, cs, r1, v1, k1, n1⟩ := h.dec
    have hrun := Decoder.Run.frame n1 h1
    have hfit : Mdec.Fits hh := by
      unfold Mdec.Fits
      rw [v1.idx]
      exact Mdec.fewTokens_self (fewTokens_take (fewTokens_take hfew)) n1
    have hfr := Mdec.run_frames hrun
    rw [List.length_append, List.length_singleton] at hfr
    rcases Mdec.step_bwd hl r1 v1 hfit h1 (Mdec.fewTokens_self (fewTokens_take hfew) hrun) (by omega) with
      ⟨c1, m2, g1, g2⟩ | ⟨m1, h', g1, g2, g3, g4⟩
    · exact .inl (stale_more rows ⟨fs, row, [], bs, cs, b.dec, r.fuel, c1, m2, rfl, k1, g1, g2⟩)
    · have hs : Same r True (fs ++ [row]) { b with dec := m1 } { v with dec := d1 } :=
        ⟨h.am, h.hyp, h.ll, h', _, _, g3, g4, .frame k1 g1 g2, hrun⟩
      rcases tail_bwd hl hs hfew (by rw [List.length_append, List.length_singleton]; omega) h2 with h5 | ⟨m, h5, h6⟩
      · exact .inl h5
      · refine .inr ⟨m, ?_, h6⟩
        unfold processRows
        rw [List.foldlM_cons, g1]
        exact h5

/-- What is the same at the end. -/
structure Alike (b : Back F) (v : Stt.Back F) : Prop where
  hyp : b.hyp = v.hyp
  ll : b.ll = v.ll
  frames : b.dec.frames = v.dec.frames
  tokens : SameTokens b.dec v.dec

theorem decodeAll_fwd (hl : LmLabels r.dec) {fill : Nat → UInt8} {rows1 rows2 : List (List F)} {b : Back F}
    (h : decodeAll r fill rows1 rows2 = .ok b) :
    Stale r.dec (rows1 ++ rows2) ∨ ∃ v, decodeAllV r fill rows1 rows2 = .ok v ∧ Alike b v := by
  unfold decodeAll at h
  obtain ⟨m0, h0, h⟩ := bind_ok h
  obtain ⟨m1, h1, h⟩ := bind_ok h
  obtain ⟨b1, h2, h⟩ := bind_ok h
  obtain ⟨m2, h3, h⟩ := bind_ok h
  obtain ⟨hh, d0, _, g2, g3, g4⟩ := Mdec.init_fwd hl h0 h1
  have hs : Same r False [] ⟨Am.Inst.new, m1, [0], r.zero⟩ ⟨Am.Inst.new, d0, [0], r.zero⟩ :=
    ⟨rfl, rfl, rfl, hh, _, _, g3, g4, .init h0 h1, .init g2⟩
  rcases rows_fwd hl hs h2 with h4 | ⟨v1, h4, h5⟩
  · exact .inl (stale_more rows2 h4)
  · rcases tail_fwd hl h5 h3 with h6 | ⟨d2, h6, h7⟩
    · exact .inl h6
    · obtain ⟨v', k1, k2, k3, k4, k5, k6⟩ := (storeHyp_same h7 true fill).1 b h
      refine .inr ⟨v', ?_, k3, k4, ?_, ?_⟩
      · unfold decodeAllV
        rw [g2, ok_bind, h4, ok_bind, h6]
        exact k1
      · rw [k5, k6]; exact h7.frames
      · rw [k5, k6]; exact h7.tokens

theorem decodeAll_bwd (hl : LmLabels r.dec) (hS : Small r.dec) {fill : Nat → UInt8} {rows1 rows2 : List (List F)}
    {v : Stt.Back F} (hfew : FewTokens r.dec (rows1 ++ rows2)) (hlen : (rows1 ++ rows2).length ≤ 2147483647)
    (h : decodeAllV r fill rows1 rows2 = .ok v) :
    Stale r.dec (rows1 ++ rows2) ∨ ∃ b, decodeAll r fill rows1 rows2 = .ok b ∧ Alike b v := by
  unfold decodeAllV at h
  obtain ⟨d0, h1, h⟩ := bind_ok h
  obtain ⟨v1, h2, h⟩ := bind_ok h
  obtain ⟨d2, h3, h⟩ := bind_ok h
  have hnil : FewTokens r.dec [] := fewTokens_take (gs := rows1 ++ rows2) hfew
  obtain ⟨m0, m1, hh, g1, g2, g3, g4⟩ := Mdec.init_bwd hl hS h1 (Mdec.fewTokens_self hnil (.init h1))
  rw [List.length_append] at hlen
  have hs : Same r True [] ⟨Am.Inst.new, m1, [0], r.zero⟩ ⟨Am.Inst.new, d0, [0], r.zero⟩ :=
    ⟨rfl, rfl, rfl, hh, _, _, g3, g4, .init g1 g2, .init h1⟩
  rcases rows_bwd hl hs (fewTokens_take hfew) (by simp; omega) h2 with h4 | ⟨b1, h4, h5⟩
  · exact .inl (stale_more rows2 h4)
  · rcases tail_bwd hl h5 hfew (by simpa using hlen) h3 with h6 | ⟨m2, h6, h7⟩
    · exact .inl h6
    · obtain ⟨b', k1, k2, k3, k4, k5, k6⟩ := (storeHyp_same h7 true fill).2 v h
      refine .inr ⟨b', ?_, k3, k4, ?_, ?_⟩
      · unfold decodeAll
        rw [g1, ok_bind, g2, ok_bind, h4, ok_bind, h6]
        exact k1
      · rw [k5, k6]; exact h7.frames
      · rw [k5, k6]; exact h7.tokens

end Verif.SttMem
