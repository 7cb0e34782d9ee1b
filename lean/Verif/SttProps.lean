import Verif.SttLemmas
import Verif.AmProps
import Verif.FbankProps

/-!
# Properties C29, C43 and C59: the C interface
-/

namespace Verif.Stt

open Verif Verif.Nnet.Spec Verif.Fbank.Spec Verif.Pcm

variable {F D : Type}

/-! ## A small recogniser for the examples -/

/-- Exact integer arithmetic in which a billion is infinity. -/
def toyArith : Decoder.Arith Int Int where
  fadd := (· + ·)
  fmul := (· * ·)
  fneg := fun x => -x
  zero := 0
  flt := fun x y => decide (x < y)
  fdiv := fun a b => (a / b : Nat)
  toD := id
  toF := id
  dadd := (· + ·)
  dsub := (· - ·)
  dlt := fun x y => decide (x < y)
  finite := fun x => decide (x < 500000000)
  inf := 1000000000
  isInf := fun x => decide (500000000 ≤ x)
  beam := 16
  beamDelta := 1

/-- Word 1 on the first frame, then to and fro between two states; an utterance may only end in state 2, after an even
number of frames. -/
def toyGraph : Decoder.Graph Int where
  start := 0
  arcs s := if s = 0 then [⟨1, 1, 3, 1⟩] else if s = 1 then [⟨1, 0, 0, 2⟩] else [⟨1, 0, 0, 1⟩]
  final s := if s = 2 then 2 else 1000000000

/-- Operations of the feature extraction with an "FFT" that gives the same spectrum for every window. -/
def flatFb : Fbank.Ops Int := { Fbank.toyOps with fft := fun _ b => .ok (List.replicate 512 1, b) }

theorem flatFb_scratch : ScratchOnly flatFb where
  indep := fun _ _ _ _ _ _ => rfl
  size := fun w b w' b' _ hb h => by
    have h : (Except.ok (List.replicate 512 1, b) : Exec (List Int × List Int)) = .ok (w', b') := h
    cases h
    exact ⟨List.length_replicate, hb⟩

/-- One frame of left context, a rectifier, batches of two; one word besides the empty one. -/
def toyRec : Rec Int Int where
  conv := id
  fb := flatFb
  nn := Nnet.toyOps
  am := ⟨[.splice [-1, 0], .narrow 1 0, .relu], List.replicate 80 0, 1, 0, 2⟩
  dec := ⟨toyArith, toyGraph, none, [0, 0], 1⟩
  fuel := 10
  syms := [[45], [104, 105]]
  perFrame := fun w n => w.tdiv n
  zero := 0

theorem toyRec_sound : Sound toyRec Nnet.toyVecMat 80 1 0 2 80 where
  hvm := Nnet.toyOps_rowWise
  hb := by
    refine Built.context (l := 1) (r := 0) (L := 0) (R := 0) (by decide) (by decide) (by decide) (by decide)
      (by decide) (.inr (by decide)) (.inl rfl) ?_
    refine Built.row (e := 80) (by decide) (by decide) .relu ?_
    exact Built.nil (by decide) (by decide)
  hprior := List.length_replicate
  hleft := rfl
  hright := rfl
  hchunk := rfl
  hc := by decide
  hsize := by decide
  hbig := by decide
  tables := Fbank.toyOps_tables
  scratch := flatFb_scratch

/-- Indeterminate memory, for the examples. -/
def toyMem (v : Int) (c : UInt8) : Mem Int := ⟨Fbank.toyJunk v, fun _ => c⟩

/-- A supported format: 16 kHz, one channel, 8 bits. -/
def toyFormat : Format := ⟨1, 16000, 8⟩

/-! ## C29 -/

/-- A supported format has samples of 1, 2 or 4 bytes. -/
theorem setFormat_ok {fmt : Format} {reader : Reader} (h : Pcm.Reader.new.setFormat fmt = .ok reader) :
    reader = ⟨true, fmt, []⟩ ∧ ∃ b : Nat, Width fmt.bits b := by
  unfold Pcm.Reader.setFormat at h
  by_cases h1 : fmt.channels ≠ 1
  · rw [if_pos h1] at h; cases h
  by_cases h2 : fmt.rate ≠ 16000
  · rw [if_neg h1, if_pos h2] at h; cases h
  by_cases h3 : fmt.bits = 8 ∨ fmt.bits = 16 ∨ fmt.bits = 32
  · rw [if_neg h1, if_neg h2, if_pos h3] at h
    cases h
    refine ⟨rfl, ?_⟩
    rcases h3 with h | h | h
    · exact ⟨1, by rw [h]; exact .w8⟩
    · exact ⟨2, by rw [h]; exact .w16⟩
    · exact ⟨4, by rw [h]; exact .w32⟩
  · rw [if_neg h1, if_neg h2, if_neg h3] at h; cases h

/-- The fold of the decoder over rows of scores, without text in between. -/
def decodeRows (r : Rec F D) (rows : List (List F)) (d : Decoder.Dec F) : Exec (Decoder.Dec F) :=
  rows.foldlM (fun d row => do
    let (_, _, d) ← Decoder.process r.dec r.fuel row d
    .ok d) d

theorem decodeRow_dec {r : Rec F D} {fill : Nat → UInt8} {b b' : Back F} {row : List F}
    (h : decodeRow r fill b row = .ok b') : decodeRows r [row] b.dec = .ok b'.dec := by
  unfold decodeRow at h
  obtain ⟨⟨x, y, d⟩, h1, h⟩ := bind_ok h
  unfold decodeRows
  rw [List.foldlM_cons, h1]
  simp only at h
  show Except.ok d = .ok b'.dec
  split at h
  · unfold storeHyp at h
    obtain ⟨_, _, h⟩ := bind_ok h
    obtain ⟨_, _, h⟩ := bind_ok h
    cases h
    rfl
  · cases h
    rfl

theorem decodeRows_append (r : Rec F D) (xs ys : List (List F)) (d : Decoder.Dec F) :
    decodeRows r (xs ++ ys) d = decodeRows r xs d >>= decodeRows r ys := List.foldlM_append

theorem decodeRows_dec {r : Rec F D} {fill : Nat → UInt8} : ∀ {rows : List (List F)} {b b' : Back F},
    rows.foldlM (decodeRow r fill) b = .ok b' → decodeRows r rows b.dec = .ok b'.dec
  | [], b, b', h => by cases h; rfl
  | row :: rows, b, b', h => by
    rw [List.foldlM_cons] at h
    obtain ⟨b1, h1, h2⟩ := bind_ok h
    rw [show row :: rows = [row] ++ rows from rfl, decodeRows_append, decodeRow_dec h1]
    exact decodeRows_dec h2

/-- Frame by frame, the acoustic model and the decoder go the way of the whole utterance. -/
theorem backSteps_feed {r : Rec F D} : ∀ {fs : List (List F)} {b b' : Back F}, fs.foldlM (backStep r) b = .ok b' →
    ∃ rows, Am.feed r.nn r.am b.am (fs.map fun f => ([], f)) = .ok (rows, b'.am) ∧
      decodeRows r rows b.dec = .ok b'.dec
  | [], b, b', h => by cases h; exact ⟨[], rfl, rfl⟩
  | f :: fs, b, b', h => by
    rw [List.foldlM_cons] at h
    obtain ⟨b1, h1, h2⟩ := bind_ok h
    obtain ⟨rows, h3, h4⟩ := backSteps_feed h2
    unfold backStep at h1
    obtain ⟨⟨xs, inst⟩, h5, h6⟩ := bind_ok h1
    have h7 := decodeRows_am h6
    have h8 := decodeRows_dec h6
    refine ⟨xs ++ rows, ?_, ?_⟩
    · rw [List.map_cons, Am.feed, h5, ok_bind]
      simp only at h7 ⊢
      rw [← h7, h3]
      rfl
    · rw [decodeRows_append, h8]
      exact h4

/-- The end of the stream does not depend on the old content of the character array. -/
theorem finish_fill (r : Rec F D) (f g : Nat → UInt8) (u : Utt F) : finish r f u = finish r g u := by
  unfold finish
  simp only [storeHyp_fill r f g]

theorem end_fill (f g : Nat → UInt8) (h : Handle F D) (msg : Msg) : endApi f h msg = endApi g h msg := by
  cases h with
  | null => rfl
  | noInternal _ _ => rfl
  | noRecognizer _ => rfl
  | ready r u =>
    unfold endApi
    simp only [finish_fill r f g]

theorem end_ready (r : Rec F D) (fill : Nat → UInt8) (u : Utt F) (msg : Msg) :
    endApi fill (.ready r u) msg = (do
      let u' ← finish r fill u
      .ok (.ready r u', msg)) := rfl

theorem init_good {r : Rec F D} {L R c : Nat} {fmt : Format} {h : Handle F D} {msg : Msg}
    (hi : initApi (some r) fmt .none = .ok (h, msg)) :
    (h = .null ∧ ∃ code, msg = .status code) ∨
    ∃ d b, msg = .none ∧ Width fmt.bits b ∧ Decoder.initDecoder r.dec r.fuel Decoder.fresh = .ok d ∧
      h = .ready r ⟨⟨true, fmt, []⟩, [], ⟨Am.Inst.new, d, [0], r.zero⟩⟩ ∧
      Good L R c 0 b (⟨⟨true, fmt, []⟩, [], ⟨Am.Inst.new, d, [0], r.zero⟩⟩ : Utt F) := by
  unfold initApi at hi
  obtain ⟨d, h1, hi⟩ := bind_ok hi
  cases hs : Pcm.Reader.new.setFormat fmt with
  | error x =>
    rw [hs] at hi
    cases x with
    | fault f => cases hi
    | status code => cases hi; exact .inl ⟨rfl, code, rfl⟩
  | ok reader =>
    obtain ⟨rfl, b, hw⟩ := setFormat_ok hs
    rw [hs] at hi
    cases hi
    exact .inr ⟨d, b, rfl, hw, h1, rfl, rfl, hw, hw.pos, rfl, fine_new r.zero⟩

theorem feed_null (cs : List (Mem F × List UInt8)) (hcs : cs ≠ []) (msg : Msg) :
    feedApi cs (.null : Handle F D) msg = .ok (.null, .uttNull) := by
  induction cs generalizing msg with
  | nil => exact absurd rfl hcs
  | cons p cs ih =>
    unfold feedApi
    show feedApi cs .null .uttNull = _
    cases cs with
    | nil => rfl
    | cons q cs => exact ih (by simp) _

/-- **C29.** Two ways of cutting the same bytes into non-empty pieces, with any content of uninitialised memory: if
one run reaches the end without a fault, so does the other, and hypothesis, likelihood, decoder state, number of
decoded frames and everything else an utterance holds are the same.

Partial: pieces must be shorter than 536870500 bytes (from 2^29 samples on the byte size of a vector overflows), and
*which* fault happens can depend on the cutting, since the features of a whole piece are computed before its first
frame is decoded. -/
theorem C29_chunk_independence_partial {r : Rec F D} {vm : List F → List (List F) → List F} {e L R c w : Nat}
    (S : Sound r vm e L R c w) (fmt : Format) (fill fill' : Nat → UInt8) (cs ds : List (Mem F × List UInt8))
    (hcs : ∀ p ∈ cs, p.2 ≠ [] ∧ p.2.length < 536870500) (hds : ∀ p ∈ ds, p.2 ≠ [] ∧ p.2.length < 536870500)
    (hbytes : (cs.map Prod.snd).flatten = (ds.map Prod.snd).flatten) (x : Handle F D × Msg) :
    recognise r fmt fill cs = .ok x ↔ recognise r fmt fill' ds = .ok x := by
  unfold recognise
  cases hi : initApi (some r) fmt .none with
  | error f => rfl
  | ok hm =>
    obtain ⟨h, msg⟩ := hm
    rw [ok_bind, ok_bind]
    simp only
    rcases init_good (L := L) (R := R) (c := c) hi with ⟨rfl, _⟩ | ⟨d, b, rfl, hw, _, rfl, G⟩
    · have hn : ∀ (f : Nat → UInt8) (qs : List (Mem F × List UInt8)), (do
          let x ← feedApi qs (.null : Handle F D) msg
          endApi f x.1 x.2) ≠ .ok x := by
        intro f qs hc
        cases qs with
        | nil => cases hc
        | cons q qs => rw [feed_null (q :: qs) (by simp)] at hc; cases hc
      exact ⟨fun hc => absurd hc (hn _ _), fun hc => absurd hc (hn _ _)⟩
    · have hf : ∀ hm, feedApi cs (.ready r ⟨⟨true, fmt, []⟩, [], ⟨Am.Inst.new, d, [0], r.zero⟩⟩) .none = .ok hm ↔
          feedApi ds (.ready r ⟨⟨true, fmt, []⟩, [], ⟨Am.Inst.new, d, [0], r.zero⟩⟩) .none = .ok hm := by
        intro hm
        obtain ⟨h, m⟩ := hm
        rw [feed_stream S .none cs G hcs, feed_stream S .none ds G hds, hbytes]
      constructor
      · intro hh
        obtain ⟨hm, h1, h2⟩ := bind_ok hh
        rw [(hf hm).mp h1, ok_bind, end_fill fill' fill]
        exact h2
      · intro hh
        obtain ⟨hm, h1, h2⟩ := bind_ok hh
        rw [(hf hm).mpr h1, ok_bind, end_fill fill fill']
        exact h2

/-- **C29**, end to end.  An utterance recognised without a fault went through these stages: `feats` are the feature
rows of all frames of the whole signal; there is one row of scores per frame, computed by the network from the frames
continued at both ends; the decoder took all rows in order; the text is that of its best path.  Nothing of this refers
to the pieces. -/
theorem C29_end_to_end_partial {r : Rec F D} {vm : List F → List (List F) → List F} {e L R c w : Nat}
    (S : Sound r vm e L R c w) (fmt : Format) (b : Nat) (hb : fmt.bits = 8 * b) (fill : Nat → UInt8)
    (cs : List (Mem F × List UInt8)) (hcs : ∀ p ∈ cs, p.2 ≠ [] ∧ p.2.length < 536870500) (h : Handle F D) (msg : Msg)
    (hr : recognise r fmt fill cs = .ok (h, msg)) :
    let signal := (Pcm.Spec.samples b (cs.map Prod.snd).flatten).map r.conv
    ∃ feats rows d0 d u words weight,
      (frames signal).mapM (row r.fb) = .ok feats ∧ rows.length = numFrames signal.length ∧
      (∀ t : Nat, t < rows.length → rows[t]? = some (List.zipWith (fun x y => r.nn.add x (r.nn.mul r.nn.negOne y))
        (series r.nn vm r.am.layers (edge feats) t) r.am.logPrior)) ∧
      Decoder.initDecoder r.dec r.fuel Decoder.fresh = .ok d0 ∧ decodeRows r rows d0 = .ok d ∧
      h = .ready r u ∧ msg = .none ∧ u.back.dec = Decoder.endOfStream d ∧
      Decoder.bestPath r.dec (Decoder.endOfStream d) = .ok (words, weight) ∧
      Text.storeHypText r.syms words zeros = .ok u.back.hyp := by
  intro signal
  unfold recognise at hr
  obtain ⟨⟨h1, m1⟩, hi, hr⟩ := bind_ok hr
  obtain ⟨⟨h2, m2⟩, hf, hr⟩ := bind_ok hr
  simp only at hf hr
  rcases init_good (L := L) (R := R) (c := c) hi with ⟨rfl, _⟩ | ⟨d0, b', rfl, hw, hd0, rfl, G⟩
  · exfalso
    cases cs with
    | nil => cases hf; cases hr
    | cons q qs => rw [feed_null (q :: qs) (by simp)] at hf; cases hf; cases hr
  · have hbb : b' = b := by
      have hbits : ∀ {n : Int}, Width n b' → n = 8 * b' := fun h => by cases h <;> rfl
      have := hbits hw
      omega
    subst hbb
    obtain ⟨feats, back, g1, g2, rfl, rfl⟩ := (feed_stream S .none cs G hcs h2 m2).mp hf
    have g1 : (frames signal).mapM (row r.fb) = .ok feats := g1
    have hfl : feats.length = numFrames signal.length := by
      have : ∀ {xs : List (List F)} {ys : List (List F)}, xs.mapM (row r.fb) = .ok ys → ys.length = xs.length := by
        intro xs
        induction xs with
        | nil => intro ys hy; cases hy; rfl
        | cons x xs ih =>
          intro ys hy
          rw [List.mapM_cons] at hy
          obtain ⟨y, _, hy⟩ := bind_ok hy
          obtain ⟨zs, hz, hy⟩ := bind_ok hy
          cases hy
          rw [List.length_cons, List.length_cons, ih hz]
      rw [this g1]
      unfold frames
      rw [List.length_map, List.length_range]
    obtain ⟨rows1, f1, f2⟩ := backSteps_feed g2
    rw [end_ready] at hr
    obtain ⟨u', hfin, hr⟩ := bind_ok hr
    cases hr
    unfold finish at hfin
    obtain ⟨⟨rows2, inst⟩, e1, hfin⟩ := bind_ok hfin
    obtain ⟨d, e2, hfin⟩ := bind_ok hfin
    obtain ⟨back', e3, hfin⟩ := bind_ok hfin
    cases hfin
    unfold storeHyp at e3
    obtain ⟨⟨words, weight⟩, e4, e3⟩ := bind_ok e3
    obtain ⟨hyp, e5, e3⟩ := bind_ok e3
    cases e3
    have hu : Am.utterance r.nn r.am (feats.map fun f => ([], f)) = .ok (rows1 ++ rows2, inst) := by
      unfold Am.utterance
      rw [f1, ok_bind]
      simp only
      have e1 : Am.endOfStream r.nn r.am back.am [] = .ok (rows2, inst) := e1
      rw [e1]
      rfl
    have hrows : (rows1 ++ rows2).length = feats.length ∧ ∀ t : Nat, t < feats.length → (rows1 ++ rows2)[t]? =
        some (List.zipWith (fun x y => r.nn.add x (r.nn.mul r.nn.negOne y))
          (series r.nn vm r.am.layers (edge feats) t) r.am.logPrior) := by
      by_cases hz : feats = []
      · subst hz
        rw [List.map_nil, Am.C28_no_frames] at hu
        have hz : rows1 ++ rows2 = [] := by
          injection hu with hu
          injection hu with hu _
          exact hu.symm
        rw [hz]
        exact ⟨rfl, fun t ht => absurd ht (by simp)⟩
      · obtain ⟨rows, inst', q1, q2, q3⟩ := Am.C28_scores S.hvm r.am S.hb S.hprior S.hleft S.hright S.hchunk S.hc
          S.hsize S.hbig (feats.map fun f => (([] : List (List F)), f)) (by simpa using hz)
          (by
            intro f hf
            obtain ⟨g, hg, rfl⟩ := List.mem_map.mp hf
            exact rows_length S.tables g1 g hg)
        rw [hu] at q1
        cases q1
        rw [List.length_map] at q2 q3
        have hm : (feats.map fun f => (([] : List (List F)), f)).map Prod.snd = feats := by
          rw [List.map_map]; exact List.map_id feats
        rw [hm] at q3
        exact ⟨q2, q3⟩
    refine ⟨feats, rows1 ++ rows2, d0, d, _, words, weight, g1, by rw [hrows.1, hfl], ?_, hd0, ?_, rfl, rfl, rfl, e4, ?_⟩
    · intro t ht
      exact hrows.2 t (by rw [← hrows.1]; exact ht)
    · rw [decodeRows_append, f2]
      exact e2
    · rw [storeHypText_fill _ _ zeros fill]
      exact e5

/-- A run without a fault, from the runs of its stages. -/
theorem recognise_ok {r : Rec F D} {vm : List F → List (List F) → List F} {e L R c w : Nat}
    (S : Sound r vm e L R c w) {fmt : Format} (hfmt : Pcm.Reader.new.setFormat fmt = .ok ⟨true, fmt, []⟩) {b : Nat}
    (hb : Width fmt.bits b) (fill : Nat → UInt8) (cs : List (Mem F × List UInt8))
    (hcs : ∀ p ∈ cs, p.2 ≠ [] ∧ p.2.length < 536870500) {d0 : Decoder.Dec F} {feats : List (List F)}
    {back : Back F} {v : Utt F} (h0 : Decoder.initDecoder r.dec r.fuel Decoder.fresh = .ok d0)
    (h1 : (frames ((Pcm.Spec.samples b (cs.map Prod.snd).flatten).map r.conv)).mapM (row r.fb) = .ok feats)
    (h2 : feats.foldlM (backStep r) ⟨Am.Inst.new, d0, [0], r.zero⟩ = .ok back)
    (h3 : finish r fill ⟨⟨true, fmt, []⟩, [], back⟩ = .ok v) :
    ∃ u, recognise r fmt fill cs = .ok (.ready r u, .none) ∧ u.back = v.back := by
  have hi : initApi (some r) fmt .none =
      .ok (.ready r ⟨⟨true, fmt, []⟩, [], ⟨Am.Inst.new, d0, [0], r.zero⟩⟩, .none) := by
    unfold initApi
    simp only
    rw [h0, ok_bind, hfmt]
  have G : Good L R c 0 b (⟨⟨true, fmt, []⟩, [], ⟨Am.Inst.new, d0, [0], r.zero⟩⟩ : Utt F) :=
    ⟨rfl, hb, hb.pos, rfl, fine_new r.zero⟩
  unfold finish at h3
  obtain ⟨⟨rows2, inst⟩, e1, h3⟩ := bind_ok h3
  obtain ⟨d, e2, h3⟩ := bind_ok h3
  obtain ⟨back', e3, h3⟩ := bind_ok h3
  cases h3
  refine ⟨{ after r b ⟨⟨true, fmt, []⟩, [], ⟨Am.Inst.new, d0, [0], r.zero⟩⟩ (cs.map Prod.snd).flatten back with
    back := back' }, ?_, rfl⟩
  unfold recognise
  rw [hi, ok_bind]
  simp only
  rw [(feed_stream S .none cs G hcs _ _).mpr ⟨feats, back, h1, h2, rfl, rfl⟩, ok_bind]
  simp only
  rw [end_ready]
  unfold finish
  have e1 : Am.endOfStream r.nn r.am (after r b ⟨⟨true, fmt, []⟩, [], ⟨Am.Inst.new, d0, [0], r.zero⟩⟩
    (cs.map Prod.snd).flatten back).back.am [] = .ok (rows2, inst) := e1
  rw [e1, ok_bind]
  simp only
  show (do
    let u' ← (do
      let d ← rows2.foldlM (fun d row => do
        let (_, _, d) ← Decoder.process r.dec r.fuel row d
        .ok d) back.dec
      let back ← storeHyp r fill { back with am := inst, dec := Decoder.endOfStream d }
      .ok (Utt.mk _ _ back))
    .ok (Handle.ready r u', Msg.none)) = _
  rw [e2, ok_bind, e3]
  rfl

/-- The features of every frame. -/
def flatRow : List Int := 6 :: List.replicate 39 7

/-- Every frame has the same features. -/
theorem flatFb_row (x : List Int) : row flatFb x = .ok flatRow := by
  have h : row flatFb x = row flatFb [] := rfl
  rw [h]
  decide +kernel

theorem flatFb_rows : ∀ xs : List (List Int), xs.mapM (row flatFb) = .ok (List.replicate xs.length flatRow)
  | [] => rfl
  | x :: xs => by
    rw [List.mapM_cons, flatFb_row, flatFb_rows xs]
    rfl

theorem toy_features (n : Nat) (bs : List UInt8) (h : bs.length = 400 + 160 * n) :
    (frames ((Pcm.Spec.samples 1 bs).map id)).mapM (row flatFb) =
      .ok (List.replicate (n + 1) flatRow) := by
  rw [flatFb_rows]
  congr 2
  unfold frames
  rw [List.length_map, List.length_range, List.length_map]
  unfold Pcm.Spec.samples
  rw [List.length_map, List.length_range, Nat.div_one, h]
  unfold numFrames
  rw [if_neg (by omega)]
  omega

/-- 560 bytes in pieces of 1, 450 and 109 bytes: two frames. -/
def toyCut : List (Mem Int × List UInt8) :=
  [(toyMem 4 9, [17]), (toyMem 5 8, List.replicate 450 3), (toyMem 6 7, List.replicate 109 200)]

theorem toyCut_pieces : ∀ p ∈ toyCut, p.2 ≠ [] ∧ p.2.length < 536870500 := by
  decide +kernel

/-- A run of the stages behind the features, for the examples. -/
def toyBack (n : Nat) : Exec (Back Int) := do
  let d0 ← Decoder.initDecoder toyRec.dec toyRec.fuel Decoder.fresh
  (List.replicate n flatRow).foldlM (backStep toyRec) ⟨Am.Inst.new, d0, [0], 0⟩

theorem toy_recognise {n : Nat} {cs : List (Mem Int × List UInt8)}
    (hcs : ∀ p ∈ cs, p.2 ≠ [] ∧ p.2.length < 536870500) (hn : (cs.map Prod.snd).flatten.length = 400 + 160 * n)
    (hyp : Text.Str) (ll : Int) (frames : Nat)
    (h : (do
      let back ← toyBack (n + 1)
      let v ← finish toyRec (fun _ => 1) ⟨⟨true, toyFormat, []⟩, [], back⟩
      .ok (v.back.hyp, v.back.ll, v.back.dec.frames)) = .ok (hyp, ll, frames)) :
    ∃ u, recognise toyRec toyFormat (fun _ => 1) cs = .ok (.ready toyRec u, .none) ∧
      u.back.hyp = hyp ∧ u.back.ll = ll ∧ u.back.dec.frames = frames := by
  obtain ⟨back, h1, h⟩ := bind_ok h
  obtain ⟨v, h2, h⟩ := bind_ok h
  unfold toyBack at h1
  obtain ⟨d0, h0, h1⟩ := bind_ok h1
  obtain ⟨u, h3, h4⟩ := recognise_ok toyRec_sound (fmt := toyFormat) rfl (b := 1) .w8 (fun _ => 1) cs hcs h0
    (toy_features n _ hn) h1 h2
  injection h with h
  injection h with e1 e2
  injection e2 with e2 e3
  exact ⟨u, h3, by rw [h4, e1], by rw [h4, e2], by rw [h4, e3]⟩

/-- Two frames in three pieces are recognised as the text "hi"; the theorems above apply. -/
example : ∃ u, recognise toyRec toyFormat (fun _ => 1) toyCut = .ok (.ready toyRec u, .none) ∧
    u.back.hyp = [104, 105, 0] ∧ u.back.ll = -2 ∧ u.back.dec.frames = 2 :=
  toy_recognise (n := 1) toyCut_pieces (by decide +kernel) _ _ _ (by decide +kernel)

/-! ## C43 -/

/-- **C43** (absent utterance).  Without an utterance, its internals or its recogniser, `ce_stt_process` fails, leaves
everything alone, and says why. -/
theorem C43_process_absent (mem : Mem F) (h : Handle F D) (msg : Msg) (data : Option (List UInt8)) (size : Int)
    (hh : ∀ r u, h ≠ .ready r u) :
    ∃ msg', processApi mem h msg data size = .ok (-1, h, msg') ∧ msg' ≠ .none ∧ ∀ code, msg' ≠ .status code := by
  cases h with
  | null => exact ⟨.uttNull, rfl, by decide, fun _ hc => by cases hc⟩
  | noInternal a b => exact ⟨.internalNull, rfl, by decide, fun _ hc => by cases hc⟩
  | noRecognizer u => exact ⟨.recognizerNull, rfl, by decide, fun _ hc => by cases hc⟩
  | ready r u => exact absurd rfl (hh r u)

/-- **C43** (bad data).  A null pointer to the data or a size that is not positive makes `ce_stt_process` fail without
a change of the utterance, whatever state it is in. -/
theorem C43_process_bad_data (mem : Mem F) (r : Rec F D) (u : Utt F) (msg : Msg) (data : Option (List UInt8))
    (size : Int) (hh : data = none ∨ size ≤ 0) :
    processApi mem (.ready r u) msg data size = .ok (-1, .ready r u, .status .runtime) := by
  have hp : u.reader.process r.conv data size = bad .runtime := by
    unfold Pcm.Reader.process
    cases data with
    | none => rfl
    | some m =>
      rcases hh with hh | hh
      · cases hh
      · simp only
        rw [if_pos hh]
  unfold processApi checkParamUtt
  simp only
  rw [if_neg (by decide), hp]
  rfl

/-- **C43** (all outcomes).  Whenever `ce_stt_process` returns, it either fails with -1, an unchanged utterance and a
message; or it returns the number of samples the data completed, and the message is not touched. -/
theorem C43_process_outcomes (mem : Mem F) (h : Handle F D) (msg : Msg) (data : Option (List UInt8)) (size : Int)
    (n : Int) (h' : Handle F D) (msg' : Msg) (hr : processApi mem h msg data size = .ok (n, h', msg')) :
    (n = -1 ∧ h' = h ∧ msg' ≠ .none) ∨
    (0 ≤ n ∧ msg' = msg ∧ ∃ r u u', h = .ready r u ∧ h' = .ready r u' ∧ data ≠ none ∧ 0 < size) := by
  cases h with
  | null => cases hr; exact .inl ⟨rfl, rfl, by decide⟩
  | noInternal a b => cases hr; exact .inl ⟨rfl, rfl, by decide⟩
  | noRecognizer u => cases hr; exact .inl ⟨rfl, rfl, by decide⟩
  | ready r u =>
    unfold processApi checkParamUtt at hr
    simp only at hr
    rw [if_neg (by decide)] at hr
    cases hp : u.reader.process r.conv data size with
    | error x =>
      rw [hp] at hr
      cases x with
      | fault f => cases hr
      | status code =>
        cases hr
        exact .inl ⟨rfl, rfl, fun hc => by cases hc⟩
    | ok y =>
      obtain ⟨xs, reader⟩ := y
      rw [hp] at hr
      obtain ⟨u', _, hr⟩ := bind_ok hr
      cases hr
      refine .inr ⟨by omega, rfl, r, u, u', rfl, rfl, ?_, ?_⟩
      · rintro rfl
        cases hp
      · unfold Pcm.Reader.process at hp
        cases data with
        | none => cases hp
        | some m =>
          simp only at hp
          by_cases hs : size ≤ 0
          · rw [if_pos hs] at hp; cases hp
          · omega

/-- **C43 fails** for the end of the stream: a null utterance is dereferenced before it is checked, although a check
for it follows. -/
theorem C43_end_null_undefined (fill : Nat → UInt8) (msg : Msg) : endApi fill (.null : Handle F D) msg = .error .ub :=
  rfl

/-- **C43** for the end of the stream, in the other cases.  Partial: the utterance must not be null. -/
theorem C43_end_absent_partial (fill : Nat → UInt8) (h : Handle F D) (msg : Msg) (hn : h ≠ .null)
    (hh : ∀ r u, h ≠ .ready r u) : ∃ msg', endApi fill h msg = .ok (h, msg') ∧ msg' ≠ .none := by
  cases h with
  | null => exact absurd rfl hn
  | noInternal a b => exact ⟨.internalNull, rfl, by decide⟩
  | noRecognizer u => exact ⟨.recognizerNull, rfl, by decide⟩
  | ready r u => exact absurd rfl (hh r u)

/-- A recogniser that could not be loaded is a null pointer too, and `ce_utt_init` dereferences it without a check. -/
theorem C43_init_null_undefined (fmt : Format) (msg : Msg) : initApi (none : Option (Rec F D)) fmt msg = .error .ub :=
  rfl

/-- `ce_utt_init` gives an utterance exactly for one channel of 16 kHz with 8, 16 or 32 bits, and otherwise a null
pointer and a message, if the decoder starts up at all. -/
theorem C43_init (r : Rec F D) (fmt : Format) (msg : Msg) (d : Decoder.Dec F)
    (hd : Decoder.initDecoder r.dec r.fuel Decoder.fresh = .ok d) :
    (fmt.channels = 1 ∧ fmt.rate = 16000 ∧ (fmt.bits = 8 ∨ fmt.bits = 16 ∨ fmt.bits = 32) →
      ∃ u, initApi (some r) fmt msg = .ok (.ready r u, msg) ∧ u.back.dec = d ∧ u.back.hyp = [0]) ∧
    (¬ (fmt.channels = 1 ∧ fmt.rate = 16000 ∧ (fmt.bits = 8 ∨ fmt.bits = 16 ∨ fmt.bits = 32)) →
      initApi (some r) fmt msg = .ok (.null, .status .corruption)) := by
  unfold initApi Pcm.Reader.setFormat
  simp only
  rw [hd, ok_bind]
  constructor
  · rintro ⟨h1, h2, h3⟩
    rw [if_neg (by omega), if_neg (by omega), if_pos h3]
    exact ⟨_, rfl, rfl, rfl⟩
  · intro hn
    by_cases h1 : fmt.channels ≠ 1
    · rw [if_pos h1]; rfl
    by_cases h2 : fmt.rate ≠ 16000
    · rw [if_neg h1, if_pos h2]; rfl
    · rw [if_neg h1, if_neg h2, if_neg (fun h3 => hn ⟨by omega, by omega, h3⟩)]
      rfl

/-- The decoder of the example starts up, so that both cases of `C43_init` occur. -/
example : ∃ d, Decoder.initDecoder toyRec.dec toyRec.fuel Decoder.fresh = .ok d := by
  cases h : Decoder.initDecoder toyRec.dec toyRec.fuel Decoder.fresh with
  | ok d => exact ⟨d, rfl⟩
  | error x =>
    have : (Decoder.initDecoder toyRec.dec toyRec.fuel Decoder.fresh).toOption.isSome = true := by decide +kernel
    rw [h] at this
    cases this

/-- A call that succeeds, and one that fails, on the same utterance. -/
example : (processApi (toyMem 1 1) (.ready toyRec ⟨⟨true, toyFormat, []⟩, [], ⟨Am.Inst.new, Decoder.fresh, [0], 0⟩⟩) .none
      (some [1, 2, 3]) 3).map Prod.fst = .ok 3 ∧
    (processApi (toyMem 1 1) (.ready toyRec ⟨⟨true, toyFormat, []⟩, [], ⟨Am.Inst.new, Decoder.fresh, [0], 0⟩⟩) .none
      (some [1, 2, 3]) (-1)).map Prod.fst = .ok (-1) := by
  decide +kernel

/-! ## C59 -/

/-- **C59**, when there is a hypothesis: the likelihood reported at the end is that of the best path, divided by the
number of decoded frames.  Partial: the best path must have words. -/
theorem C59_likelihood_partial (r : Rec F D) (fill : Nat → UInt8) (u u' : Utt F) (hf : finish r fill u = .ok u')
    (words : List Int) (weight : F) (hb : Decoder.bestPath r.dec u'.back.dec = .ok (words, weight)) (hw : words ≠ []) :
    u'.back.ll = r.perFrame weight u'.back.dec.frames := by
  unfold finish at hf
  obtain ⟨⟨rows, inst⟩, _, hf⟩ := bind_ok hf
  obtain ⟨d, _, hf⟩ := bind_ok hf
  obtain ⟨back, h1, hf⟩ := bind_ok hf
  cases hf
  unfold storeHyp at h1
  obtain ⟨⟨ws, wt⟩, h2, h1⟩ := bind_ok h1
  obtain ⟨hyp, _, h1⟩ := bind_ok h1
  cases h1
  simp only at hb h2 ⊢
  rw [h2] at hb
  cases hb
  cases words with
  | nil => exact absurd rfl hw
  | cons a as => rfl

/-- **C59**, when there is none: the likelihood is whatever it was. -/
theorem C59_no_words (r : Rec F D) (fill : Nat → UInt8) (u u' : Utt F) (hf : finish r fill u = .ok u')
    (weight : F) (hb : Decoder.bestPath r.dec u'.back.dec = .ok ([], weight)) :
    u'.back.ll = u.back.ll ∧ u'.back.hyp = [0] := by
  unfold finish at hf
  obtain ⟨⟨rows, inst⟩, _, hf⟩ := bind_ok hf
  obtain ⟨d, _, hf⟩ := bind_ok hf
  obtain ⟨back, h1, hf⟩ := bind_ok hf
  cases hf
  unfold storeHyp at h1
  obtain ⟨⟨ws, wt⟩, h2, h1⟩ := bind_ok h1
  obtain ⟨hyp, h3, h1⟩ := bind_ok h1
  cases h1
  simp only at hb h2 h3 ⊢
  rw [h2] at hb
  cases hb
  cases h3
  exact ⟨rfl, rfl⟩

/-- Bytes for `n + 1` frames in one piece. -/
def toyOne (n : Nat) : List (Mem Int × List UInt8) := [(toyMem 4 9, List.replicate (400 + 160 * n) 5)]

/-- **C59 fails.** One frame: no path, the text is empty and the likelihood is 0.  Twenty-one frames: no path and an
empty text again, but the likelihood is that of "hi" after twenty frames. -/
theorem C59_stale :
    (∃ u, recognise toyRec toyFormat (fun _ => 1) (toyOne 0) = .ok (.ready toyRec u, .none) ∧
      u.back.hyp = [0] ∧ u.back.ll = 0 ∧ u.back.dec.frames = 1) ∧
    (∃ u, recognise toyRec toyFormat (fun _ => 1) (toyOne 20) = .ok (.ready toyRec u, .none) ∧
      u.back.hyp = [0] ∧ u.back.ll = -5 ∧ u.back.dec.frames = 21) := by
  have hp : ∀ n, n ≤ 20 → ∀ p ∈ toyOne n, p.2 ≠ [] ∧ p.2.length < 536870500 := by
    intro n hn p hp
    unfold toyOne at hp
    rw [List.mem_singleton] at hp
    subst hp
    have hl : (List.replicate (400 + 160 * n) (5 : UInt8)).length = 400 + 160 * n := List.length_replicate
    refine ⟨fun hc => ?_, ?_⟩
    · have hc : List.replicate (400 + 160 * n) (5 : UInt8) = [] := hc
      rw [hc] at hl
      rw [List.length_nil] at hl
      omega
    · show (List.replicate (400 + 160 * n) (5 : UInt8)).length < 536870500
      rw [hl]
      omega
  have hl : ∀ n, ((toyOne n).map Prod.snd).flatten.length = 400 + 160 * n := by
    intro n
    unfold toyOne
    simp
  exact ⟨toy_recognise (n := 0) (hp 0 (by omega)) (hl 0) _ _ _ (by decide +kernel),
    toy_recognise (n := 20) (hp 20 (by omega)) (hl 20) _ _ _ (by decide +kernel)⟩

end Verif.Stt
