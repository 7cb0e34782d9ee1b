import Verif.SttMemModel
import Verif.SttMemSim
import Verif.MdecProps

/-!
# Property C88: utterances of any length through the interface, with the decoder's memory
-/

namespace Verif.SttMem

open Verif Verif.Nnet.Spec Verif.Fbank.Spec Verif.Pcm
open Verif.Stt (Rec Msg Sound zeros)
open Verif.Mdec (Stale LmLabels Small FewTokens SameTokens Silent)

variable {F D : Type}

theorem width_of {fmt : Format} {b b' : Nat} (hw : Width fmt.bits b') (hb : fmt.bits = 8 * b) : b' = b := by
  have hbits : ∀ {n : Int}, Width n b' → n = 8 * b' := fun h => by cases h <;> rfl
  have := hbits hw
  omega

theorem recognise_format {r : Rec F D} {fmt : Format} {fill : Nat → UInt8} {cs : List (Stt.Mem F × List UInt8)}
    {x : Utt F × Msg} (h : recognise r fmt fill cs = .ok x) :
    Pcm.Reader.new.setFormat fmt = .ok ⟨true, fmt, []⟩ ∧ (∃ b, Width fmt.bits b) ∧
    ∃ m0 m, Mdec.new = .ok m0 ∧ Mdec.initDecoder r.dec r.fuel m0 = .ok m ∧
      ∃ y, feedApi r cs ⟨⟨true, fmt, []⟩, [], ⟨Am.Inst.new, m, [0], r.zero⟩⟩ .none = .ok y := by
  unfold recognise initApi at h
  obtain ⟨y, h1, h⟩ := bind_ok h
  obtain ⟨m0, g1, h1⟩ := bind_ok h1
  obtain ⟨m, g2, h1⟩ := bind_ok h1
  cases hs : Pcm.Reader.new.setFormat fmt with
  | error z =>
    rw [hs] at h1
    cases z with
    | fault f => cases h1
    | status code => cases h1; cases h
  | ok reader =>
    obtain ⟨rfl, hw⟩ := Stt.setFormat_ok hs
    rw [hs] at h1
    cases h1
    obtain ⟨y, h2, _⟩ := bind_ok h
    exact ⟨rfl, hw, m0, m, g1, g2, y, h2⟩

/-- Both recognisers, given the features. -/
theorem both {r : Rec F D} {vm : List F → List (List F) → List F} {e L R c w : Nat} (S : Sound r vm e L R c w)
    {fmt : Format} (hfmt : Pcm.Reader.new.setFormat fmt = .ok ⟨true, fmt, []⟩) {b : Nat} (hb : Width fmt.bits b)
    (fill : Nat → UInt8) (cs : List (Stt.Mem F × List UInt8)) (hcs : ∀ p ∈ cs, p.2 ≠ [] ∧ p.2.length < 536870500)
    {rows : List (List F)} (hrows : Scores r vm b (cs.map Prod.snd).flatten rows) :
    ∃ rows1 rows2 i2, rows1 ++ rows2 = rows ∧
      recognise r fmt fill cs = (decodeAll r fill rows1 rows2 >>= fun back =>
        .ok (doneUtt r fmt b (cs.map Prod.snd).flatten { back with am := i2 }, .none)) ∧
      ∀ h msg, Stt.recognise r fmt fill cs = .ok (h, msg) ↔ ∃ back, decodeAllV r fill rows1 rows2 = .ok back ∧
        h = .ready r (Stt.after r b ⟨⟨true, fmt, []⟩, [], { back with am := i2 }⟩ (cs.map Prod.snd).flatten
          { back with am := i2 }) ∧ msg = .none := by
  obtain ⟨feats, hf, rfl⟩ := hrows
  obtain ⟨rows1, i1, rows2, i2, h1, h2, h3⟩ := am_total S (Stt.rows_length S.tables hf)
  exact ⟨rows1, rows2, i2, h3, recognise_eq S hfmt hb fill cs hcs hf h1 h2, recognise_eqV S hfmt hb fill cs hcs hf h1 h2⟩

theorem sameUtt_of {r : Rec F D} {fmt : Format} {b : Nat} {bytes : List UInt8} {x : Back F} {y : Stt.Back F}
    (h : Alike x y) (a : Am.Inst F) : SameUtt (doneUtt r fmt b bytes { x with am := a })
      (Stt.after r b ⟨⟨true, fmt, []⟩, [], { y with am := a }⟩ bytes { y with am := a }) :=
  ⟨h.hyp, h.ll, h.frames, h.tokens, rfl, rfl, rfl⟩

/-- C88, answers.  Whenever the program with the decoder's memory gets through an utterance, however it is cut into
pieces, the rows of scores of the audio exist, and unless some frame ends with a stale mark (`Stale`), hypothesis,
likelihood, number of frames, active tokens and all that is kept for further calls are those of the recogniser whose
word histories are values (of which C29, C42 and C54 speak).
Missing: utterances with a stale mark; see `C88_words_lost`. -/
theorem C88_same_answer_partial {r : Rec F D} {vm : List F → List (List F) → List F} {e L R c w : Nat}
    (S : Sound r vm e L R c w) (hl : LmLabels r.dec) (fmt : Format) (b : Nat) (hb : fmt.bits = 8 * b)
    (fill : Nat → UInt8) (cs : List (Stt.Mem F × List UInt8)) (hcs : ∀ p ∈ cs, p.2 ≠ [] ∧ p.2.length < 536870500)
    {u : Utt F} {msg : Msg} (h : recognise r fmt fill cs = .ok (u, msg)) :
    ∃ rows, Scores r vm b (cs.map Prod.snd).flatten rows ∧
      (¬ Stale r.dec rows → ∃ v, Stt.recognise r fmt fill cs = .ok (.ready r v, msg) ∧ SameUtt u v) := by
  obtain ⟨hfmt, ⟨b', hw⟩, m0, m, h0, h1, y, hy⟩ := recognise_format h
  obtain rfl := width_of hw hb
  have G : Good L R c 0 b' (⟨⟨true, fmt, []⟩, [], ⟨Am.Inst.new, m, [0], r.zero⟩⟩ : Utt F) :=
    ⟨rfl, hw, hw.pos, rfl, Stt.fine_new r.zero⟩
  obtain ⟨feats, hf⟩ := (feed_stream S .none cs G hcs).1 y hy
  have hsc : Scores r vm b' (cs.map Prod.snd).flatten _ := ⟨feats, hf, rfl⟩
  refine ⟨_, hsc, fun hst => ?_⟩
  obtain ⟨rows1, rows2, i2, h3, h4, h5⟩ := both S hfmt hw fill cs hcs hsc
  rw [h4] at h
  obtain ⟨x, h6, h⟩ := bind_ok h
  cases h
  rcases decodeAll_fwd hl h6 with h7 | ⟨v, h7, h8⟩
  · rw [h3] at h7
    exact absurd h7 hst
  · exact ⟨_, (h5 _ _).mpr ⟨v, h7, rfl, rfl⟩, sameUtt_of h8 i2⟩

/-- C88, completion.  If the recogniser with values gets through an utterance, at most 46338 tokens are active after
each frame, and all numbers of the graphs are small enough for the hash functions, the program with the decoder's
memory gets through it too, with the same answer, unless some frame ends with a stale mark. -/
theorem C88_completes_partial {r : Rec F D} {vm : List F → List (List F) → List F} {e L R c w : Nat}
    (S : Sound r vm e L R c w) (hl : LmLabels r.dec) (hS : Small r.dec) (fmt : Format) (b : Nat) (hb : fmt.bits = 8 * b)
    (fill : Nat → UInt8) (cs : List (Stt.Mem F × List UInt8)) (hcs : ∀ p ∈ cs, p.2 ≠ [] ∧ p.2.length < 536870500)
    {rows : List (List F)} (hrows : Scores r vm b (cs.map Prod.snd).flatten rows) (hfew : FewTokens r.dec rows)
    (hlen : rows.length ≤ 2147483647) (hst : ¬ Stale r.dec rows) {h : Stt.Handle F D} {msg : Msg}
    (hv : Stt.recognise r fmt fill cs = .ok (h, msg)) :
    ∃ v u, h = .ready r v ∧ recognise r fmt fill cs = .ok (u, msg) ∧ SameUtt u v := by
  have hv' := hv
  unfold Stt.recognise at hv'
  obtain ⟨⟨h1, m1⟩, hi, hv'⟩ := bind_ok hv'
  obtain ⟨⟨h2, m2⟩, hf, hv'⟩ := bind_ok hv'
  simp only at hf hv'
  have hfmt : Pcm.Reader.new.setFormat fmt = .ok ⟨true, fmt, []⟩ ∧ ∃ b, Width fmt.bits b := by
    unfold Stt.initApi at hi
    obtain ⟨d, _, hi⟩ := bind_ok hi
    cases hs : Pcm.Reader.new.setFormat fmt with
    | error x =>
      rw [hs] at hi
      cases x with
      | fault f => cases hi
      | status code =>
        cases hi
        cases cs with
        | nil => cases hf; cases hv'
        | cons q qs => rw [Stt.feed_null (q :: qs) (by simp)] at hf; cases hf; cases hv'
    | ok reader =>
      obtain ⟨rfl, hw⟩ := Stt.setFormat_ok hs
      exact ⟨rfl, hw⟩
  obtain ⟨hfmt, b', hw⟩ := hfmt
  obtain rfl := width_of hw hb
  obtain ⟨rows1, rows2, i2, h3, h4, h5⟩ := both S hfmt hw fill cs hcs hrows
  obtain ⟨y, k1, rfl, rfl⟩ := (h5 h msg).mp hv
  subst h3
  rcases decodeAll_bwd hl hS hfew hlen k1 with k2 | ⟨x, k2, k3⟩
  · exact absurd k2 hst
  · exact ⟨_, _, rfl, by rw [h4, k2]; rfl, sameUtt_of k3 i2⟩

/-- C88, as in C43: a null pointer to the data or a size that is not positive makes `ce_stt_process` return -1 without a
change of the utterance or of the decoder's memory. -/
theorem C88_refused (r : Rec F D) (mem : Stt.Mem F) (u : Utt F) (msg : Msg) (data : Option (List UInt8)) (size : Int)
    (hh : data = none ∨ size ≤ 0) : processApi r mem u msg data size = .ok (-1, u, .status .runtime) := by
  have hp : u.reader.process r.conv data size = bad .runtime := by
    unfold Pcm.Reader.process
    cases data with
    | none => rfl
    | some m =>
      rcases hh with hh | hh
      · cases hh
      · simp only
        rw [if_pos hh]
  unfold processApi
  rw [hp]
  rfl

/-- The scores of an utterance are one row per frame. -/
theorem Scores.length {r : Rec F D} {vm : List F → List (List F) → List F} {b : Nat} {bytes : List UInt8}
    {rows : List (List F)} (h : Scores r vm b bytes rows) : rows.length = numFrames (bytes.length / b) := by
  obtain ⟨feats, h1, rfl⟩ := h
  rw [List.length_map, List.length_range]
  have : ∀ {xs : List (List F)} {ys : List (List F)}, xs.mapM (row r.fb) = .ok ys → ys.length = xs.length := by
    intro xs
    induction xs with
    | nil => intro ys hy; cases hy; rfl
    | cons x xs ih =>
      intro ys hy
      rw [List.mapM_cons] at hy
      obtain ⟨y, _, hy⟩ := bind_ok hy
      obtain ⟨zs, hz, hy⟩ := bind_ok hy
      cases hy
      rw [List.length_cons, List.length_cons, ih hz]
  rw [this h1]
  unfold frames Pcm.Spec.samples
  simp

theorem Scores.unique {r : Rec F D} {vm : List F → List (List F) → List F} {b : Nat} {bytes : List UInt8}
    {rows rows' : List (List F)} (h : Scores r vm b bytes rows) (h' : Scores r vm b bytes rows') : rows = rows' := by
  obtain ⟨feats, h1, rfl⟩ := h
  obtain ⟨feats', h2, rfl⟩ := h'
  rw [h1] at h2
  cases h2
  rfl

/-- C88, where it holds outright.  Utterances of at most twenty frames: the program with the decoder's memory answers
with a text and a likelihood if and only if the recogniser with values does. -/
theorem C88_short_utterances {r : Rec F D} {vm : List F → List (List F) → List F} {e L R c w : Nat}
    (S : Sound r vm e L R c w) (hl : LmLabels r.dec) (hS : Small r.dec) (fmt : Format) (b : Nat) (hb : fmt.bits = 8 * b)
    (fill : Nat → UInt8) (cs : List (Stt.Mem F × List UInt8)) (hcs : ∀ p ∈ cs, p.2 ≠ [] ∧ p.2.length < 536870500)
    (hshort : numFrames ((cs.map Prod.snd).flatten.length / b) ≤ 20) (hfew : ∀ rows, FewTokens r.dec rows)
    (text : Text.Str) (ll : F) :
    (∃ u, recognise r fmt fill cs = .ok (u, .none) ∧ u.back.hyp = text ∧ u.back.ll = ll) ↔
    (∃ v, Stt.recognise r fmt fill cs = .ok (.ready r v, .none) ∧ v.back.hyp = text ∧ v.back.ll = ll) := by
  have hns : ∀ {rows}, Scores r vm b (cs.map Prod.snd).flatten rows → ¬ Stale r.dec rows := by
    intro rows hr
    refine (Mdec.C71_no_stale_mark hl 0 (by rw [hr.length]; exact hshort) ?_).1
    intro i bs cs d hr h0 h1
    omega
  constructor
  · rintro ⟨u, h, h1, h2⟩
    obtain ⟨rows, hr, hv⟩ := C88_same_answer_partial S hl fmt b hb fill cs hcs h
    obtain ⟨v, g1, g2⟩ := hv (hns hr)
    exact ⟨v, g1, by rw [← g2.hyp, h1], by rw [← g2.ll, h2]⟩
  · rintro ⟨v, h, h1, h2⟩
    obtain ⟨feats, rows, _, _, _, _, _, hf, _⟩ := Stt.C29_end_to_end_partial S fmt b hb fill cs hcs _ _ h
    have hr : Scores r vm b (cs.map Prod.snd).flatten _ := ⟨feats, hf, rfl⟩
    obtain ⟨v', u, g1, g2, g3⟩ := C88_completes_partial S hl hS fmt b hb fill cs hcs hr (hfew _)
      (by rw [hr.length]; omega) (hns hr) h
    cases g1
    exact ⟨u, g2, by rw [g3.hyp, h1], by rw [g3.ll, h2]⟩

/-! ## A recogniser that loses its words -/

/-- Every frame scores alike, batches of one frame, the graph of `C71_words_lost`: the words "hi" and "yo", then silence. -/
def lostRec : Rec Int Int where
  conv := id
  fb := Stt.flatFb
  nn := Nnet.toyOps
  am := ⟨[.relu], Stt.flatRow, 0, 0, 1⟩
  dec := Mdec.twoWords
  fuel := 9
  syms := [[45], [104, 105], [121, 111]]
  perFrame := fun w n => w.tdiv n
  zero := 0

theorem lostRec_sound : Sound lostRec Nnet.toyVecMat 40 0 0 1 40 where
  hvm := Nnet.toyOps_rowWise
  hb := Built.row (e := 40) (by decide) (by decide) .relu (.nil (by decide) (by decide))
  hprior := by decide
  hleft := rfl
  hright := rfl
  hchunk := rfl
  hc := by decide
  hsize := by decide
  hbig := by decide
  tables := Fbank.toyOps_tables
  scratch := Stt.flatFb_scratch

/-- The scores of every frame. -/
def quietRow : List Int := List.replicate 40 0

theorem lostRec_feed : ∀ (n : Nat) (started : Bool), Am.feed lostRec.nn lostRec.am ⟨started, []⟩
    ((List.replicate n Stt.flatRow).map fun f => ([], f)) =
      .ok (List.replicate n quietRow, ⟨decide (0 < n) || started, []⟩)
  | 0, started => by cases started <;> rfl
  | n + 1, started => by
    have h : Am.process lostRec.nn lostRec.am ⟨started, []⟩ Stt.flatRow [] = .ok ([quietRow], ⟨true, []⟩) := by
      cases started <;> decide +kernel
    rw [List.replicate_succ, List.map_cons, Am.feed, h, ok_bind]
    simp only
    rw [lostRec_feed n true]
    simp [List.replicate_succ]

theorem lostRec_end (s : Bool) : Am.endOfStream lostRec.nn lostRec.am ⟨s, []⟩ [] = .ok ([], ⟨s, []⟩) := rfl

theorem lostRec_feats (bs : List UInt8) : (frames ((Pcm.Spec.samples 1 bs).map lostRec.conv)).mapM (row lostRec.fb) =
    .ok (List.replicate (numFrames bs.length) Stt.flatRow) := by
  have h := Stt.flatFb_rows (frames ((Pcm.Spec.samples 1 bs).map lostRec.conv))
  have hl : (frames ((Pcm.Spec.samples 1 bs).map lostRec.conv)).length = numFrames bs.length := by
    unfold frames Pcm.Spec.samples
    simp
  rw [hl] at h
  exact h

/-- `n` rows through the half-way decoder, with the texts stored in between; no answer unless each row is taken and
sizes fit. -/
def midRows : Nat → Mdec.Mid.Half Int → Exec (Mdec.Mid.Half Int)
  | 0, h => .ok h
  | n + 1, h =>
    match Mdec.Mid.process Mdec.twoWords 9 quietRow h with
    | .error _ => .error .fuel
    | .ok (_, _, h) =>
      if h.idx.length ≤ 46338 ∧ h.frames ≤ 2147483647 then
        if h.frames % 20 = 0 then do
          let (words, _) ← Mdec.Mid.bestPath Mdec.twoWords h
          let _ ← Text.storeHypText lostRec.syms words zeros
          midRows n h
        else midRows n h
      else .error .fuel

theorem midRows_mem : ∀ (n : Nat) {b : Back Int} {h : Mdec.Mid.Half Int}, Mdec.Full Mdec.twoWords True b.dec h →
    Mdec.Fits h →
    (∀ h', midRows n h = .ok h' → ∃ b', (List.replicate n quietRow).foldlM (decodeRow lostRec zeros) b = .ok b' ∧
      Mdec.Full Mdec.twoWords True b'.dec h') ∧
    (midRows n h = .error .ub → (List.replicate n quietRow).foldlM (decodeRow lostRec zeros) b = .error .ub)
  | 0, b, h, r, hF => ⟨(fun h' hh => by cases hh; exact ⟨b, rfl, r⟩), (fun hh => by cases hh)⟩
  | n + 1, b, h, r, hF => by
    rw [List.replicate_succ, List.foldlM_cons]
    unfold midRows
    cases g1 : Mdec.Mid.process Mdec.twoWords 9 quietRow h with
    | error x => exact ⟨(fun h' hh => by cases hh), (fun hh => by cases hh)⟩
    | ok y =>
      obtain ⟨x, c, h1⟩ := y
      simp only
      by_cases hc : h1.idx.length ≤ 46338 ∧ h1.frames ≤ 2147483647
      · rw [if_pos hc]
        have hsim := Mdec.process_sim Mdec.twoWords_labels 9 quietRow r (fun _ => hF)
        obtain ⟨⟨x', c', m1⟩, g2⟩ := hsim.bwd trivial _ g1 ⟨hc.1, hc.2⟩
        obtain ⟨y, g3, e1, e2, r1⟩ := hsim.fwd _ g2
        rw [g1] at g3
        cases g3
        simp only at r1
        have hd : decodeRow lostRec zeros b quietRow =
            if m1.frames.tmod 20 = 0 then storeHyp lostRec zeros { b with dec := m1 } else .ok { b with dec := m1 } := by
          unfold decodeRow
          rw [show Mdec.process lostRec.dec lostRec.fuel quietRow b.dec = .ok (x', c', m1) from g2, ok_bind]
        have hbp : Mdec.bestPath lostRec.dec m1 = Mdec.Mid.bestPath Mdec.twoWords h1 := Mdec.bestPath_eq r1
        rw [hd]
        by_cases hz : h1.frames % 20 = 0
        · rw [if_pos hz, if_pos ((tmod_zero r1.frames).mpr hz)]
          unfold storeHyp
          simp only
          rw [hbp]
          cases Mdec.Mid.bestPath Mdec.twoWords h1 with
          | error x =>
            refine ⟨(fun h' hh => by cases hh), fun hh => ?_⟩
            cases hh
            rfl
          | ok y =>
            obtain ⟨ws, wt⟩ := y
            rw [ok_bind, ok_bind]
            simp only
            cases Text.storeHypText lostRec.syms ws zeros with
            | error x =>
              refine ⟨(fun h' hh => by cases hh), fun hh => ?_⟩
              cases hh
              rfl
            | ok t =>
              rw [ok_bind, ok_bind, ok_bind]
              exact midRows_mem n r1 hc.1
        · rw [if_neg hz, if_neg (fun hc => hz ((tmod_zero r1.frames).mp hc)), ok_bind]
          exact midRows_mem n r1 hc.1
      · rw [if_neg hc]
        exact ⟨(fun h' hh => by cases hh), (fun hh => by cases hh)⟩

/-- The half-way decoder before the first row. -/
def midStart : Mdec.Mid.Half Int :=
  match Mdec.Mid.initDecoder Mdec.twoWords 9 Mdec.Mid.fresh with
  | .ok h => h
  | .error _ => Mdec.Mid.fresh

theorem midStart_eq : Mdec.Mid.initDecoder Mdec.twoWords 9 Mdec.Mid.fresh = .ok midStart := by
  have h : (Mdec.Mid.initDecoder Mdec.twoWords 9 Mdec.Mid.fresh).isOk = true := by decide +kernel
  unfold midStart
  cases hc : Mdec.Mid.initDecoder Mdec.twoWords 9 Mdec.Mid.fresh with
  | ok x => rfl
  | error x => rw [hc] at h; cases h

/-- The outcome of `n` rows and of the text stored at the end. -/
def midEnd (n : Nat) : Exec (List Int × Int) :=
  match midRows n midStart with
  | .ok h => Mdec.Mid.bestPath Mdec.twoWords { h with eos := true }
  | .error _ => .error .fuel

theorem midEnd_ub : ∀ n ∈ [21, 22, 23, 24, 25, 26, 27, 28, 29, 30, 31, 32, 33, 34, 35, 36, 37, 38, 39],
    midEnd n = .error .ub := by decide +kernel

theorem midRows_40 : midRows 40 midStart = .error .ub := by
  have h : (match midRows 40 midStart with | .error f => decide (f = .ub) | .ok _ => false) = true := by decide +kernel
  cases hc : midRows 40 midStart with
  | ok x => rw [hc] at h; cases h
  | error f =>
    rw [hc] at h
    rw [of_decide_eq_true h]

theorem lostRec_rows (n : Nat) (fill : Nat → UInt8) (hn : 21 ≤ n) :
    decodeAll lostRec fill (List.replicate n quietRow) [] = .error .ub := by
  obtain ⟨m0, n1, n2⟩ := Mdec.new_full Mdec.twoWords True (fun _ => Mdec.twoWords_small)
  have hm : m0.toks = [] ∧ m0.prev = [] := by
    unfold Mdec.new at n1
    obtain ⟨t, _, n1⟩ := bind_ok n1
    cases n1
    exact ⟨rfl, rfl⟩
  have hF : Mdec.Fits midStart := by
    unfold Mdec.Fits
    decide +kernel
  have hsim := Mdec.initDecoder_sim Mdec.twoWords_labels 9 n2 hm
  obtain ⟨m1, n3⟩ := hsim.bwd trivial midStart midStart_eq hF
  obtain ⟨h0, n4, n5⟩ := hsim.fwd m1 n3
  rw [midStart_eq] at n4
  cases n4
  unfold decodeAll
  rw [n1, ok_bind, show Mdec.initDecoder lostRec.dec lostRec.fuel m0 = .ok m1 from n3, ok_bind]
  by_cases h40 : 40 ≤ n
  · have hs : List.replicate n quietRow = List.replicate 40 quietRow ++ List.replicate (n - 40) quietRow := by
      rw [List.replicate_append_replicate]
      congr 1
      omega
    rw [hs, List.foldlM_append, (midRows_mem 40 (b := ⟨Am.Inst.new, m1, [0], lostRec.zero⟩) n5 hF).2 midRows_40]
    rfl
  · have hmem : n ∈ [21, 22, 23, 24, 25, 26, 27, 28, 29, 30, 31, 32, 33, 34, 35, 36, 37, 38, 39] := by
      simp only [List.mem_cons, List.not_mem_nil, or_false]
      omega
    have he := midEnd_ub n hmem
    unfold midEnd at he
    cases hr : midRows n midStart with
    | error x => rw [hr] at he; cases he
    | ok h =>
      rw [hr] at he
      simp only at he
      obtain ⟨b1, g1, g2⟩ := (midRows_mem n (b := ⟨Am.Inst.new, m1, [0], lostRec.zero⟩) n5 hF).1 h hr
      rw [g1, ok_bind]
      show storeHyp lostRec fill { b1 with dec := Mdec.endOfStream b1.dec } = .error .ub
      have g3 : Mdec.Full Mdec.twoWords True (Mdec.endOfStream b1.dec) { h with eos := true } :=
        ⟨g2.live, g2.nodup, g2.toks, g2.prevs, g2.findable, g2.stores, g2.size, g2.strong, g2.words, g2.cache,
          g2.frames, rfl, g2.small, g2.states⟩
      unfold storeHyp
      simp only
      rw [show Mdec.bestPath lostRec.dec (Mdec.endOfStream b1.dec) = .error .ub from (Mdec.bestPath_eq g3).trans he]
      rfl

/-- What the decoder with values holds after `n` rows. -/
def valState (n : Nat) : Decoder.Dec Int := ⟨[⟨(2, 0), 0, [2, 1]⟩], [], [((2, 0), 0)], n, false, 1⟩

/-- "hi yo", with the terminating zero. -/
def hiYo : Text.Str := [104, 105, 32, 121, 111, 0]

theorem valState_store (n : Nat) (eos : Bool) (fill : Nat → UInt8) (b : Stt.Back Int) :
    Stt.storeHyp lostRec fill { b with dec := { valState n with eos := eos } } =
      .ok { b with dec := { valState n with eos := eos }, hyp := hiYo, ll := 0 } := by
  have h1 : Decoder.bestPath lostRec.dec { valState n with eos := eos } = .ok ([2, 1], 0) := by
    cases eos <;> rfl
  have h2 : Text.storeHypText lostRec.syms [2, 1] fill = .ok hiYo := by
    rw [Stt.storeHypText_fill _ _ fill zeros]
    decide +kernel
  unfold Stt.storeHyp
  simp only
  rw [h1, ok_bind]
  simp only
  rw [h2, ok_bind]
  have h3 : lostRec.perFrame 0 n = 0 := by
    show (0 : Int).tdiv (n : Int) = 0
    exact Int.zero_tdiv _
  simp [h3, valState]

theorem valState_rows : ∀ (n k : Nat) (b : Stt.Back Int), b.dec = valState k →
    ∃ b', (List.replicate n quietRow).foldlM (Stt.decodeRow lostRec zeros) b = .ok b' ∧ b'.dec = valState (k + n)
  | 0, k, b, hb => ⟨b, rfl, hb⟩
  | n + 1, k, b, hb => by
    have h1 : ∃ c, Decoder.process lostRec.dec lostRec.fuel quietRow b.dec = .ok (true, c, valState (k + 1)) := by
      rw [hb]
      exact ⟨_, rfl⟩
    obtain ⟨c, h1⟩ := h1
    have h2 : ∃ b1, Stt.decodeRow lostRec zeros b quietRow = .ok b1 ∧ b1.dec = valState (k + 1) := by
      unfold Stt.decodeRow
      rw [h1, ok_bind]
      simp only
      split
      · exact ⟨_, valState_store (k + 1) false zeros b, rfl⟩
      · exact ⟨_, rfl, rfl⟩
    obtain ⟨b1, h2, h3⟩ := h2
    obtain ⟨b', h4, h5⟩ := valState_rows n (k + 1) b1 h3
    refine ⟨b', ?_, by rw [h5]; congr 1; omega⟩
    rw [List.replicate_succ, List.foldlM_cons, h2]
    exact h4

theorem lostRec_val (n : Nat) (hn : 1 ≤ n) (fill : Nat → UInt8) :
    ∃ v, decodeAllV lostRec fill (List.replicate n quietRow) [] = .ok v ∧ v.hyp = hiYo ∧ v.ll = 0 ∧ v.dec.frames = n := by
  obtain ⟨n, rfl⟩ : ∃ k, n = k + 1 := ⟨n - 1, by omega⟩
  have h0 : (do
      let d ← Decoder.initDecoder lostRec.dec lostRec.fuel Decoder.fresh
      let b ← Stt.decodeRow lostRec zeros ⟨Am.Inst.new, d, [0], lostRec.zero⟩ quietRow
      .ok b.dec) = .ok (valState 1) := by decide +kernel
  obtain ⟨d, h1, h0⟩ := bind_ok h0
  obtain ⟨b, h2, h0⟩ := bind_ok h0
  obtain ⟨b', h3, h4⟩ := valState_rows n 1 b (Except.ok.inj h0)
  unfold decodeAllV
  rw [h1, ok_bind, List.replicate_succ, List.foldlM_cons, h2, ok_bind, h3, ok_bind]
  have h5 : ({ b' with dec := Decoder.endOfStream b'.dec } : Stt.Back Int) =
      { b' with dec := { valState (1 + n) with eos := true } } := by rw [h4]; rfl
  show ∃ v, Stt.storeHyp lostRec fill { b' with dec := Decoder.endOfStream b'.dec } = .ok v ∧ _
  rw [h5, valState_store]
  exact ⟨_, rfl, rfl, rfl, by show 1 + n = n + 1; omega⟩

theorem lostRec_hears (fill : Nat → UInt8) (cs : List (Stt.Mem Int × List UInt8))
    (hcs : ∀ p ∈ cs, p.2 ≠ [] ∧ p.2.length < 536870500) (hlen : 400 ≤ (cs.map Prod.snd).flatten.length) :
    ∃ v, Stt.recognise lostRec ⟨1, 16000, 8⟩ fill cs = .ok (.ready lostRec v, .none) ∧
      v.back.hyp = [104, 105, 32, 121, 111, 0] ∧ v.back.ll = 0 := by
  have hf := lostRec_feats (cs.map Prod.snd).flatten
  have h1 := lostRec_feed (numFrames (cs.map Prod.snd).flatten.length) false
  obtain ⟨v, g1, g2, g3, _⟩ := lostRec_val (numFrames (cs.map Prod.snd).flatten.length)
    (by unfold numFrames; rw [if_neg (by omega)]; omega) fill
  exact ⟨_, (recognise_eqV lostRec_sound (fmt := ⟨1, 16000, 8⟩) rfl (b := 1) .w8 fill cs hcs hf h1 (lostRec_end _) _
    _).mpr ⟨v, g1, rfl, rfl⟩, g2, g3⟩

theorem lostRec_lost (fill : Nat → UInt8) (cs : List (Stt.Mem Int × List UInt8))
    (hcs : ∀ p ∈ cs, p.2 ≠ [] ∧ p.2.length < 536870500) (hlen : 3600 ≤ (cs.map Prod.snd).flatten.length) :
    recognise lostRec ⟨1, 16000, 8⟩ fill cs = .error .ub := by
  have hf := lostRec_feats (cs.map Prod.snd).flatten
  have h1 := lostRec_feed (numFrames (cs.map Prod.snd).flatten.length) false
  rw [recognise_eq lostRec_sound (fmt := ⟨1, 16000, 8⟩) rfl (b := 1) .w8 fill cs hcs hf h1 (lostRec_end _),
    lostRec_rows _ fill (by unfold numFrames; rw [if_neg (by omega)]; omega)]
  rfl

/-- C88 fails.  There is a model all of whose numbers are small and whose search never has many tokens, for which the
recogniser with values answers every audio of one frame or more with "hi yo", while the program, with its decoder's
memory, reads a word history that was collected, for every audio of 21 frames or more (0.225 s), however it is cut and
whatever it says. -/
theorem C88_words_lost : ∃ (r : Rec Int Int) (vm : List Int → List (List Int) → List Int) (e w : Nat),
    Sound r vm e 0 0 1 w ∧ LmLabels r.dec ∧ Small r.dec ∧ (∀ rows, FewTokens r.dec rows) ∧
    ∀ (fill : Nat → UInt8) (cs : List (Stt.Mem Int × List UInt8)), (∀ p ∈ cs, p.2 ≠ [] ∧ p.2.length < 536870500) →
      (400 ≤ (cs.map Prod.snd).flatten.length →
        ∃ v, Stt.recognise r ⟨1, 16000, 8⟩ fill cs = .ok (.ready r v, .none) ∧
          v.back.hyp = [104, 105, 32, 121, 111, 0] ∧ v.back.ll = 0) ∧
      (3600 ≤ (cs.map Prod.snd).flatten.length → recognise r ⟨1, 16000, 8⟩ fill cs = .error .ub) := by
  refine ⟨lostRec, _, _, _, lostRec_sound, Mdec.twoWords_labels, Mdec.twoWords_small, Mdec.twoWords_few, ?_⟩
  intro fill cs hcs
  exact ⟨lostRec_hears fill cs hcs, lostRec_lost fill cs hcs⟩

/-! ## Examples -/

/-- Twenty frames in two pieces. -/
def twenty : List (Stt.Mem Int × List UInt8) :=
  [(Stt.toyMem 4 9, List.replicate 1000 3), (Stt.toyMem 5 8, List.replicate 2440 200)]

theorem twenty_pieces : ∀ p ∈ twenty, p.2 ≠ [] ∧ p.2.length < 536870500 := by decide +kernel

theorem twenty_heard : ∃ u, recognise lostRec ⟨1, 16000, 8⟩ (fun _ => 1) twenty = .ok (u, .none) ∧
    u.back.hyp = [104, 105, 32, 121, 111, 0] ∧ u.back.ll = 0 :=
  (C88_short_utterances lostRec_sound Mdec.twoWords_labels Mdec.twoWords_small ⟨1, 16000, 8⟩ 1 rfl (fun _ => 1)
    twenty twenty_pieces (by decide +kernel) Mdec.twoWords_few _ _).mpr
    (lostRec_hears _ twenty twenty_pieces (by decide +kernel))

theorem twenty_scores : Scores lostRec Nnet.toyVecMat 1 (twenty.map Prod.snd).flatten
    ((List.range 20).map fun t : Nat => List.zipWith (fun x y => Nnet.toyOps.add x (Nnet.toyOps.mul Nnet.toyOps.negOne y))
      (series Nnet.toyOps Nnet.toyVecMat [.relu] (edge (List.replicate 20 Stt.flatRow)) t) Stt.flatRow) := by
  refine ⟨List.replicate 20 Stt.flatRow, ?_, by rw [List.length_replicate]; rfl⟩
  have h := lostRec_feats (twenty.map Prod.snd).flatten
  rw [show numFrames (twenty.map Prod.snd).flatten.length = 20 by decide +kernel] at h
  exact h

theorem twenty_fresh {rows : List (List Int)} (h : rows.length = 20) : ¬ Stale lostRec.dec rows :=
  (Mdec.C71_no_stale_mark Mdec.twoWords_labels 0 (by omega) (fun i bs cs d _ h0 h1 => by omega)).1

-- after twenty frames the program still knows the words, and they are those of the recogniser with values
example : ∃ u v, recognise lostRec ⟨1, 16000, 8⟩ (fun _ => 1) twenty = .ok (u, .none) ∧
    Stt.recognise lostRec ⟨1, 16000, 8⟩ (fun _ => 1) twenty = .ok (.ready lostRec v, .none) ∧ SameUtt u v := by
  obtain ⟨u, h, _⟩ := twenty_heard
  obtain ⟨rows, h1, h2⟩ := C88_same_answer_partial lostRec_sound Mdec.twoWords_labels _ 1 rfl _ twenty twenty_pieces h
  obtain ⟨v, h3, h4⟩ := h2 (twenty_fresh (by rw [h1.length]; decide +kernel))
  exact ⟨u, v, h, h3, h4⟩

example : ∃ u v, Stt.recognise lostRec ⟨1, 16000, 8⟩ (fun _ => 1) twenty = .ok (.ready lostRec v, .none) ∧
    recognise lostRec ⟨1, 16000, 8⟩ (fun _ => 1) twenty = .ok (u, .none) ∧ SameUtt u v := by
  obtain ⟨v, h, _⟩ := lostRec_hears (fun _ => 1) twenty twenty_pieces (by decide +kernel)
  obtain ⟨v', u, h1, h2, h3⟩ := C88_completes_partial lostRec_sound Mdec.twoWords_labels Mdec.twoWords_small _ 1 rfl _
    twenty twenty_pieces twenty_scores (Mdec.twoWords_few _) (by simp) (twenty_fresh (by simp)) h
  cases h1
  exact ⟨u, v, h, h2, h3⟩

end Verif.SttMem
