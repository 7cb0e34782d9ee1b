import Verif.ShownLemmas

/-!
# Property C96: what a caller sees of an utterance while audio is still being fed
-/

namespace Verif.Stt

open Verif Verif.Nnet.Spec Verif.Fbank.Spec Verif.Pcm Verif.Stt.Spec

variable {F D : Type}

/-- **C96**, in every case.  An utterance was made and pieces of audio were fed, in any sizes; nothing has been ended yet.
The calls returned, together, the number of complete samples; all frames but those that still wait for their context or
for their batch have been scored, and the decoder took the scores; and text and likelihood are those of the best path at
the latest moment at which the decoder said that it had decoded a multiple of twenty frames. -/
theorem C96_shown {r : Rec F D} {vm : List F → List (List F) → List F} {e L R c w : Nat} (S : Sound r vm e L R c w)
    {fmt : Format} {b : Nat} (hb : fmt.bits = 8 * b) {u0 : Utt F} {m0 : Msg}
    (hi : initApi (some r) fmt .none = .ok (.ready r u0, m0)) {ps : List (List UInt8)} {ns : List Int}
    {h : Handle F D} {m : Msg} (hps : ∀ p ∈ ps, p ≠ [] ∧ p.length < 536870500)
    (hf : Fed ps ns (.ready r u0) m0 h m) :
    ns.sum = (ps.flatten.length / b : Nat) ∧ m = .none ∧ ∃ u rows, h = .ready r u ∧
      Scores r vm R c b ps.flatten rows ∧ (∃ bs cs, Decoder.Run r.dec rows bs cs u.back.dec) ∧
      Shown r rows u.back.hyp u.back.ll := by
  rcases init_good (L := L) (R := R) (c := c) hi with ⟨hc, _⟩ | ⟨d0, b', rfl, hw, hd0, he, G⟩
  · cases hc
  cases he
  have hbb : b' = b := by
    have hbits : ∀ {n : Int}, Width n b' → n = 8 * b' := fun h => by cases h <;> rfl
    have := hbits hw
    omega
  subst hbb
  have hsum := Fed.sum S hf hps rfl G
  obtain ⟨cs, hcs, hfeed⟩ := Fed.feed hf
  have hpieces : ∀ p ∈ cs, p.2 ≠ [] ∧ p.2.length < 536870500 := fun p hp =>
    hps p.2 (by rw [← hcs]; exact List.mem_map_of_mem hp)
  obtain ⟨feats, back, g1, g2, rfl, rfl⟩ := (feed_stream S .none cs G hpieces h m).mp hfeed
  rw [hcs] at g1
  have g1 : (frames ((Pcm.Spec.samples b' ps.flatten).map r.conv)).mapM (row r.fb) = .ok feats := g1
  have hfl : feats.length = numFrames ((Pcm.Spec.samples b' ps.flatten).map r.conv).length := by
    rw [Am.mapM_length g1]
    unfold frames
    rw [List.length_map, List.length_range]
  obtain ⟨rows, f1, f2⟩ := backSteps_shown g2
  simp only at f1 f2
  refine ⟨hsum, rfl, _, rows, rfl, ⟨feats, g1, ?_, ?_⟩, ?_⟩
  · have := Am.count_feed S.hleft S.hright S.hchunk S.hc (k := 0) (p := 0) (.inl ⟨rfl, rfl, rfl⟩) f1
    have := this.scored S.hc
    rw [Nat.zero_add, Nat.zero_add, List.length_map, hfl] at this
    exact this
  · by_cases hz : feats = []
    · subst hz
      injection f1 with f1
      injection f1 with f1 _
      subst f1
      exact fun t ht => absurd ht (by simp)
    · have hx := Am.edge_frames (d := 40) (feats.map fun f => (([] : List (List F)), f)) (by simpa using hz) (by
        intro f hf
        obtain ⟨g, hg, rfl⟩ := List.mem_map.mp hf
        exact rows_length S.tables g1 g hg)
      rw [show (feats.map fun f => (([] : List (List F)), f)).map Prod.snd = feats by
        rw [List.map_map]; exact List.map_id feats] at hx
      obtain ⟨p', inst', q1, _, _⟩ := (S.setup hx.size hx.first).batches.feed_ok _ (k := 0) (p := 0) (inst := Am.Inst.new)
        (.inl ⟨rfl, rfl, rfl⟩) (fun i hi => by rw [Nat.zero_add]; exact hx.get i hi)
      rw [f1] at q1
      injection q1 with q1
      injection q1 with q1 _
      subst q1
      intro t ht
      rw [Am.seg_length] at ht
      rw [Am.seg_get _ _ ht]
      simp only [Int.natCast_zero, Int.zero_add]
      rfl
  · exact shown_rows (b := { back with am := Am.Inst.new }) hd0 _ rows f2

/-- **C96**, as long as every frame is reported as processed.  Before twenty frames have been scored nothing is shown.
From then on the text shown is that of the best path over the scored frames, cut off at a multiple of twenty; at most
`R + c + 18` of the frames heard are missing in it, where `R` is the right context of the network and `c` the size of a
batch. -/
theorem C96_live {r : Rec F D} {vm : List F → List (List F) → List F} {e L R c w : Nat} (S : Sound r vm e L R c w)
    {fmt : Format} {b : Nat} (hb : fmt.bits = 8 * b) {u0 : Utt F} {m0 : Msg}
    (hi : initApi (some r) fmt .none = .ok (.ready r u0, m0)) {ps : List (List UInt8)} {ns : List Int}
    {h : Handle F D} {m : Msg} (hps : ∀ p ∈ ps, p ≠ [] ∧ p.length < 536870500)
    (hf : Fed ps ns (.ready r u0) m0 h m)
    (halive : ∀ rows bs cs d, Scores r vm R c b ps.flatten rows → Decoder.Run r.dec rows bs cs d → ∀ x ∈ bs, x = true) :
    ∃ u rows, h = .ready r u ∧ Scores r vm R c b ps.flatten rows ∧
      numFrames (ps.flatten.length / b) ≤ 20 * (rows.length / 20) + R + c + 18 ∧
      (rows.length < 20 → u.back.hyp = [0] ∧ u.back.ll = r.zero) ∧
      (20 ≤ rows.length → ∃ bs cs d, Decoder.Run r.dec (rows.take (20 * (rows.length / 20))) bs cs d ∧
        Tells r d u.back.hyp u.back.ll) := by
  obtain ⟨_, _, u, rows, hu, hs, ⟨bs, cs, hr⟩, hsh⟩ := C96_shown S hb hi hps hf
  have hall := halive rows bs cs _ hs hr
  have hal := Decoder.Beam.alive_of hr hall
  have hrun : ∀ i, i ≤ rows.length → ∃ bs cs d, Decoder.Run r.dec (rows.take i) bs cs d ∧ d.frames = i := by
    intro i hi
    by_cases hil : i = rows.length
    · subst hil
      refine ⟨bs, cs, _, by rw [List.take_length]; exact hr, run_frames hr hall⟩
    · have hlt : i < rows.length := by omega
      obtain ⟨bs1, cs1, d1, fuel, cc, d2, h1, _, _⟩ := Decoder.Beam.run_at hr (List.getElem?_eq_getElem hlt) hall
      refine ⟨bs1, cs1, d1, h1, ?_⟩
      rw [run_frames h1 (hal _ _ _ _ (List.take_prefix _ _) h1), List.length_take]
      omega
  have hticks : ∀ i d, Tick r.dec rows i d → i % 20 = 0 ∧ 1 ≤ i ∧ i ≤ rows.length := by
    rintro i d ⟨t1, t2, t3, bs', cs', t4⟩
    have := run_frames t4 (hal _ _ _ _ (List.take_prefix _ _) t4)
    rw [List.length_take] at this
    omega
  refine ⟨u, rows, hu, hs, ?_, ?_, ?_⟩
  · obtain ⟨_, _, hn, _⟩ := hs
    rw [List.length_map] at hn
    have hsm : (Pcm.Spec.samples b ps.flatten).length = ps.flatten.length / b := by
      unfold Pcm.Spec.samples
      rw [List.length_map, List.length_range]
    rw [hsm] at hn
    generalize numFrames (ps.flatten.length / b) = N at hn ⊢
    unfold scoredFrames at hn
    have h1 := Nat.div_add_mod (N - R) c
    have h2 := Nat.mod_lt (N - R) S.hc
    omega
  · intro hlt
    refine hsh.1 fun i d ht => ?_
    have := hticks i d ht
    omega
  · intro hge
    obtain ⟨bs', cs', d, h1, h2⟩ := hrun (20 * (rows.length / 20)) (by omega)
    refine ⟨bs', cs', d, h1, hsh.2 (20 * (rows.length / 20)) d ⟨by omega, by omega, by omega, bs', cs', h1⟩ ?_⟩
    intro j d' hj
    have := hticks j d' hj
    omega

/-- **C96**, the same at any moment for any pieces: what an utterance holds depends on the bytes fed so far, not on the
pieces. -/
theorem C96_pieces {r : Rec F D} {vm : List F → List (List F) → List F} {e L R c w : Nat} (S : Sound r vm e L R c w)
    {fmt : Format} {u0 : Utt F} {m0 : Msg} (hi : initApi (some r) fmt .none = .ok (.ready r u0, m0))
    {ps qs : List (List UInt8)} {ns ks : List Int} {h h' : Handle F D} {m m' : Msg}
    (hps : ∀ p ∈ ps, p ≠ [] ∧ p.length < 536870500) (hqs : ∀ q ∈ qs, q ≠ [] ∧ q.length < 536870500)
    (hbytes : ps.flatten = qs.flatten) (hf : Fed ps ns (.ready r u0) m0 h m) (hg : Fed qs ks (.ready r u0) m0 h' m') :
    h = h' ∧ ns.sum = ks.sum := by
  rcases init_good (L := L) (R := R) (c := c) hi with ⟨hc, _⟩ | ⟨d0, b, rfl, hw, hd0, he, G⟩
  · cases hc
  cases he
  have hs := Fed.sum S hf hps rfl G
  have ht := Fed.sum S hg hqs rfl G
  refine ⟨?_, by rw [hs, ht, hbytes]⟩
  obtain ⟨cs, hcs, hfeed⟩ := Fed.feed hf
  obtain ⟨ds, hds, hfeed'⟩ := Fed.feed hg
  have hp : ∀ p ∈ cs, p.2 ≠ [] ∧ p.2.length < 536870500 := fun p hp =>
    hps p.2 (by rw [← hcs]; exact List.mem_map_of_mem hp)
  have hq : ∀ p ∈ ds, p.2 ≠ [] ∧ p.2.length < 536870500 := fun p hp =>
    hqs p.2 (by rw [← hds]; exact List.mem_map_of_mem hp)
  obtain ⟨feats, back, g1, g2, rfl, rfl⟩ := (feed_stream S .none cs G hp h m).mp hfeed
  obtain ⟨feats', back', g3, g4, rfl, rfl⟩ := (feed_stream S .none ds G hq h' m').mp hfeed'
  rw [hcs] at g1 ⊢
  rw [hds, ← hbytes] at g3 ⊢
  rw [g1] at g3
  cases g3
  rw [g2] at g4
  cases g4
  rfl

/-! ## The example of the other properties, before the end of the stream -/

theorem fed_of_feed : ∀ {cs : List (Mem F × List UInt8)} {h h' : Handle F D} {m m' : Msg},
    feedApi cs h m = .ok (h', m') → ∃ ns, Fed (cs.map Prod.snd) ns h m h' m'
  | [], h, h', m, m', hf => by cases hf; exact ⟨[], .nil⟩
  | (mem, p) :: cs, h, h', m, m', hf => by
    unfold feedApi at hf
    obtain ⟨⟨n, h1, m1⟩, g1, g2⟩ := bind_ok hf
    obtain ⟨ns, hn⟩ := fed_of_feed g2
    exact ⟨n :: ns, .cons g1 hn⟩

theorem Sound.withDec {r : Rec F D} {vm : List F → List (List F) → List F} {e L R c w : Nat} (S : Sound r vm e L R c w)
    (d : Decoder.Env F D) : Sound { r with dec := d } vm e L R c w :=
  ⟨S.hvm, S.hb, S.hprior, S.hleft, S.hright, S.hchunk, S.hc, S.hsize, S.hbig, S.tables, S.scratch⟩

/-- The recogniser of the other examples with another graph: word 1 on the first frame, then a loop; no state is final. -/
def loopRec (final : Int) : Rec Int Int :=
  { toyRec with
    dec := ⟨toyArith, ⟨0, fun s => if s = 0 then [⟨1, 1, 3, 1⟩] else [⟨1, 0, 0, 1⟩], fun _ => final⟩, none, [0, 0], 1⟩ }

theorem loopRec_sound (final : Int) : Sound (loopRec final) Nnet.toyVecMat 80 1 0 2 80 := toyRec_sound.withDec _

/-- The stages behind the features. -/
def loopBack (final : Int) (n : Nat) : Exec (Back Int) := do
  let d0 ← Decoder.initDecoder (loopRec final).dec 10 Decoder.fresh
  (List.replicate n flatRow).foldlM (backStep (loopRec final)) ⟨Am.Inst.new, d0, [0], 0⟩

theorem loop_fed (final : Int) {n : Nat} {cs : List (Mem Int × List UInt8)}
    (hcs : ∀ p ∈ cs, p.2 ≠ [] ∧ p.2.length < 536870500) (hn : (cs.map Prod.snd).flatten.length = 400 + 160 * n)
    {P : Back Int → Bool} (h : (loopBack final (n + 1)).map P = .ok true) :
    ∃ u0 m0 ns u, initApi (some (loopRec final)) toyFormat .none = .ok (.ready (loopRec final) u0, m0) ∧
      Fed (cs.map Prod.snd) ns (.ready (loopRec final) u0) m0 (.ready (loopRec final) u) .none ∧ P u.back = true := by
  cases hb : loopBack final (n + 1) with
  | error x => rw [hb] at h; cases h
  | ok back =>
    rw [hb] at h
    injection h with hP
    unfold loopBack at hb
    obtain ⟨d0, h0, h1⟩ := bind_ok hb
    have hi : initApi (some (loopRec final)) toyFormat .none =
        .ok (.ready (loopRec final) ⟨⟨true, toyFormat, []⟩, [], ⟨Am.Inst.new, d0, [0], 0⟩⟩, .none) := by
      unfold initApi
      simp only
      have h0 : Decoder.initDecoder (loopRec final).dec (loopRec final).fuel Decoder.fresh = .ok d0 := h0
      rw [h0, ok_bind]
      rfl
    have G : Good 1 0 2 0 1 (⟨⟨true, toyFormat, []⟩, [], ⟨Am.Inst.new, d0, [0], 0⟩⟩ : Utt Int) :=
      ⟨rfl, .w8, Nat.zero_lt_one, rfl, fine_new 0⟩
    obtain ⟨ns, hf⟩ := fed_of_feed ((feed_stream (loopRec_sound final) .none cs G hcs _ _).mpr
      ⟨_, back, toy_features n _ hn, h1, rfl, rfl⟩)
    exact ⟨_, _, ns, _, hi, hf, hP⟩

theorem toyOne_pieces {n : Nat} (hn : n ≤ 20) : ∀ p ∈ toyOne n, p.2 ≠ [] ∧ p.2.length < 536870500 := by
  intro p hp
  unfold toyOne at hp
  rw [List.mem_singleton] at hp
  subst hp
  have hl : (List.replicate (400 + 160 * n) (5 : UInt8)).length = 400 + 160 * n := List.length_replicate
  refine ⟨fun hc => ?_, ?_⟩
  · have hc : List.replicate (400 + 160 * n) (5 : UInt8) = [] := hc
    rw [hc] at hl
    rw [List.length_nil] at hl
    omega
  · show (List.replicate (400 + 160 * n) (5 : UInt8)).length < 536870500
    rw [hl]
    omega

theorem toyOne_length (n : Nat) : ((toyOne n).map Prod.snd).flatten.length = 400 + 160 * n := by
  unfold toyOne
  simp

/-- Twenty-one frames in one piece: twenty have been scored, and "hi" is on show.  After nineteen frames nothing is. -/
example : (∃ u0 m0 ns u, initApi (some (loopRec 2)) toyFormat .none = .ok (.ready (loopRec 2) u0, m0) ∧
      Fed ((toyOne 20).map Prod.snd) ns (.ready (loopRec 2) u0) m0 (.ready (loopRec 2) u) .none ∧
      decide (u.back.hyp = [104, 105, 0] ∧ u.back.dec.frames = 20) = true) ∧
    ∃ u0 m0 ns u, initApi (some (loopRec 2)) toyFormat .none = .ok (.ready (loopRec 2) u0, m0) ∧
      Fed ((toyOne 18).map Prod.snd) ns (.ready (loopRec 2) u0) m0 (.ready (loopRec 2) u) .none ∧
      decide (u.back.hyp = [0] ∧ u.back.dec.frames = 18) = true :=
  ⟨loop_fed 2 (P := fun b => decide (b.hyp = [104, 105, 0] ∧ b.dec.frames = 20)) (toyOne_pieces (by omega))
      (toyOne_length 20) (by decide +kernel),
    loop_fed 2 (P := fun b => decide (b.hyp = [0] ∧ b.dec.frames = 18)) (toyOne_pieces (by omega)) (toyOne_length 18)
      (by decide +kernel)⟩

theorem Scores.unique {r : Rec F D} {vm : List F → List (List F) → List F} {R c b : Nat} {data : List UInt8}
    {xs ys : List (List F)} (hx : Scores r vm R c b data xs) (hy : Scores r vm R c b data ys) : xs = ys := by
  obtain ⟨f, a1, a2, a3⟩ := hx
  obtain ⟨g, b1, b2, b3⟩ := hy
  rw [a1] at b1
  cases b1
  apply List.ext_getElem?
  intro t
  by_cases ht : t < xs.length
  · rw [a3 t ht, b3 t (by omega)]
  · rw [List.getElem?_eq_none (by omega), List.getElem?_eq_none (by omega)]

theorem alive_of_frames {e : Decoder.Env F D} {fs : List (List F)} {bs : List Bool}
    {cs : List (Option (Decoder.Cutoffs F D))} {d : Decoder.Dec F} (h : Decoder.Run e fs bs cs d)
    (hd : d.frames = fs.length) : ∀ x ∈ bs, x = true := by
  have hl : bs.length = fs.length := by
    clear hd
    induction h with
    | init => rfl
    | frame _ _ ih => simp [ih]
  rw [(Decoder.Run.inv h).frames, ← hl] at hd
  exact List.length_filter_eq_length_iff.1 hd

/-- Every frame of the example is reported as processed: `C96_live` applies to it. -/
example : ∃ u0 m0 ns u, initApi (some (loopRec 2)) toyFormat .none = .ok (.ready (loopRec 2) u0, m0) ∧
    Fed ((toyOne 20).map Prod.snd) ns (.ready (loopRec 2) u0) m0 (.ready (loopRec 2) u) .none ∧
    ∀ rows bs cs d, Scores (loopRec 2) Nnet.toyVecMat 0 2 1 ((toyOne 20).map Prod.snd).flatten rows →
      Decoder.Run (loopRec 2).dec rows bs cs d → ∀ x ∈ bs, x = true := by
  have hp : ∀ p ∈ (toyOne 20).map Prod.snd, p ≠ [] ∧ p.length < 536870500 := by
    intro p hp
    obtain ⟨q, hq, rfl⟩ := List.mem_map.1 hp
    exact toyOne_pieces (n := 20) (by omega) q hq
  obtain ⟨u0, m0, ns, u, h1, h2, h3⟩ := loop_fed 2 (P := fun b => decide (b.dec.frames = 20))
    (toyOne_pieces (by omega)) (toyOne_length 20) (by decide +kernel)
  refine ⟨u0, m0, ns, u, h1, h2, fun rows bs cs d hs hr => ?_⟩
  obtain ⟨_, _, u', rows', hu, hs', ⟨bs', cs', hr'⟩, _⟩ := C96_shown (loopRec_sound 2) (b := 1) rfl h1 hp h2
  injection hu with _ hu
  subst hu
  cases Scores.unique hs' hs
  obtain ⟨_, _, rfl⟩ := Decoder.Beam.run_unique hr' hr
  apply alive_of_frames hr
  rw [of_decide_eq_true h3]
  obtain ⟨_, _, hn, _⟩ := hs
  rw [hn, List.length_map]
  unfold Pcm.Spec.samples
  rw [List.length_map, List.length_range, toyOne_length]
  decide

/-- **C96 fails** for the likelihood: the cost of ending in the state of the best path is part of it although nothing has
ended.  Here the one path costs -117 after twenty frames, in both of two graphs that differ in nothing but the cost of
ending; the text is the same, but where ending is impossible the likelihood per frame that goes with it is enormous
(infinite, in floating point) instead of -5. -/
theorem C96_final_cost :
    (∃ u0 m0 ns u, initApi (some (loopRec 0)) toyFormat .none = .ok (.ready (loopRec 0) u0, m0) ∧
      Fed ((toyOne 20).map Prod.snd) ns (.ready (loopRec 0) u0) m0 (.ready (loopRec 0) u) .none ∧
      decide (u.back.dec.toks.map (·.cost) = [-117] ∧ u.back.hyp = [104, 105, 0] ∧ u.back.ll = -5) = true) ∧
    ∃ u0 m0 ns u, initApi (some (loopRec 1000000000)) toyFormat .none = .ok (.ready (loopRec 1000000000) u0, m0) ∧
      Fed ((toyOne 20).map Prod.snd) ns (.ready (loopRec 1000000000) u0) m0 (.ready (loopRec 1000000000) u) .none ∧
      decide (u.back.dec.toks.map (·.cost) = [-117] ∧ u.back.hyp = [104, 105, 0] ∧ u.back.ll = 49999994) = true :=
  ⟨loop_fed 0 (P := fun b => decide (b.dec.toks.map (·.cost) = [-117] ∧ b.hyp = [104, 105, 0] ∧ b.ll = -5))
      (toyOne_pieces (by omega)) (toyOne_length 20) (by decide +kernel),
    loop_fed 1000000000
      (P := fun b => decide (b.dec.toks.map (·.cost) = [-117] ∧ b.hyp = [104, 105, 0] ∧ b.ll = 49999994))
      (toyOne_pieces (by omega)) (toyOne_length 20) (by decide +kernel)⟩

end Verif.Stt
