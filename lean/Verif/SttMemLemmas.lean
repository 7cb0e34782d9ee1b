import Verif.SttMemModel
import Verif.SttMemSpec
import Verif.SttProps
import Verif.MdecRun

/-!
# Facts about the interface with the decoder's memory
-/

namespace Verif.SttMem

open Verif Verif.Nnet.Spec Verif.Fbank.Spec Verif.Pcm
open Verif.Stt (Rec Msg Sound Fine zeros)

variable {F D : Type}

/-! ## The front end -/

theorem storeHyp_fill (r : Rec F D) (f g : Nat → UInt8) (b : Back F) : storeHyp r f b = storeHyp r g b := by
  unfold storeHyp
  simp only [Stt.storeHypText_fill r.syms _ f g]

theorem decodeRow_fill (r : Rec F D) (f : Nat → UInt8) : decodeRow r f = decodeRow r zeros := by
  funext b row
  unfold decodeRow
  simp only [storeHyp_fill r f zeros]

/-- The rest of an utterance does not see the buffer of the acoustic model. -/
theorem storeHyp_am (r : Rec F D) (f : Nat → UInt8) (b : Back F) (a : Am.Inst F) :
    storeHyp r f { b with am := a } = storeHyp r f b >>= fun b' => .ok { b' with am := a } := by
  unfold storeHyp
  simp only
  cases Mdec.bestPath r.dec b.dec with
  | error x => rfl
  | ok y =>
    obtain ⟨ws, w⟩ := y
    rw [ok_bind, ok_bind]
    simp only
    cases Text.storeHypText r.syms ws f with
    | error x => rfl
    | ok y => rfl

theorem decodeRow_am (r : Rec F D) (f : Nat → UInt8) (b : Back F) (a : Am.Inst F) (row : List F) :
    decodeRow r f { b with am := a } row = decodeRow r f b row >>= fun b' => .ok { b' with am := a } := by
  unfold decodeRow
  simp only
  cases Mdec.process r.dec r.fuel row b.dec with
  | error x => rfl
  | ok y =>
    obtain ⟨x, c, d⟩ := y
    rw [ok_bind, ok_bind]
    simp only
    split
    · exact storeHyp_am r f { b with dec := d } a
    · rfl

theorem decodeRows_am (r : Rec F D) (f : Nat → UInt8) (a : Am.Inst F) : ∀ (rows : List (List F)) (b : Back F),
    rows.foldlM (decodeRow r f) { b with am := a } = rows.foldlM (decodeRow r f) b >>= fun b' => .ok { b' with am := a }
  | [], b => rfl
  | row :: rows, b => by
    rw [List.foldlM_cons, List.foldlM_cons, decodeRow_am]
    cases decodeRow r f b row with
    | error x => rfl
    | ok b1 =>
      rw [ok_bind, ok_bind, ok_bind]
      exact decodeRows_am r f a rows b1

/-- One frame of features through acoustic model and decoder. -/
def backStep (r : Rec F D) (b : Back F) (f : List F) : Exec (Back F) := do
  let (rows, inst) ← Am.process r.nn r.am b.am f []
  rows.foldlM (decodeRow r zeros) { b with am := inst }

variable {r : Rec F D} {vm : List F → List (List F) → List F} {e L R c w : Nat}

theorem am_of_fold {rows : List (List F)} {b b' : Back F} {a : Am.Inst F}
    (h : rows.foldlM (decodeRow r zeros) { b with am := a } = .ok b') : b'.am = a := by
  rw [decodeRows_am] at h
  obtain ⟨b1, _, h⟩ := bind_ok h
  cases h
  rfl

theorem backStep_fine (S : Sound r vm e L R c w) {k : Nat} {b b' : Back F} (h : Fine L R c k b.am) {f : List F}
    (hf : f.length = 40) (hb : backStep r b f = .ok b') : Fine L R c (k + 1) b'.am := by
  obtain ⟨rows, inst', h1, h2⟩ := Stt.fine_step S h hf
  unfold backStep at hb
  rw [h1 [], ok_bind] at hb
  rw [am_of_fold hb]
  exact h2

theorem backSteps_fine (S : Sound r vm e L R c w) : ∀ {fs : List (List F)} {k : Nat} {b b' : Back F},
    Fine L R c k b.am → (∀ f ∈ fs, f.length = 40) → fs.foldlM (backStep r) b = .ok b' →
    Fine L R c (k + fs.length) b'.am
  | [], k, b, b', h, _, hb => by cases hb; exact h
  | f :: fs, k, b, b', h, hfs, hb => by
    rw [List.foldlM_cons] at hb
    obtain ⟨b1, h1, h2⟩ := bind_ok hb
    have := backSteps_fine S (fs := fs) (backStep_fine S h (hfs f (by simp)) h1) (fun g hg => hfs g (by simp [hg])) h2
    rw [List.length_cons, show k + (fs.length + 1) = k + 1 + fs.length by omega]
    exact this

/-- The loop over frames is a fold that forgets the output matrix. -/
theorem frameLoop_eq (S : Sound r vm e L R c w) (fill : Nat → UInt8) : ∀ (fs : List (List F)) {k : Nat}
    (out : List (List F)) (b : Back F), Fine L R c k b.am → (∀ f ∈ fs, f.length = 40) →
    frameLoop r fill out fs b = fs.foldlM (backStep r) b
  | [], _, _, _, _, _ => rfl
  | f :: fs, k, out, b, h, hfs => by
    have hf := hfs f (by simp)
    obtain ⟨rows, inst', h1, h2⟩ := Stt.fine_step S h hf
    have hb : backStep r b f = rows.foldlM (decodeRow r zeros) { b with am := inst' } := by
      unfold backStep
      rw [h1 [], ok_bind]
    rw [frameLoop, h1 out, ok_bind, List.foldlM_cons, hb]
    simp only [decodeRow_fill r fill]
    cases hc : rows.foldlM (decodeRow r zeros) { b with am := inst' } with
    | error x => rfl
    | ok b1 =>
      rw [ok_bind, ok_bind]
      exact frameLoop_eq S fill fs rows b1 (k := k + 1) (by rw [am_of_fold hc]; exact h2)
        (fun g hg => hfs g (by simp [hg]))

/-- An utterance in good order, `k` frames into the acoustic model, with samples of `b` bytes. -/
structure Good (L R c k b : Nat) (u : Utt F) : Prop where
  ready : u.reader.ready = true
  width : Width u.reader.format.bits b
  buffer : u.reader.buffer.length < b
  wave : numFrames u.wave.length = 0
  fine : Fine L R c k u.back.am

/-- The samples that the bytes `bs` complete. -/
def newSamples (r : Rec F D) (b : Nat) (u : Utt F) (bs : List UInt8) : List F :=
  (Spec.samples b (u.reader.buffer ++ bs)).map r.conv

/-- The utterance after the bytes `bs`, given what is behind the features. -/
def after (r : Rec F D) (b : Nat) (u : Utt F) (bs : List UInt8) (back : Back F) : Utt F :=
  { reader := { u.reader with buffer := leftover b (u.reader.buffer ++ bs) }
    wave := (u.wave ++ newSamples r b u bs).drop (160 * numFrames (u.wave ++ newSamples r b u bs).length)
    back := back }

theorem after_good (S : Sound r vm e L R c w) {k b : Nat} {u : Utt F} (G : Good L R c k b u) (bs : List UInt8)
    {feats : List (List F)} {back : Back F}
    (h1 : (frames (u.wave ++ newSamples r b u bs)).mapM (row r.fb) = .ok feats)
    (h2 : feats.foldlM (backStep r) u.back = .ok back) : Good L R c (k + feats.length) b (after r b u bs back) := by
  refine ⟨G.ready, G.width, ?_, ?_, ?_⟩
  · show (leftover b (u.reader.buffer ++ bs)).length < b
    rw [leftover_length]
    exact Nat.mod_lt _ G.width.pos
  · show numFrames ((u.wave ++ newSamples r b u bs).drop (160 * numFrames (u.wave ++ newSamples r b u bs).length)).length = 0
    rw [List.length_drop]
    have := Fbank.leftover_bound (u.wave ++ newSamples r b u bs).length
    generalize (u.wave ++ newSamples r b u bs).length - 160 * numFrames (u.wave ++ newSamples r b u bs).length = n at this
    unfold numFrames
    rw [if_pos this]
  · exact backSteps_fine S G.fine (Stt.rows_length S.tables h1) h2

/-- One call of `ce_stt_process`. -/
theorem process_piece (S : Sound r vm e L R c w) {k b : Nat} {u : Utt F} (G : Good L R c k b u) (mem : Stt.Mem F)
    (msg : Msg) {bs : List UInt8} (h0 : bs ≠ []) (hs : bs.length < 536870500) :
    processApi r mem u msg (some bs) bs.length =
      ((frames (u.wave ++ newSamples r b u bs)).mapM (row r.fb) >>= fun feats =>
        feats.foldlM (backStep r) u.back >>= fun back =>
          .ok (((newSamples r b u bs).length : Int), after r b u bs back, msg)) := by
  have hw := Stt.numFrames_wave G.wave
  have hp : processApi r mem u msg (some bs) bs.length = (do
      let u' ← afterSamples r mem { u with reader := { u.reader with buffer := leftover b (u.reader.buffer ++ bs) } }
        (newSamples r b u bs)
      .ok ((newSamples r b u bs).length, u', msg)) := by
    unfold processApi
    rw [Pcm.process_ok r.conv G.ready G.width G.buffer h0 (by omega)]
    rfl
  rw [hp]
  unfold afterSamples
  by_cases hz : (newSamples r b u bs).length = 0
  · have hz' : newSamples r b u bs = [] := List.length_eq_zero_iff.mp hz
    rw [if_pos hz, ok_bind, hz', List.append_nil]
    have hfr : frames u.wave = [] := by
      unfold frames; rw [G.wave]; rfl
    rw [hfr]
    have ha : after r b u bs u.back = { u with reader := { u.reader with buffer := leftover b (u.reader.buffer ++ bs) } } := by
      unfold after
      rw [hz', List.append_nil, G.wave]
      rfl
    rw [← ha]
    rfl
  · have hne : newSamples r b u bs ≠ [] := fun hc => hz (by rw [hc]; rfl)
    have hlen : (newSamples r b u bs).length ≤ bs.length := by
      have hb := G.width.pos
      have hbuf := G.buffer
      have : (newSamples r b u bs).length = (u.reader.buffer ++ bs).length / b := by
        unfold newSamples Spec.samples
        rw [List.length_map, List.length_map, List.length_range]
      rw [this, List.length_append]
      have hpos := List.length_pos_iff.mpr h0
      have h4 := G.width.le
      have h5 : b = 1 ∨ b = 2 ∨ b = 3 ∨ b = 4 := by omega
      rcases h5 with rfl | rfl | rfl | rfl <;> omega
    rw [if_neg hz, Fbank.process_ok r.fb S.tables S.scratch mem.fb u.wave _ hne (by omega)]
    cases hm : (frames (u.wave ++ newSamples r b u bs)).mapM (row r.fb) with
    | error x => rfl
    | ok feats =>
      rw [ok_bind, ok_bind, ok_bind]
      simp only
      rw [frameLoop_eq S mem.fill feats [] u.back G.fine (Stt.rows_length S.tables hm)]
      cases hb : feats.foldlM (backStep r) u.back with
      | error x => rfl
      | ok back => rfl

/-- A whole stream whose features can be computed, or that is recognised. -/
theorem feed_stream (S : Sound r vm e L R c w) {b : Nat} (msg : Msg) : ∀ (cs : List (Stt.Mem F × List UInt8)) {k : Nat}
    {u : Utt F}, Good L R c k b u → (∀ p ∈ cs, p.2 ≠ [] ∧ p.2.length < 536870500) →
    (∀ x, feedApi r cs u msg = .ok x →
      ∃ feats, (frames (u.wave ++ newSamples r b u (cs.map Prod.snd).flatten)).mapM (row r.fb) = .ok feats) ∧
    ∀ feats, (frames (u.wave ++ newSamples r b u (cs.map Prod.snd).flatten)).mapM (row r.fb) = .ok feats →
      feedApi r cs u msg = feats.foldlM (backStep r) u.back >>= fun back =>
        .ok (after r b u (cs.map Prod.snd).flatten back, msg)
  | [], k, u, G, _ => by
    have hs : newSamples r b u [] = [] := by
      unfold newSamples Spec.samples
      rw [List.append_nil, Nat.div_eq_of_lt G.buffer]
      rfl
    have hfr : frames u.wave = [] := by
      unfold frames; rw [G.wave]; rfl
    have ha : after r b u [] u.back = u := by
      unfold after leftover
      rw [hs, List.append_nil, List.append_nil, G.wave, Nat.div_eq_of_lt G.buffer]
      rfl
    simp only [List.map_nil, List.flatten_nil]
    rw [hs, List.append_nil, hfr]
    refine ⟨fun _ _ => ⟨[], rfl⟩, ?_⟩
    intro feats h1
    cases h1
    show Except.ok (u, msg) = Except.ok (after r b u [] u.back, msg)
    rw [ha]
  | (mem, p) :: cs, k, u, G, hcs => by
    obtain ⟨h0, h1⟩ := hcs (mem, p) (by simp)
    have hb := G.width.pos
    obtain ⟨e1, e2⟩ := samples_split hb (u.reader.buffer ++ p) (cs.map Prod.snd).flatten
    have hns : ∀ back, newSamples r b u (p ++ (cs.map Prod.snd).flatten) =
        newSamples r b u p ++ newSamples r b (after r b u p back) (cs.map Prod.snd).flatten := by
      intro back
      unfold newSamples
      rw [← List.append_assoc, e1, List.map_append]
      rfl
    have hfs : ∀ back, frames (u.wave ++ newSamples r b u (p ++ (cs.map Prod.snd).flatten)) =
        frames (u.wave ++ newSamples r b u p) ++
          frames ((after r b u p back).wave ++ newSamples r b (after r b u p back) (cs.map Prod.snd).flatten) := by
      intro back
      rw [hns back, ← List.append_assoc, (Fbank.frames_split _ _).1]
      rfl
    have hff : ∀ back back', after r b u (p ++ (cs.map Prod.snd).flatten) back' =
        after r b (after r b u p back) (cs.map Prod.snd).flatten back' := by
      intro back back'
      unfold after
      simp only
      congr 1
      · rw [← List.append_assoc, e2]
      · have := (Fbank.frames_split (u.wave ++ newSamples r b u p)
          (newSamples r b (after r b u p back) (cs.map Prod.snd).flatten)).2
        rw [List.append_assoc, ← hns back] at this
        exact this
    rw [List.map_cons, List.flatten_cons]
    unfold feedApi
    rw [process_piece S G mem msg h0 h1]
    refine ⟨?_, ?_⟩
    · intro x hh
      obtain ⟨⟨n, u', m'⟩, g1, g2⟩ := bind_ok hh
      obtain ⟨feats, f1, g1⟩ := bind_ok g1
      obtain ⟨back, f2, g1⟩ := bind_ok g1
      cases g1
      have G' := after_good S G p f1 f2
      obtain ⟨feats', f3⟩ := (feed_stream S msg cs G' (fun q hq => hcs q (by simp [hq]))).1 x g2
      exact ⟨feats ++ feats', by rw [hfs back]; exact Stt.mapM_append_ok.mpr ⟨feats, feats', f1, f3, rfl⟩⟩
    · intro feats f1
      rw [hfs u.back] at f1
      obtain ⟨as, bs, a1, a2, rfl⟩ := Stt.mapM_append_ok.mp f1
      rw [a1, ok_bind, List.foldlM_append]
      cases hc : as.foldlM (backStep r) u.back with
      | error x => rfl
      | ok back =>
        rw [ok_bind, ok_bind, ok_bind]
        simp only
        have G' := after_good S G p a1 hc
        rw [(feed_stream S msg cs G' (fun q hq => hcs q (by simp [hq]))).2 bs a2]
        simp only [hff back]
        rfl

/-! ## Rows of scores -/

/-- The frames of an utterance are its rows of scores, one after the other. -/
theorem backSteps_rows : ∀ {fs : List (List F)} {b : Back F} {rows : List (List F)} {inst : Am.Inst F},
    Am.feed r.nn r.am b.am (fs.map fun f => ([], f)) = .ok (rows, inst) →
    fs.foldlM (backStep r) b = rows.foldlM (decodeRow r zeros) b >>= fun b' => .ok { b' with am := inst }
  | [], b, rows, inst, h => by cases h; rfl
  | f :: fs, b, rows, inst, h => by
    rw [List.map_cons, Am.feed] at h
    obtain ⟨⟨xs, i1⟩, h1, h⟩ := bind_ok h
    obtain ⟨⟨ys, i2⟩, h2, h⟩ := bind_ok h
    cases h
    rw [List.foldlM_cons, List.foldlM_append]
    have hs : backStep r b f = xs.foldlM (decodeRow r zeros) { b with am := i1 } := by
      unfold backStep
      rw [h1, ok_bind]
    rw [hs, decodeRows_am]
    cases hc : xs.foldlM (decodeRow r zeros) b with
    | error x => rfl
    | ok b1 =>
      rw [ok_bind, ok_bind, ok_bind]
      have := backSteps_rows (fs := fs) (b := { b1 with am := i1 }) (rows := ys) (inst := inst) h2
      rw [this, decodeRows_am]
      cases ys.foldlM (decodeRow r zeros) b1 with
      | error x => rfl
      | ok b2 => rfl

end Verif.SttMem

namespace Verif.Stt

open Verif Verif.Nnet.Spec Verif.Fbank.Spec Verif.Pcm

variable {F D : Type}

theorem storeHyp_amEq (r : Rec F D) (f : Nat → UInt8) (b : Back F) (a : Am.Inst F) :
    storeHyp r f { b with am := a } = storeHyp r f b >>= fun b' => .ok { b' with am := a } := by
  unfold storeHyp
  simp only
  cases Decoder.bestPath r.dec b.dec with
  | error x => rfl
  | ok y =>
    obtain ⟨ws, w⟩ := y
    rw [ok_bind, ok_bind]
    simp only
    cases Text.storeHypText r.syms ws f with
    | error x => rfl
    | ok y => rfl

theorem decodeRow_amEq (r : Rec F D) (f : Nat → UInt8) (b : Back F) (a : Am.Inst F) (row : List F) :
    decodeRow r f { b with am := a } row = decodeRow r f b row >>= fun b' => .ok { b' with am := a } := by
  unfold decodeRow
  simp only
  cases Decoder.process r.dec r.fuel row b.dec with
  | error x => rfl
  | ok y =>
    obtain ⟨x, c, d⟩ := y
    rw [ok_bind, ok_bind]
    simp only
    split
    · exact storeHyp_amEq r f { b with dec := d } a
    · rfl

theorem decodeRows_amEq (r : Rec F D) (f : Nat → UInt8) (a : Am.Inst F) : ∀ (rows : List (List F)) (b : Back F),
    rows.foldlM (decodeRow r f) { b with am := a } = rows.foldlM (decodeRow r f) b >>= fun b' => .ok { b' with am := a }
  | [], b => rfl
  | row :: rows, b => by
    rw [List.foldlM_cons, List.foldlM_cons, decodeRow_amEq]
    cases decodeRow r f b row with
    | error x => rfl
    | ok b1 =>
      rw [ok_bind, ok_bind, ok_bind]
      exact decodeRows_amEq r f a rows b1

theorem backSteps_rows {r : Rec F D} : ∀ {fs : List (List F)} {b : Back F} {rows : List (List F)} {inst : Am.Inst F},
    Am.feed r.nn r.am b.am (fs.map fun f => ([], f)) = .ok (rows, inst) →
    fs.foldlM (backStep r) b = rows.foldlM (decodeRow r zeros) b >>= fun b' => .ok { b' with am := inst }
  | [], b, rows, inst, h => by cases h; rfl
  | f :: fs, b, rows, inst, h => by
    rw [List.map_cons, Am.feed] at h
    obtain ⟨⟨xs, i1⟩, h1, h⟩ := bind_ok h
    obtain ⟨⟨ys, i2⟩, h2, h⟩ := bind_ok h
    cases h
    rw [List.foldlM_cons, List.foldlM_append]
    have hs : backStep r b f = xs.foldlM (decodeRow r zeros) { b with am := i1 } := by
      unfold backStep
      rw [h1, ok_bind]
    rw [hs, decodeRows_amEq]
    cases hc : xs.foldlM (decodeRow r zeros) b with
    | error x => rfl
    | ok b1 =>
      rw [ok_bind, ok_bind, ok_bind]
      have := backSteps_rows (fs := fs) (b := { b1 with am := i1 }) (rows := ys) (inst := inst) h2
      rw [this, decodeRows_amEq]
      cases ys.foldlM (decodeRow r zeros) b1 with
      | error x => rfl
      | ok b2 => rfl

end Verif.Stt
