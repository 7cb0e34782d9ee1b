import Verif.SttModel
import Verif.PcmLemmas
import Verif.FbankLemmas
import Verif.AmLemmas
import Verif.TextProps

/-!
# Facts about the composition of the stages
-/

namespace Verif.Stt

open Verif Verif.Nnet.Spec Verif.Fbank.Spec Verif.Pcm

variable {F D : Type}

/-- The text of the hypothesis does not depend on the old content of the array. -/
theorem storeHypText_fill (syms : List Text.Str) (ids : List Int) (f g : Nat → UInt8) :
    Text.storeHypText syms ids f = Text.storeHypText syms ids g := by
  by_cases h : ∃ i ∈ ids, i < 0 ∨ (syms.length : Int) ≤ i
  · rw [Text.C42_unknown_word_asserts syms ids f h, Text.C42_unknown_word_asserts syms ids g h]
  · have hw : ∀ i ∈ ids.reverse, ∃ w, Text.word? syms i = some w := by
      intro i hi
      have hi' : i ∈ ids := List.mem_reverse.mp hi
      have h1 : ¬ (i < 0 ∨ (syms.length : Int) ≤ i) := fun hc => h ⟨i, hi', hc⟩
      unfold Text.word?
      rw [if_pos (by omega)]
      rw [List.getElem?_eq_getElem (show i.toNat < syms.length by omega)]
      exact ⟨_, rfl⟩
    have : ∃ ws : List Text.Str, ids.reverse.map (Text.word? syms) = ws.map some := by
      generalize ids.reverse = l at hw
      induction l with
      | nil => exact ⟨[], rfl⟩
      | cons i l ih =>
        obtain ⟨w, h1⟩ := hw i (by simp)
        obtain ⟨ws, h2⟩ := ih (fun j hj => hw j (by simp [hj]))
        exact ⟨w :: ws, by simp [h1, h2]⟩
    obtain ⟨ws, hws⟩ := this
    rw [Text.C42_hypothesis_text syms ids ws f hws, Text.C42_hypothesis_text syms ids ws g hws]

theorem storeHyp_fill (r : Rec F D) (f g : Nat → UInt8) (b : Back F) : storeHyp r f b = storeHyp r g b := by
  unfold storeHyp
  simp only [storeHypText_fill r.syms _ f g]

/-- Zeros, in place of indeterminate memory. -/
def zeros : Nat → UInt8 := fun _ => 0

theorem decodeRow_fill (r : Rec F D) (f : Nat → UInt8) : decodeRow r f = decodeRow r zeros := by
  funext b row
  unfold decodeRow
  simp only [storeHyp_fill r f zeros]

theorem storeHyp_am {r : Rec F D} {f : Nat → UInt8} {b b' : Back F} (h : storeHyp r f b = .ok b') :
    b'.am = b.am := by
  unfold storeHyp at h
  obtain ⟨x, _, h⟩ := bind_ok h
  obtain ⟨y, _, h⟩ := bind_ok h
  cases h
  rfl

theorem decodeRow_am {r : Rec F D} {f : Nat → UInt8} {b b' : Back F} {row : List F}
    (h : decodeRow r f b row = .ok b') : b'.am = b.am := by
  unfold decodeRow at h
  obtain ⟨x, _, h⟩ := bind_ok h
  simp only at h
  split at h
  · rw [storeHyp_am h]
  · cases h; rfl

theorem decodeRows_am {r : Rec F D} {f : Nat → UInt8} : ∀ {rows : List (List F)} {b b' : Back F},
    rows.foldlM (decodeRow r f) b = .ok b' → b'.am = b.am
  | [], b, b', h => by cases h; rfl
  | row :: rows, b, b', h => by
    rw [List.foldlM_cons] at h
    obtain ⟨b1, h1, h2⟩ := bind_ok h
    rw [decodeRows_am h2, decodeRow_am h1]

/-- What is assumed of the model: the network is one the converter writes, for features of dimension 40; sizes fit;
the tables of the feature extraction have the right sizes and its FFT uses its buffer as scratch space only. -/
structure Sound (r : Rec F D) (vm : List F → List (List F) → List F) (e L R c w : Nat) : Prop where
  hvm : RowWise r.nn vm
  hb : Built r.am.layers 40 e L R w
  hprior : r.am.logPrior.length = e
  hleft : r.am.left = L
  hright : r.am.right = R
  hchunk : r.am.chunk = c
  hc : 1 ≤ c
  hsize : (c + L + R + R) * w ≤ 2147483647
  hbig : c + L + R + R ≤ 1073741823
  tables : Tables r.fb
  scratch : ScratchOnly r.fb

variable {r : Rec F D} {vm : List F → List (List F) → List F} {e L R c w : Nat}

theorem Sound.setup (S : Sound r vm e L R c w) {x : Int → List F} (hx : ∀ t, (x t).length = 40)
    (he : ∀ t : Int, t < 0 → x t = x 0) : Am.Setup r.nn vm r.am 40 e L R c w x :=
  ⟨S.hvm, S.hb, S.hprior, S.hleft, S.hright, S.hchunk, S.hc, S.hsize, S.hbig, hx, he⟩

/-- The buffer of the acoustic model after `k` frames. -/
def Fine (L R c k : Nat) (inst : Am.Inst F) : Prop :=
  ∃ (x : Int → List F) (p : Nat), (∀ t, (x t).length = 40) ∧ (∀ t : Int, t < 0 → x t = x 0) ∧
    Am.Inv L R c x k p inst

theorem fine_new (z : F) : Fine L R c 0 (Am.Inst.new : Am.Inst F) :=
  ⟨fun _ => List.replicate 40 z, 0, fun _ => List.length_replicate, fun _ _ => rfl, .inl ⟨rfl, rfl, rfl⟩⟩

/-- One frame: the outcome does not depend on the old content of the output matrix. -/
theorem fine_step (S : Sound r vm e L R c w) {k : Nat} {inst : Am.Inst F} (h : Fine L R c k inst) {f : List F}
    (hf : f.length = 40) :
    ∃ rows inst', (∀ out, Am.process r.nn r.am inst f out = .ok (rows, inst')) ∧ Fine L R c (k + 1) inst' := by
  obtain ⟨x, p, hx, he, hi⟩ := h
  let x' : Int → List F := fun t => if 0 < k ∧ t < k then x t else f
  have hx' : ∀ t, (x' t).length = 40 := by
    intro t
    show (if _ then _ else _ : List F).length = 40
    split
    · exact hx t
    · exact hf
  have he' : ∀ t : Int, t < 0 → x' t = x' 0 := by
    intro t ht
    show (if _ then _ else _ : List F) = if _ then _ else _
    by_cases hk : 0 < k
    · rw [if_pos ⟨hk, by omega⟩, if_pos ⟨hk, by omega⟩]; exact he t ht
    · rw [if_neg (by omega), if_neg (by omega)]
  have hk' : x' k = f := by
    show (if _ then _ else _ : List F) = f
    rw [if_neg (by omega)]
  have hi' : Am.Inv L R c x' k p inst := by
    rcases hi with ⟨h1, h2, h3⟩ | ⟨h1, h2, h3, h4, h5⟩
    · exact .inl ⟨h1, h2, h3⟩
    · refine .inr ⟨h1, h2, h3, h4, ?_⟩
      rw [h5]
      unfold Am.seg
      apply List.map_congr_left
      intro i hi
      have hi : i < L + k - p := by simpa using hi
      show _ = (if _ then _ else _ : List F)
      rw [if_pos ⟨h1, by omega⟩]
  obtain ⟨p', inst', h1, _, h3⟩ := (S.setup hx' he').batches.process_any hi'
  rw [hk'] at h1
  exact ⟨_, inst', h1, x', p', hx', he', h3⟩

/-- One frame of features through acoustic model and decoder. -/
def backStep (r : Rec F D) (b : Back F) (f : List F) : Exec (Back F) := do
  let (rows, inst) ← Am.process r.nn r.am b.am f []
  rows.foldlM (decodeRow r zeros) { b with am := inst }

theorem backStep_fine (S : Sound r vm e L R c w) {k : Nat} {b b' : Back F} (h : Fine L R c k b.am) {f : List F}
    (hf : f.length = 40) (hb : backStep r b f = .ok b') : Fine L R c (k + 1) b'.am := by
  obtain ⟨rows, inst', h1, h2⟩ := fine_step S h hf
  unfold backStep at hb
  rw [h1 [], ok_bind] at hb
  rw [decodeRows_am hb]
  exact h2

/-- The loop over frames is a fold that forgets the output matrix. -/
theorem frameLoop_eq (S : Sound r vm e L R c w) (fill : Nat → UInt8) : ∀ (fs : List (List F)) {k : Nat}
    (out : List (List F)) (b : Back F), Fine L R c k b.am → (∀ f ∈ fs, f.length = 40) →
    frameLoop r fill out fs b = fs.foldlM (backStep r) b
  | [], _, _, _, _, _ => rfl
  | f :: fs, k, out, b, h, hfs => by
    have hf := hfs f (by simp)
    obtain ⟨rows, inst', h1, h2⟩ := fine_step S h hf
    have hb : backStep r b f = rows.foldlM (decodeRow r zeros) { b with am := inst' } := by
      unfold backStep
      rw [h1 [], ok_bind]
    rw [frameLoop, h1 out, ok_bind, List.foldlM_cons, hb]
    simp only [decodeRow_fill r fill]
    cases hc : rows.foldlM (decodeRow r zeros) { b with am := inst' } with
    | error x => rfl
    | ok b1 =>
      rw [ok_bind, ok_bind]
      exact frameLoop_eq S fill fs rows b1 (k := k + 1) (by rw [decodeRows_am hc]; exact h2)
        (fun g hg => hfs g (by simp [hg]))

theorem backSteps_fine (S : Sound r vm e L R c w) : ∀ {fs : List (List F)} {k : Nat} {b b' : Back F},
    Fine L R c k b.am → (∀ f ∈ fs, f.length = 40) → fs.foldlM (backStep r) b = .ok b' →
    Fine L R c (k + fs.length) b'.am
  | [], k, b, b', h, _, hb => by cases hb; exact h
  | f :: fs, k, b, b', h, hfs, hb => by
    rw [List.foldlM_cons] at hb
    obtain ⟨b1, h1, h2⟩ := bind_ok hb
    have := backSteps_fine S (fs := fs) (backStep_fine S h (hfs f (by simp)) h1) (fun g hg => hfs g (by simp [hg])) h2
    rw [List.length_cons, show k + (fs.length + 1) = k + 1 + fs.length by omega]
    exact this

theorem row_length (ht : Tables r.fb) {x y : List F} (h : row r.fb x = .ok y) : y.length = 40 := by
  unfold row at h
  obtain ⟨s, _, h⟩ := bind_ok h
  split at h
  · cases h; rw [List.length_map]; exact ht.2.1
  · cases h

theorem rows_length (ht : Tables r.fb) : ∀ {xs ys : List (List F)}, xs.mapM (row r.fb) = .ok ys →
    ∀ y ∈ ys, y.length = 40
  | [], ys, h => by cases h; simp
  | x :: xs, ys, h => by
    rw [List.mapM_cons] at h
    obtain ⟨y, h1, h⟩ := bind_ok h
    obtain ⟨zs, h2, h⟩ := bind_ok h
    cases h
    intro z hz
    rcases List.mem_cons.mp hz with rfl | hz
    · exact row_length ht h1
    · exact rows_length ht h2 z hz

/-- An utterance in good order, `k` frames into the acoustic model, with samples of `b` bytes. -/
structure Good (L R c k b : Nat) (u : Utt F) : Prop where
  ready : u.reader.ready = true
  width : Width u.reader.format.bits b
  buffer : u.reader.buffer.length < b
  wave : numFrames u.wave.length = 0
  fine : Fine L R c k u.back.am

/-- The samples that the bytes `bs` complete. -/
def newSamples (r : Rec F D) (b : Nat) (u : Utt F) (bs : List UInt8) : List F :=
  (Spec.samples b (u.reader.buffer ++ bs)).map r.conv

/-- The utterance after the bytes `bs`, given what is behind the features. -/
def after (r : Rec F D) (b : Nat) (u : Utt F) (bs : List UInt8) (back : Back F) : Utt F :=
  { reader := { u.reader with buffer := leftover b (u.reader.buffer ++ bs) }
    wave := (u.wave ++ newSamples r b u bs).drop (160 * numFrames (u.wave ++ newSamples r b u bs).length)
    back := back }

theorem numFrames_wave {n : Nat} (h : numFrames n = 0) : n < 400 := by
  unfold numFrames at h
  split at h
  · assumption
  · omega

theorem after_good (S : Sound r vm e L R c w) {k b : Nat} {u : Utt F} (G : Good L R c k b u) (bs : List UInt8)
    {feats : List (List F)} {back : Back F}
    (h1 : (frames (u.wave ++ newSamples r b u bs)).mapM (row r.fb) = .ok feats)
    (h2 : feats.foldlM (backStep r) u.back = .ok back) : Good L R c (k + feats.length) b (after r b u bs back) := by
  refine ⟨G.ready, G.width, ?_, ?_, ?_⟩
  · show (leftover b (u.reader.buffer ++ bs)).length < b
    rw [leftover_length]
    exact Nat.mod_lt _ G.width.pos
  · show numFrames ((u.wave ++ newSamples r b u bs).drop (160 * numFrames (u.wave ++ newSamples r b u bs).length)).length = 0
    rw [List.length_drop]
    have := Fbank.leftover_bound (u.wave ++ newSamples r b u bs).length
    generalize (u.wave ++ newSamples r b u bs).length - 160 * numFrames (u.wave ++ newSamples r b u bs).length = n at this
    unfold numFrames
    rw [if_pos this]
  · exact backSteps_fine S G.fine (rows_length S.tables h1) h2

/-- One call of `ce_stt_process` succeeds exactly if the features of the frames it completes can be computed and
acoustic model and decoder take them. -/
theorem process_piece (S : Sound r vm e L R c w) {k b : Nat} {u : Utt F} (G : Good L R c k b u) (mem : Mem F)
    (msg : Msg) {bs : List UInt8} (h0 : bs ≠ []) (hs : bs.length < 536870500) (n : Int) (h : Handle F D) (msg' : Msg) :
    processApi mem (.ready r u) msg (some bs) bs.length = .ok (n, h, msg') ↔
      ∃ feats back, (frames (u.wave ++ newSamples r b u bs)).mapM (row r.fb) = .ok feats ∧
        feats.foldlM (backStep r) u.back = .ok back ∧ n = (newSamples r b u bs).length ∧
        h = .ready r (after r b u bs back) ∧ msg' = msg := by
  have hw := numFrames_wave G.wave
  have hp : processApi mem (.ready r u) msg (some bs) bs.length = (do
      let u' ← afterSamples r mem { u with reader := { u.reader with buffer := leftover b (u.reader.buffer ++ bs) } }
        (newSamples r b u bs)
      .ok ((newSamples r b u bs).length, .ready r u', msg)) := by
    unfold processApi checkParamUtt
    simp only
    rw [if_neg (by decide), Pcm.process_ok r.conv G.ready G.width G.buffer h0 (by omega)]
    rfl
  rw [hp]
  unfold afterSamples
  by_cases hz : (newSamples r b u bs).length = 0
  · have hz' : newSamples r b u bs = [] := List.length_eq_zero_iff.mp hz
    rw [if_pos hz, ok_bind, hz', List.append_nil]
    have hfr : frames u.wave = [] := by
      unfold frames; rw [G.wave]; rfl
    rw [hfr]
    have ha : after r b u bs u.back = { u with reader := { u.reader with buffer := leftover b (u.reader.buffer ++ bs) } } := by
      unfold after
      rw [hz', List.append_nil, G.wave]
      rfl
    constructor
    · intro hh
      cases hh
      exact ⟨[], u.back, rfl, rfl, rfl, by rw [ha], rfl⟩
    · rintro ⟨feats, back, h1, h2, rfl, rfl, rfl⟩
      cases h1
      cases h2
      rw [ha]
  · have hne : newSamples r b u bs ≠ [] := fun hc => hz (by rw [hc]; rfl)
    have hlen : (newSamples r b u bs).length ≤ bs.length := by
      have hb := G.width.pos
      have hbuf := G.buffer
      have : (newSamples r b u bs).length = (u.reader.buffer ++ bs).length / b := by
        unfold newSamples Spec.samples
        rw [List.length_map, List.length_map, List.length_range]
      rw [this, List.length_append]
      have hpos := List.length_pos_iff.mpr h0
      have h4 := G.width.le
      have h5 : b = 1 ∨ b = 2 ∨ b = 3 ∨ b = 4 := by omega
      rcases h5 with rfl | rfl | rfl | rfl <;> omega
    rw [if_neg hz, Fbank.process_ok r.fb S.tables S.scratch mem.fb u.wave _ hne (by omega)]
    cases hm : (frames (u.wave ++ newSamples r b u bs)).mapM (row r.fb) with
    | error x =>
      constructor
      · intro hh; cases hh
      · rintro ⟨feats, back, h1, _⟩; cases h1
    | ok feats =>
      rw [ok_bind, ok_bind]
      simp only
      rw [frameLoop_eq S mem.fill feats [] u.back G.fine (rows_length S.tables hm)]
      cases hb : feats.foldlM (backStep r) u.back with
      | error x =>
        constructor
        · intro hh; cases hh
        · rintro ⟨feats', back, h1, h2, _⟩
          cases h1
          rw [hb] at h2
          cases h2
      | ok back =>
        constructor
        · intro hh
          cases hh
          exact ⟨feats, back, rfl, hb, rfl, rfl, rfl⟩
        · rintro ⟨feats', back', h1, h2, rfl, rfl, rfl⟩
          cases h1
          rw [hb] at h2
          cases h2
          rfl

theorem mapM_append_ok {α β : Type} {f : α → Exec β} {xs ys : List α} {zs : List β} :
    (xs ++ ys).mapM f = .ok zs ↔ ∃ as bs, xs.mapM f = .ok as ∧ ys.mapM f = .ok bs ∧ zs = as ++ bs := by
  rw [List.mapM_append]
  constructor
  · intro h
    obtain ⟨as, h1, h⟩ := bind_ok h
    obtain ⟨bs, h2, h⟩ := bind_ok h
    cases h
    exact ⟨as, bs, h1, h2, rfl⟩
  · rintro ⟨as, bs, h1, h2, rfl⟩
    rw [h1, h2]
    rfl

/-- A whole stream succeeds exactly if the features of all its frames can be computed and acoustic model and decoder
take them one after the other: nothing is left of how the stream was cut. -/
theorem feed_stream (S : Sound r vm e L R c w) {b : Nat} (msg : Msg) : ∀ (cs : List (Mem F × List UInt8)) {k : Nat}
    {u : Utt F}, Good L R c k b u → (∀ p ∈ cs, p.2 ≠ [] ∧ p.2.length < 536870500) → ∀ (h : Handle F D) (msg' : Msg),
    feedApi cs (.ready r u) msg = .ok (h, msg') ↔
      ∃ feats back, (frames (u.wave ++ newSamples r b u (cs.map Prod.snd).flatten)).mapM (row r.fb) = .ok feats ∧
        feats.foldlM (backStep r) u.back = .ok back ∧
        h = .ready r (after r b u (cs.map Prod.snd).flatten back) ∧ msg' = msg
  | [], k, u, G, _, h, msg' => by
    have hs : newSamples r b u [] = [] := by
      unfold newSamples Spec.samples
      rw [List.append_nil, Nat.div_eq_of_lt G.buffer]
      rfl
    have hfr : frames u.wave = [] := by
      unfold frames; rw [G.wave]; rfl
    have ha : after r b u [] u.back = u := by
      unfold after leftover
      rw [hs, List.append_nil, List.append_nil, G.wave, Nat.div_eq_of_lt G.buffer]
      rfl
    unfold feedApi
    simp only [List.map_nil, List.flatten_nil]
    rw [hs, List.append_nil, hfr]
    constructor
    · intro hh
      cases hh
      exact ⟨[], u.back, rfl, rfl, by rw [ha], rfl⟩
    · rintro ⟨feats, back, h1, h2, rfl, rfl⟩
      cases h1
      cases h2
      rw [ha]
  | (mem, p) :: cs, k, u, G, hcs, h, msg' => by
    obtain ⟨h0, h1⟩ := hcs (mem, p) (by simp)
    have hb := G.width.pos
    obtain ⟨e1, e2⟩ := samples_split hb (u.reader.buffer ++ p) (cs.map Prod.snd).flatten
    have hns : ∀ back, newSamples r b u (p ++ (cs.map Prod.snd).flatten) =
        newSamples r b u p ++ newSamples r b (after r b u p back) (cs.map Prod.snd).flatten := by
      intro back
      unfold newSamples
      rw [← List.append_assoc, e1, List.map_append]
      rfl
    have hfs : ∀ back, frames (u.wave ++ newSamples r b u (p ++ (cs.map Prod.snd).flatten)) =
        frames (u.wave ++ newSamples r b u p) ++
          frames ((after r b u p back).wave ++ newSamples r b (after r b u p back) (cs.map Prod.snd).flatten) := by
      intro back
      rw [hns back, ← List.append_assoc, (Fbank.frames_split _ _).1]
      rfl
    have hff : ∀ back back', after r b u (p ++ (cs.map Prod.snd).flatten) back' =
        after r b (after r b u p back) (cs.map Prod.snd).flatten back' := by
      intro back back'
      unfold after
      simp only
      congr 1
      · rw [← List.append_assoc, e2]
      · have := (Fbank.frames_split (u.wave ++ newSamples r b u p)
          (newSamples r b (after r b u p back) (cs.map Prod.snd).flatten)).2
        rw [List.append_assoc, ← hns back] at this
        exact this
    rw [List.map_cons, List.flatten_cons]
    unfold feedApi
    constructor
    · intro hh
      obtain ⟨⟨n, h', m'⟩, g1, g2⟩ := bind_ok hh
      obtain ⟨feats, back, f1, f2, _, rfl, rfl⟩ := (process_piece S G mem msg h0 h1 n h' m').mp g1
      have G' := after_good S G p f1 f2
      obtain ⟨feats', back', f3, f4, rfl, rfl⟩ := (feed_stream S m' cs G' (fun q hq => hcs q (by simp [hq])) h msg').mp g2
      refine ⟨feats ++ feats', back', ?_, ?_, ?_, rfl⟩
      · rw [hfs back]
        exact mapM_append_ok.mpr ⟨feats, feats', f1, f3, rfl⟩
      · rw [List.foldlM_append, f2]
        exact f4
      · rw [hff back]
    · rintro ⟨feats, back, f1, f2, rfl, rfl⟩
      rw [hfs u.back] at f1
      obtain ⟨as, bs, a1, a2, rfl⟩ := mapM_append_ok.mp f1
      rw [List.foldlM_append] at f2
      obtain ⟨back1, b1, b2⟩ := bind_ok f2
      rw [(process_piece S G mem msg' h0 h1 (newSamples r b u p).length (.ready r (after r b u p back1)) msg').mpr
        ⟨as, back1, a1, b1, rfl, rfl, rfl⟩, ok_bind]
      have G' := after_good S G p a1 b1
      exact (feed_stream S msg' cs G' (fun q hq => hcs q (by simp [hq])) _ msg').mpr
        ⟨bs, back, a2, b2, by rw [hff back1], rfl⟩

end Verif.Stt
