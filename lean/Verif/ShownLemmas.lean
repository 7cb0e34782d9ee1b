import Verif.ShownSpec
import Verif.MainLemmas
import Verif.BeamLemmas

/-!
# Lemmas about what is shown while audio is being fed
-/

namespace Verif.Am

variable {F : Type}

/-- `k` frames are in, `p` of them have been scored. -/
def Count (L R c k p : Nat) (inst : Inst F) : Prop :=
  (k = 0 ∧ p = 0 ∧ inst = Inst.new) ∨
  (inst.started = true ∧ inst.feats.length = L + k - p ∧ p ≤ k ∧ c ∣ p ∧ (p = 0 ∨ p + R ≤ k) ∧ k < p + R + c)

theorem mapM_length {α β : Type} {f : α → Exec β} : ∀ {xs : List α} {ys : List β}, xs.mapM f = .ok ys →
    ys.length = xs.length
  | [], ys, h => by cases h; rfl
  | x :: xs, ys, h => by
    rw [List.mapM_cons] at h
    obtain ⟨y, _, h⟩ := bind_ok h
    obtain ⟨zs, hz, h⟩ := bind_ok h
    cases h
    rw [List.length_cons, List.length_cons, mapM_length hz]

theorem runBatch_length {o : Nnet.Ops F} {am : Model F} {inst : Inst F} {b : Int} {out rows : List (List F)}
    (h : runBatch o am inst b out = .ok rows) (hb : b ≠ 0) : (rows.length : Int) = b := by
  unfold runBatch at h
  rw [if_neg hb] at h
  obtain ⟨_, _, h⟩ := bind_ok h
  obtain ⟨_, _, h⟩ := bind_ok h
  obtain ⟨_, _, h⟩ := bind_ok h
  obtain ⟨_, _, h⟩ := bind_ok h
  obtain ⟨_, _, h⟩ := bind_ok h
  obtain ⟨_, _, h⟩ := bind_ok h
  obtain ⟨lp, _, h⟩ := bind_ok h
  obtain ⟨_, h1, h⟩ := bind_ok h
  rw [mapM_length h]
  by_contra hc
  rw [decide_eq_false hc] at h1
  cases h1

theorem i32_eq {x y : Int} (h : i32 x = .ok y) : y = x := by
  unfold i32 at h
  split at h
  · cases h; rfl
  · cases h

theorem popFront_length : ∀ {n : Nat} {fs gs : List (List F)}, popFront n fs = .ok gs → gs.length + n = fs.length
  | 0, fs, gs, h => by cases h; rfl
  | _ + 1, [], gs, h => by cases h
  | n + 1, _ :: fs, gs, h => by
    have := popFront_length (n := n) (fs := fs) h
    rw [List.length_cons]
    omega

/-- One frame. -/
theorem count_step {o : Nnet.Ops F} {am : Model F} {L R c : Nat} (hl : am.left = L) (hr : am.right = R)
    (hc : am.chunk = c) (h1 : 1 ≤ c) {k p : Nat} {inst inst' : Inst F} (hi : Count L R c k p inst) {f : List F}
    {out rows : List (List F)} (h : process o am inst f out = .ok (rows, inst')) :
    Count L R c (k + 1) (p + rows.length) inst' := by
  have he : (enter am inst f).started = true ∧ (enter am inst f).feats.length = L + (k + 1) - p ∧ p ≤ k ∧ c ∣ p ∧
      (p = 0 ∨ p + R ≤ k) ∧ k < p + R + c := by
    rcases hi with ⟨rfl, rfl, rfl⟩ | ⟨i1, i2, i3, i4, i5, i6⟩
    · refine ⟨rfl, ?_, Nat.le_refl _, ⟨0, rfl⟩, .inl rfl, by omega⟩
      show (appendFrame { appendTimes (Inst.new : Inst F) f am.left.toNat with started := true } f).feats.length = _
      have := (appendTimes_feats f am.left.toNat (Inst.new : Inst F))
      unfold appendFrame
      simp only [this]
      rw [hl]
      simp [Inst.new]
    · have hs : enter am inst f = appendFrame inst f := by
        unfold enter
        rw [i1]
        rfl
      rw [hs]
      refine ⟨i1, ?_, i3, i4, i5, i6⟩
      show (inst.feats ++ [f]).length = _
      rw [List.length_append, i2]
      simp only [List.length_cons, List.length_nil]
      omega
  obtain ⟨e1, e2, e3, e4, e5, e6⟩ := he
  unfold process at h
  obtain ⟨av, ha, h⟩ := bind_ok h
  unfold batchAvailable at ha
  obtain ⟨s, hs, ha⟩ := bind_ok ha
  obtain ⟨s', hs', ha⟩ := bind_ok ha
  cases ha
  have := i32_eq hs
  subst this
  have := i32_eq hs'
  subst this
  rw [hl, hr, hc, e2] at h
  by_cases hav : ((L + (k + 1) - p : Nat) : Int) ≥ (L : Int) + R + c
  · rw [decide_eq_true hav, if_pos rfl] at h
    obtain ⟨rows', g1, h⟩ := bind_ok h
    obtain ⟨fs, g2, h⟩ := bind_ok h
    cases h
    have hrows : rows.length = c := by
      unfold computeBatch at g1
      rw [if_neg (by omega)] at g1
      have := runBatch_length g1 (by omega)
      omega
    rw [Int.toNat_natCast] at g2
    have hpop := popFront_length g2
    rw [e2] at hpop
    rw [hrows]
    refine .inr ⟨e1, ?_, by omega, Nat.dvd_add e4 (Nat.dvd_refl _), .inr (by omega), by omega⟩
    show fs.length = _
    omega
  · rw [decide_eq_false hav, if_neg (by decide)] at h
    cases h
    rw [List.length_nil, Nat.add_zero]
    refine .inr ⟨e1, e2, by omega, e4, ?_, by omega⟩
    rcases e5 with e5 | e5
    · exact .inl e5
    · exact .inr (by omega)

theorem count_feed {o : Nnet.Ops F} {am : Model F} {L R c : Nat} (hl : am.left = L) (hr : am.right = R)
    (hc : am.chunk = c) (h1 : 1 ≤ c) : ∀ {fs : List (List (List F) × List F)} {k p : Nat} {inst inst' : Inst F}
    {rows : List (List F)}, Count L R c k p inst → feed o am inst fs = .ok (rows, inst') →
    Count L R c (k + fs.length) (p + rows.length) inst'
  | [], k, p, inst, inst', rows, hi, h => by cases h; exact hi
  | (out, f) :: fs, k, p, inst, inst', rows, hi, h => by
    unfold feed at h
    obtain ⟨⟨xs, i1⟩, g1, h⟩ := bind_ok h
    obtain ⟨⟨ys, i2⟩, g2, h⟩ := bind_ok h
    cases h
    have := count_feed hl hr hc h1 (count_step hl hr hc h1 hi g1) g2
    rw [List.length_cons, List.length_append, ← Nat.add_assoc p, show k + (fs.length + 1) = k + 1 + fs.length by omega]
    exact this

theorem Count.scored {L R c k p : Nat} {inst : Inst F} (h : Count L R c k p inst) (h1 : 1 ≤ c) :
    p = Stt.Spec.scoredFrames R c k := by
  unfold Stt.Spec.scoredFrames
  rcases h with ⟨rfl, rfl, _⟩ | ⟨_, _, _, ⟨q, rfl⟩, h5, h6⟩
  · rw [Nat.zero_sub, Nat.zero_div]; rfl
  · congr 1
    rcases h5 with h5 | h5
    · have : q = 0 := by
        rcases Nat.mul_eq_zero.1 h5 with h | h
        · omega
        · exact h
      subst this
      rw [Nat.div_eq_of_lt (by omega)]
    · symm
      apply Nat.div_eq_of_lt_le
      · rw [Nat.mul_comm]; omega
      · rw [Nat.mul_comm, Nat.mul_add]; omega

end Verif.Am

namespace Verif.Stt

open Verif Verif.Nnet.Spec Verif.Fbank.Spec Verif.Pcm Verif.Stt.Spec

variable {F D : Type} {r : Rec F D}

/-- A row of scores does not care what is in the buffer of the acoustic model. -/
theorem decodeRow_with {fill : Nat → UInt8} {b b' : Back F} {row : List F} (a : Am.Inst F)
    (h : decodeRow r fill b row = .ok b') : decodeRow r fill { b with am := a } row = .ok { b' with am := a } := by
  unfold decodeRow at h ⊢
  obtain ⟨⟨x, y, d⟩, h1, h⟩ := bind_ok h
  simp only at h1 h ⊢
  rw [h1, ok_bind]
  simp only
  split at h
  next ht =>
    rw [if_pos ht]
    unfold storeHyp at h ⊢
    obtain ⟨⟨ws, wt⟩, h2, h⟩ := bind_ok h
    obtain ⟨hyp, h3, h⟩ := bind_ok h
    cases h
    simp only at h2 h3 ⊢
    rw [h2, ok_bind]
    simp only
    rw [h3, ok_bind]
  next ht =>
    rw [if_neg ht]
    cases h
    rfl

theorem decodeRows_with {fill : Nat → UInt8} : ∀ {rows : List (List F)} {b b' : Back F} (a : Am.Inst F),
    rows.foldlM (decodeRow r fill) b = .ok b' → rows.foldlM (decodeRow r fill) { b with am := a } = .ok { b' with am := a }
  | [], b, b', a, h => by cases h; rfl
  | row :: rows, b, b', a, h => by
    rw [List.foldlM_cons] at h ⊢
    obtain ⟨b1, h1, h2⟩ := bind_ok h
    rw [decodeRow_with a h1]
    exact decodeRows_with a h2

/-- Frame by frame, with text in between. -/
theorem backSteps_shown : ∀ {fs : List (List F)} {b b' : Back F}, fs.foldlM (backStep r) b = .ok b' →
    ∃ rows, Am.feed r.nn r.am b.am (fs.map fun f => ([], f)) = .ok (rows, b'.am) ∧
      rows.foldlM (decodeRow r zeros) b = .ok { b' with am := b.am }
  | [], b, b', h => by cases h; exact ⟨[], rfl, rfl⟩
  | f :: fs, b, b', h => by
    rw [List.foldlM_cons] at h
    obtain ⟨b1, h1, h2⟩ := bind_ok h
    obtain ⟨rows, h3, h4⟩ := backSteps_shown h2
    unfold backStep at h1
    obtain ⟨⟨xs, inst⟩, h5, h6⟩ := bind_ok h1
    have h7 := decodeRows_am h6
    have h8 := decodeRows_with b.am h6
    refine ⟨xs ++ rows, ?_, ?_⟩
    · rw [List.map_cons, Am.feed, h5, ok_bind]
      simp only at h7 ⊢
      rw [← h7, h3]
      rfl
    · rw [List.foldlM_append]
      simp only at h8
      rw [h8]
      exact decodeRows_with (b' := { b' with am := b1.am }) b.am h4

/-- What is on show after some rows. -/
theorem shown_rows {d0 : Decoder.Dec F} (h0 : Decoder.initDecoder r.dec r.fuel Decoder.fresh = .ok d0) (a : Am.Inst F)
    (rows : List (List F)) : ∀ {b : Back F}, rows.foldlM (decodeRow r zeros) ⟨a, d0, [0], r.zero⟩ = .ok b →
    (∃ bs cs, Decoder.Run r.dec rows bs cs b.dec) ∧ Shown r rows b.hyp b.ll := by
  induction rows using List.reverseRecOn with
  | nil =>
    intro b h
    cases h
    exact ⟨⟨_, _, .init h0⟩, fun _ => ⟨rfl, rfl⟩, fun i d ht => absurd ht.2.1 (by have := ht.1; simp; omega)⟩
  | append_singleton rows row ih =>
    intro b h
    rw [List.foldlM_append] at h
    obtain ⟨b1, h1, h2⟩ := bind_ok h
    obtain ⟨⟨bs, cs, hr⟩, hs⟩ := ih h1
    have h2 : decodeRow r zeros b1 row = .ok b := by
      rw [List.foldlM_cons] at h2
      obtain ⟨b2, g1, g2⟩ := bind_ok h2
      cases g2
      exact g1
    unfold decodeRow at h2
    obtain ⟨⟨x, y, d⟩, g1, g2⟩ := bind_ok h2
    simp only at g1 g2
    have hrun : Decoder.Run r.dec (rows ++ [row]) (bs ++ [x]) (cs ++ [y]) d := .frame hr g1
    have hlen : (rows ++ [row]).length = rows.length + 1 := by simp
    have hold : ∀ i d', i ≤ rows.length → (Tick r.dec (rows ++ [row]) i d' ↔ Tick r.dec rows i d') := by
      intro i d' hi
      unfold Tick
      rw [List.take_append_of_le_length hi, hlen]
      constructor
      · rintro ⟨t1, t2, t3, t4⟩; exact ⟨t1, hi, t3, t4⟩
      · rintro ⟨t1, t2, t3, t4⟩; exact ⟨t1, by omega, t3, t4⟩
    have hnew : ∀ d', Tick r.dec (rows ++ [row]) (rows.length + 1) d' → d' = d := by
      rintro d' ⟨_, _, _, bs', cs', hr'⟩
      rw [List.take_of_length_le (by omega)] at hr'
      exact ((Decoder.Beam.run_unique hr' hrun).2.2)
    by_cases ht : d.frames % 20 = 0
    · rw [if_pos ht] at g2
      have htick : Tick r.dec (rows ++ [row]) (rows.length + 1) d :=
        ⟨by omega, by omega, ht, bs ++ [x], cs ++ [y], by rw [List.take_of_length_le (by omega)]; exact hrun⟩
      unfold storeHyp at g2
      obtain ⟨⟨ws, wt⟩, k1, g2⟩ := bind_ok g2
      obtain ⟨hyp, k2, g2⟩ := bind_ok g2
      cases g2
      simp only at k1 k2 ⊢
      refine ⟨⟨_, _, hrun⟩, fun hn => absurd htick (hn _ _), fun i d' hi hmax => ?_⟩
      have hil : i = rows.length + 1 := by
        have := hmax _ _ htick
        have := hi.2.1
        omega
      subst hil
      rw [hnew d' hi]
      obtain ⟨vs, w1, w2, _⟩ := Main.storeHypText_ok k2
      refine ⟨ws, wt, vs, k1, w1, w2, fun hne => ?_⟩
      cases ws with
      | nil => exact absurd rfl hne
      | cons _ _ => rfl
    · rw [if_neg ht] at g2
      cases g2
      have hno : ∀ d', ¬ Tick r.dec (rows ++ [row]) (rows.length + 1) d' := fun d' h' => by
        have := hnew d' h'
        subst this
        exact ht h'.2.2.1
      have hle : ∀ i d', Tick r.dec (rows ++ [row]) i d' → i ≤ rows.length := by
        intro i d' h'
        by_contra hc
        have := h'.2.1
        have hi : i = rows.length + 1 := by omega
        subst hi
        exact hno d' h'
      refine ⟨⟨_, _, hrun⟩, fun hn => hs.1 fun i d' h' => hn i d' ((hold i d' h'.2.1).2 h'), fun i d' h' hmax => ?_⟩
      have hi := hle i d' h'
      exact hs.2 i d' ((hold i d' hi).1 h') fun j d2 hj => hmax j d2 ((hold j d2 hj.2.1).2 hj)

/-- Calls with results are calls. -/
theorem Fed.feed : ∀ {ps : List (List UInt8)} {ns : List Int} {h h' : Handle F D} {m m' : Msg}, Fed ps ns h m h' m' →
    ∃ cs : List (Mem F × List UInt8), cs.map Prod.snd = ps ∧ feedApi cs h m = .ok (h', m') := by
  intro ps ns h h' m m' hf
  induction hf with
  | nil => exact ⟨[], rfl, rfl⟩
  | @cons p ps n ns h h1 h2 m m1 m2 mem hp _ ih =>
    obtain ⟨cs, e1, e2⟩ := ih
    refine ⟨(mem, p) :: cs, by rw [List.map_cons, e1], ?_⟩
    unfold feedApi
    rw [hp, ok_bind]
    exact e2

/-- The return values add up to the samples heard. -/
theorem Fed.sum {vm : List F → List (List F) → List F} {e L R c w b : Nat} (S : Sound r vm e L R c w) :
    ∀ {ps : List (List UInt8)} {ns : List Int} {h h' : Handle F D} {m m' : Msg}, Fed ps ns h m h' m' →
    (∀ p ∈ ps, p ≠ [] ∧ p.length < 536870500) → ∀ {k : Nat} {u : Utt F}, h = .ready r u → Good L R c k b u →
    ns.sum = ((u.reader.buffer ++ ps.flatten).length / b : Nat) := by
  intro ps ns h h' m m' hf
  induction hf with
  | nil =>
    intro _ k u hu G
    rw [List.flatten_nil, List.append_nil, Nat.div_eq_of_lt G.buffer]
    rfl
  | @cons p ps n ns h h1 h2 m m1 m2 mem hp _ ih =>
    intro hps k u hu G
    subst hu
    obtain ⟨q0, q1⟩ := hps p (by simp)
    obtain ⟨feats, back, f1, f2, rfl, rfl, rfl⟩ := (process_piece S G mem m q0 q1 n h1 m1).mp hp
    have := ih (fun q hq => hps q (by simp [hq])) rfl (after_good S G p f1 f2)
    have hb : 0 < b := G.width.pos
    rw [List.sum_cons, this, List.flatten_cons, ← List.append_assoc]
    have hl : ((after r b u p back).reader.buffer).length = (u.reader.buffer ++ p).length % b := by
      show (leftover b (u.reader.buffer ++ p)).length = _
      exact leftover_length ..
    have hn : (newSamples r b u p).length = (u.reader.buffer ++ p).length / b := by
      unfold newSamples Pcm.Spec.samples
      rw [List.length_map, List.length_map, List.length_range]
    rw [hn, List.length_append (as := (after r b u p back).reader.buffer), hl,
      List.length_append (as := u.reader.buffer ++ p)]
    generalize (u.reader.buffer ++ p).length = x
    generalize ps.flatten.length = y
    have : x / b + (x % b + y) / b = (x + y) / b := by
      conv => rhs; rw [← Nat.div_add_mod x b]
      rw [Nat.add_assoc, Nat.mul_add_div hb]
    rw [← this]
    rfl

/-- While every frame is reported as processed the decoder counts them. -/
theorem run_frames {e : Decoder.Env F D} {fs : List (List F)} {bs : List Bool}
    {cs : List (Option (Decoder.Cutoffs F D))} {d : Decoder.Dec F} (h : Decoder.Run e fs bs cs d)
    (hb : ∀ b ∈ bs, b = true) : d.frames = fs.length := by
  rw [(Decoder.Run.inv h).frames, (List.filter_eq_self (p := id)).2 hb]
  clear hb
  induction h with
  | init => rfl
  | frame _ _ ih => simp [ih]

end Verif.Stt
