import Verif.MdecValue
import Verif.DecoderPaths

/-!
# Runs of the decoder with its memory
-/

set_option linter.unusedSectionVars false
set_option linter.unusedVariables false

namespace Verif.Mdec

open Verif Verif.Fst Verif.Decoder
open Verif.Pool (Addr ArenaInv)
open Verif.Gc (GInv GoodH Hist)

variable {F D : Type}

/-! ## Index and tokens grow together -/

/-- Entries of the index without a token. -/
def lag (d : Dec F) : Int := (d.idx.length : Int) - d.toks.length

theorem insertTok_lag {e : Env F D} {d : Dec F} {st : State} {label : Int} {hist : List Int} {cost : F}
    {r : Bool × Dec F} (h : Decoder.insertTok e d st label hist cost = .ok r) : lag r.2 = lag d := by
  unfold Decoder.insertTok at h
  simp only at h
  split at h
  · cases h; simp only [lag, List.length_cons, List.length_append, List.length_nil]; push_cast; omega
  · split at h
    · cases h
    · split at h <;> cases h <;> simp [lag]

theorem nonemitArc_lag {e : Env F D} {i : Nat} {cutoff : D} {acc r : Dec F × List State} {arc : GArc F}
    (h : Decoder.nonemitArc e i cutoff acc arc = .ok r) : lag r.1 = lag acc.1 := by
  obtain ⟨d, stack⟩ := acc
  unfold Decoder.nonemitArc at h
  simp only at h
  split at h
  · cases h; rfl
  · split at h
    · cases h
    · obtain ⟨⟨l, t⟩, _, h⟩ := bind_ok h
      simp only at h
      split at h
      · cases h; rfl
      · obtain ⟨⟨ins, d'⟩, h1, h⟩ := bind_ok h
        cases h
        exact insertTok_lag h1

theorem nonemitLoop_lag {e : Env F D} {cutoff : D} : ∀ (fuel : Nat) {h h' : Dec F} {stack : List State},
    Decoder.nonemitLoop e cutoff fuel h stack = .ok h' → lag h' = lag h
  | 0, h, h', [], hh => by unfold Decoder.nonemitLoop at hh; cases hh; rfl
  | 0, h, h', _ :: _, hh => by unfold Decoder.nonemitLoop at hh; cases hh
  | fuel + 1, h, h', [], hh => by unfold Decoder.nonemitLoop at hh; cases hh; rfl
  | fuel + 1, h, h', st :: stack, hh => by
    unfold Decoder.nonemitLoop at hh
    split at hh
    · cases hh
    · obtain ⟨⟨h1, s1⟩, g1, hh⟩ := bind_ok hh
      rw [nonemitLoop_lag fuel hh]
      exact foldlM_keep (P := fun a : Dec F × List State => lag a.1) _ (fun a x a' _ hx => nonemitArc_lag hx) _ _ g1

theorem processNonemitting_lag {e : Env F D} {cutoff : D} {fuel : Nat} {h h' : Dec F}
    (hh : Decoder.processNonemitting e cutoff fuel h = .ok h') : lag h' = lag h := by
  unfold Decoder.processNonemitting at hh
  obtain ⟨_, _, hh⟩ := bind_ok hh
  exact nonemitLoop_lag fuel hh

theorem emitArc_lag {e : Env F D} {frame : List F} {ab : F} {tok : Token F} {acc r : D × Dec F} {arc : GArc F}
    (h : Decoder.emitArc e frame ab tok acc arc = .ok r) : lag r.2 = lag acc.2 := by
  obtain ⟨nwc, d⟩ := acc
  unfold Decoder.emitArc at h
  simp only at h
  split at h
  · cases h; rfl
  · obtain ⟨t, _, h⟩ := bind_ok h
    split at h
    · cases h; rfl
    · obtain ⟨⟨l, t'⟩, _, h⟩ := bind_ok h
      obtain ⟨_, _, h⟩ := bind_ok h
      obtain ⟨⟨ins, d'⟩, h1, h⟩ := bind_ok h
      cases h
      exact insertTok_lag h1

theorem emitTok_lag {e : Env F D} {frame : List F} {wc ab : F} {tok : Token F} {acc r : D × Dec F}
    (h : Decoder.emitTok e frame wc ab acc tok = .ok r) : lag r.2 = lag acc.2 := by
  unfold Decoder.emitTok at h
  split at h
  · cases h; rfl
  · obtain ⟨⟨n, d⟩, h1, h⟩ := bind_ok h
    have := foldlM_keep (P := fun a : D × Dec F => lag a.2) _ (fun a x a' _ hx => emitArc_lag hx) _ _ h1
    cases h
    exact this

theorem processEmitting_lag {e : Env F D} {frame : List F} {d : Dec F} {r : Option (Cutoffs F D) × Dec F}
    (hp : d.prev = []) (h : Decoder.processEmitting e frame d = .ok r) : lag r.2 = 0 := by
  unfold Decoder.processEmitting at h
  simp only at h
  obtain ⟨⟨cut, ab, best⟩, _, h⟩ := bind_ok h
  simp only at h
  split at h
  · cases h; simp [lag, hp]
  · obtain ⟨nwc, _, h⟩ := bind_ok h
    obtain ⟨⟨n1, d1⟩, h1, h⟩ := bind_ok h
    have := foldlM_keep (P := fun a : D × Dec F => lag a.2) _ (fun a x a' _ hx => emitTok_lag hx) _ _ h1
    cases h
    show lag d1 = 0
    rw [this]
    simp [lag, hp]

/-- The index has one entry per active token. -/
theorem run_lag {e : Env F D} {fs : List (List F)} {bs : List Bool} {cs : List (Option (Cutoffs F D))} {d : Dec F}
    (h : Run e fs bs cs d) : lag d = 0 := by
  induction h with
  | @init fuel d h =>
    unfold Decoder.initDecoder at h
    obtain ⟨_, _, h⟩ := bind_ok h
    obtain ⟨ls, _, h⟩ := bind_ok h
    obtain ⟨⟨ins, d1⟩, h1, h⟩ := bind_ok h
    rw [processNonemitting_lag h]
    exact insertTok_lag h1
  | @frame fs bs cs d d' fuel f b c hr h ih =>
    have hne : d.toks ≠ [] := by
      intro h0
      rw [process_nil h0] at h
      cases h
    have hp : d.prev = [] := by
      rcases hr.inv.prev with h | h
      · exact h
      · exact absurd h hne
    obtain ⟨d1, h1, h⟩ := process_cases h
    have hl : lag d1 = 0 := processEmitting_lag hp h1
    rcases h with ⟨_, _, rfl⟩ | ⟨c', _, ⟨_, _, rfl⟩ | ⟨_, d2, h2, ⟨_, _, rfl⟩ | ⟨_, _, rfl⟩⟩⟩
    · exact hl
    · exact hl
    · rw [processNonemitting_lag h2]; exact hl
    · show lag d2 = 0
      rw [processNonemitting_lag h2]; exact hl

theorem run_idx {e : Env F D} {fs : List (List F)} {bs : List Bool} {cs : List (Option (Cutoffs F D))} {d : Dec F}
    (h : Run e fs bs cs d) : d.idx.length = d.toks.length := by
  have := run_lag h
  unfold lag at this
  omega

theorem run_length {e : Env F D} {fs : List (List F)} {bs : List Bool} {cs : List (Option (Cutoffs F D))} {d : Dec F}
    (h : Run e fs bs cs d) : bs.length = fs.length := by
  induction h with
  | init => rfl
  | frame _ _ ih => simp [ih]

theorem run_frames {e : Env F D} {fs : List (List F)} {bs : List Bool} {cs : List (Option (Cutoffs F D))} {d : Dec F}
    (h : Run e fs bs cs d) : d.frames ≤ fs.length := by
  rw [h.inv.frames, ← run_length h]
  exact List.length_filter_le _ _

/-! ## Marks -/

/-- No node is marked. -/
def NoMarks (w : Gc.GPool) : Prop := ∀ a, ¬ Gc.IsMarked w.mem a

theorem extend_noMarks {w w' : Gc.GPool} {o o' : Option Addr} {label : Int} (h : NoMarks w)
    (he : Gc.extend blockSize w o label = .ok (w', o')) : NoMarks w' := by
  refine Gc.run_noGc (B := blockSize) [.extend 0 label] w w' [o] [o, o'] h ?_ (by simp)
  rw [Gc.run_cons]
  show ((aget [o] (0 : Int) >>= fun x => Gc.extend blockSize w x label >>= fun r => .ok (r.1, [o] ++ [r.2])) >>= _) = _
  have : aget [o] (0 : Int) = .ok o := rfl
  rw [this, ok_bind, he]
  rfl

theorem fresh_of_noMarks {w : Gc.GPool} (h : NoMarks w) : Gc.Fresh w := fun n hn hm => h _ ⟨n, hn, hm⟩

theorem insertTok_noMarks {e : Env F D} {h : Mid.Half F} {st : State} {label : Int} {o : Option Addr} {cost : F}
    {r : Bool × Mid.Half F} (hn : NoMarks h.words) (hr : Mid.insertTok e h st label o cost = .ok r) :
    NoMarks r.2.words := by
  unfold Mid.insertTok at hr
  obtain ⟨⟨w, x⟩, h1, hr⟩ := bind_ok hr
  have := extend_noMarks hn h1
  simp only at hr
  split at hr
  · cases hr; exact this
  · split at hr
    · cases hr
    · split at hr <;> cases hr <;> exact this

theorem foldlM_hold {α γ : Type} {g : α → γ → Exec α} {P : α → Prop} : ∀ (l : List γ),
    (∀ a x a', P a → g a x = .ok a' → P a') → ∀ a a', P a → l.foldlM g a = .ok a' → P a'
  | [], _, a, a', hP, h => by cases (by simpa [pure, Except.pure] using h : a = a'); exact hP
  | x :: l, hs, a, a', hP, h => by
    rw [List.foldlM_cons] at h
    obtain ⟨a1, h1, h⟩ := bind_ok h
    exact foldlM_hold l hs _ _ (hs a x a1 hP h1) h

theorem nonemitArc_noMarks {e : Env F D} {i : Nat} {cutoff : D} {acc r : Mid.Half F × List State} {arc : GArc F}
    (hn : NoMarks acc.1.words) (h : Mid.nonemitArc e i cutoff acc arc = .ok r) : NoMarks r.1.words := by
  obtain ⟨d, stack⟩ := acc
  unfold Mid.nonemitArc at h
  simp only at h
  split at h
  · cases h; exact hn
  · split at h
    · cases h
    · obtain ⟨⟨l, t⟩, _, h⟩ := bind_ok h
      simp only at h
      split at h
      · cases h; exact hn
      · obtain ⟨⟨ins, d'⟩, h1, h⟩ := bind_ok h
        cases h
        exact insertTok_noMarks hn h1

theorem nonemitLoop_noMarks {e : Env F D} {cutoff : D} : ∀ (fuel : Nat) {h h' : Mid.Half F} {stack : List State},
    NoMarks h.words → Mid.nonemitLoop e cutoff fuel h stack = .ok h' → NoMarks h'.words
  | 0, h, h', [], hn, hh => by unfold Mid.nonemitLoop at hh; cases hh; exact hn
  | 0, h, h', _ :: _, hn, hh => by unfold Mid.nonemitLoop at hh; cases hh
  | fuel + 1, h, h', [], hn, hh => by unfold Mid.nonemitLoop at hh; cases hh; exact hn
  | fuel + 1, h, h', st :: stack, hn, hh => by
    unfold Mid.nonemitLoop at hh
    split at hh
    · cases hh
    · obtain ⟨⟨h1, s1⟩, g1, hh⟩ := bind_ok hh
      exact nonemitLoop_noMarks fuel (foldlM_hold (P := fun a : Mid.Half F × List State => NoMarks a.1.words) _
        (fun a x a' ha hx => nonemitArc_noMarks ha hx) (h, stack) (h1, s1) hn g1) hh

theorem processNonemitting_noMarks {e : Env F D} {cutoff : D} {fuel : Nat} {h h' : Mid.Half F} (hn : NoMarks h.words)
    (hh : Mid.processNonemitting e cutoff fuel h = .ok h') : NoMarks h'.words := by
  unfold Mid.processNonemitting at hh
  obtain ⟨_, _, hh⟩ := bind_ok hh
  exact nonemitLoop_noMarks fuel hn hh

theorem emitArc_noMarks {e : Env F D} {frame : List F} {ab : F} {tok : Tok F} {acc r : D × Mid.Half F} {arc : GArc F}
    (hn : NoMarks acc.2.words) (h : Mid.emitArc e frame ab tok acc arc = .ok r) : NoMarks r.2.words := by
  obtain ⟨nwc, d⟩ := acc
  unfold Mid.emitArc at h
  simp only at h
  split at h
  · cases h; exact hn
  · obtain ⟨t, _, h⟩ := bind_ok h
    split at h
    · cases h; exact hn
    · obtain ⟨⟨l, t'⟩, _, h⟩ := bind_ok h
      obtain ⟨_, _, h⟩ := bind_ok h
      obtain ⟨⟨ins, d'⟩, h1, h⟩ := bind_ok h
      cases h
      exact insertTok_noMarks hn h1

theorem emitTok_noMarks {e : Env F D} {frame : List F} {wc ab : F} {tok : Tok F} {acc r : D × Mid.Half F}
    (hn : NoMarks acc.2.words) (h : Mid.emitTok e frame wc ab acc tok = .ok r) : NoMarks r.2.words := by
  unfold Mid.emitTok at h
  split at h
  · cases h; exact hn
  · obtain ⟨⟨n, d⟩, h1, h⟩ := bind_ok h
    have := foldlM_hold (P := fun a : D × Mid.Half F => NoMarks a.2.words) _
      (fun a x a' ha hx => emitArc_noMarks ha hx) _ _ hn h1
    cases h
    exact this

theorem processEmitting_noMarks {e : Env F D} {frame : List F} {h : Mid.Half F} {r : Option (Cutoffs F D) × Mid.Half F}
    (hn : NoMarks h.words) (hr : Mid.processEmitting e frame h = .ok r) : NoMarks r.2.words := by
  unfold Mid.processEmitting at hr
  simp only at hr
  obtain ⟨⟨cut, ab, best⟩, _, hr⟩ := bind_ok hr
  simp only at hr
  split at hr
  · cases hr; exact hn
  · obtain ⟨nwc, _, hr⟩ := bind_ok hr
    obtain ⟨⟨n1, d1⟩, h1, hr⟩ := bind_ok hr
    have := foldlM_hold (P := fun a : D × Mid.Half F => NoMarks a.2.words) _
      (fun a x a' ha hx => emitTok_noMarks ha hx)
      (nwc, { h with idx := [], toks := h.prev, prev := h.toks }) (n1, d1) hn h1
    cases hr
    exact this

theorem propagate_noMarks {e : Env F D} {fuel : Nat} {frame : List F} {h : Mid.Half F}
    {r : Bool × Option (Cutoffs F D) × Mid.Half F} (hn : NoMarks h.words)
    (hr : Mid.propagate e fuel frame h = .ok r) : NoMarks r.2.2.words := by
  unfold Mid.propagate at hr
  obtain ⟨⟨c, h1⟩, g1, hr⟩ := bind_ok hr
  have hn1 := processEmitting_noMarks hn g1
  cases c with
  | none => cases hr; exact hn1
  | some c =>
    simp only at hr
    split at hr
    · cases hr; exact hn1
    · obtain ⟨h2, g2, hr⟩ := bind_ok hr
      have := processNonemitting_noMarks hn1 g2
      split at hr <;> cases hr <;> exact this

theorem unmarkAll_noMarks : ∀ (as : List Addr) (m m' : Gc.Mem), (∀ a, ¬ Gc.IsMarked m a) →
    Gc.unmarkAll as m = .ok m' → ∀ a, ¬ Gc.IsMarked m' a
  | [], m, m', hn, h => by cases h; exact hn
  | a :: as, m, m', hn, h => by
    unfold Gc.unmarkAll at h
    obtain ⟨n, hn1, h⟩ := bind_ok h
    refine unmarkAll_noMarks as _ m' ?_ h
    split
    · exact hn
    · rintro b ⟨k, h1, h2⟩
      by_cases e : b = a
      · subst e; rw [Gc.set_same] at h1; cases h1; cases h2
      · rw [Gc.set_other _ _ e] at h1; exact hn b ⟨k, h1, h2⟩

theorem rawNode_ok {m : Gc.Mem} {a : Addr} {n : Gc.Node} (h : Gc.rawNode m a = .ok n) : m a = some n := by
  unfold Gc.rawNode at h
  split at h
  · cases h
  · rename_i k hk; cases h; exact hk

theorem collect_noMarks {m m' : Gc.Mem} {a : Addr} {n : Gc.Node} (hn : ∀ a, ¬ Gc.IsMarked m a) (ha : m a = some n)
    (h : Gc.collect m a n = .ok m') : ∀ a, ¬ Gc.IsMarked m' a := by
  unfold Gc.collect at h
  simp only at h
  obtain ⟨m2, h1, h⟩ := bind_ok h
  cases h
  have hm1 : ∀ b, ¬ Gc.IsMarked (m.set a { n with nexts := [] }) b := by
    rintro b ⟨k, g1, g2⟩
    by_cases e : b = a
    · subst e; rw [Gc.set_same] at g1; cases g1; exact hn b ⟨n, ha, g2⟩
    · rw [Gc.set_other _ _ e] at g1; exact hn b ⟨k, g1, g2⟩
  have hm2 : ∀ b, ¬ Gc.IsMarked m2 b := by
    unfold Gc.eraseFromPrevious at h1
    split at h1
    · cases h1; exact hm1
    · rename_i p _
      obtain ⟨k, hk, h1⟩ := bind_ok h1
      have hk := rawNode_ok hk
      have h1 := Except.ok.inj h1
      subst h1
      split
      · exact hm1
      · rintro b ⟨j, g1, g2⟩
        by_cases e : b = p
        · subst e; rw [Gc.set_same] at g1; cases g1; exact hm1 b ⟨k, hk, g2⟩
        · rw [Gc.set_other _ _ e] at g1; exact hm1 b ⟨j, g1, g2⟩
  rintro b ⟨k, g1, g2⟩
  by_cases e : b = a
  · subst e; rw [Gc.set_same] at g1; cases g1; cases g2
  · rw [Gc.set_other _ _ e] at g1; exact hm2 b ⟨k, g1, g2⟩

theorem sweep_noMarks : ∀ (as : List Addr) (m m' : Gc.Mem) (fs : List Addr), (∀ a, ¬ Gc.IsMarked m a) →
    Gc.sweep as m = .ok (m', fs) → ∀ a, ¬ Gc.IsMarked m' a
  | [], m, m', fs, hn, h => by cases h; exact hn
  | a :: as, m, m', fs, hn, h => by
    unfold Gc.sweep at h
    obtain ⟨n, h1, h⟩ := bind_ok h
    split at h
    · exact sweep_noMarks as m m' fs hn h
    · obtain ⟨m1, h2, h⟩ := bind_ok h
      obtain ⟨⟨m2, fs2⟩, h3, h⟩ := bind_ok h
      cases h
      exact sweep_noMarks as m1 _ fs2 (collect_noMarks hn (rawNode_ok h1) h2) h3

/-- A collection without roots leaves no mark. -/
theorem gc_noMarks {w w' : Gc.GPool} (hn : NoMarks w) (h : Gc.gc blockSize w [] = .ok w') : NoMarks w' := by
  unfold Gc.gc at h
  simp only at h
  obtain ⟨m1, h1, h⟩ := bind_ok h
  obtain ⟨m2, h2, h⟩ := bind_ok h
  obtain ⟨⟨m3, fs⟩, h3, h⟩ := bind_ok h
  cases h
  have e2 : m2 = m1 := by
    unfold Gc.markLoop at h2
    simp only [List.reverse_nil] at h2
    cases h2
    rfl
  rw [e2] at h3
  exact sweep_noMarks _ _ _ _ (unmarkAll_noMarks _ _ _ hn h1) h3

/-! ## One frame -/

theorem noStale_iff {e : Env F D} {bd : Prop} {m : Mem F} {h : Mid.Half F} (r : Full e bd m h) :
    NoStale m ↔ (h.frames % 20 = 0 → Gc.Fresh h.words) := by
  unfold NoStale
  rw [r.frames, r.words]
  have : (20 : Int) ∣ (h.frames : Int) ↔ h.frames % 20 = 0 := by omega
  rw [this]

/-- The frames of the two decoders, read off the decoder with memory. -/
theorem step_fwd {e : Env F D} (hlab : LmLabels e) {m m' : Mem F} {h : Mid.Half F} {d : Dec F}
    (r : Full e False m h) (v : VFull h d) {fuel : Nat} {f : List F} {b : Bool} {c : Option (Cutoffs F D)}
    (hp : process e fuel f m = .ok (b, c, m'))
    (hc : ∀ m1, propagate e fuel f m = .ok (true, c, m1) → NoStale m1) :
    ∃ h' d', Mid.process e fuel f h = .ok (b, c, h') ∧ Decoder.process e fuel f d = .ok (b, c, d') ∧
      Full e False m' h' ∧ VFull h' d' := by
  unfold process at hp
  obtain ⟨⟨b1, c1, m1⟩, hp1, hp⟩ := bind_ok hp
  obtain ⟨⟨b2, c2, h1⟩, q1, e1, e2, r1⟩ := (propagate_sim hlab fuel f r False.elim).fwd _ hp1
  obtain ⟨⟨b3, c3, d1⟩, q2, e3, e4, v1⟩ := (propagate_both fuel f v).fwd _ q1
  simp only at e1 e2 e3 e4 r1 v1
  subst e1 e2 e3 e4
  unfold Mid.process
  rw [process_eq, q1, q2, ok_bind, ok_bind]
  cases b1 with
  | false =>
    cases hp
    exact ⟨h1, d1, rfl, rfl, r1, v1⟩
  | true =>
    simp only [if_true] at hp ⊢
    obtain ⟨m2, hf, hp⟩ := bind_ok hp
    cases hp
    obtain ⟨h2, g1, g2, _, _⟩ := finish_spec v1 (propagate_prev q1 rfl) ((noStale_iff r1).mp (hc m1 hp1))
    obtain ⟨h3, g3, g4⟩ := (finish_sim r1).fwd _ hf
    rw [g1] at g3
    cases g3
    rw [g1]
    exact ⟨h2, _, rfl, rfl, g4, g2⟩

/-- The frames of the two decoders, read off the decoder with values. -/
theorem step_bwd {e : Env F D} (hlab : LmLabels e) {m : Mem F} {h : Mid.Half F} {d d' : Dec F} (r : Full e True m h)
    (v : VFull h d) (hF : Fits h) {fuel : Nat} {f : List F} {b : Bool} {c : Option (Cutoffs F D)}
    (hp : Decoder.process e fuel f d = .ok (b, c, d')) (hi : d'.idx.length ≤ 46338)
    (hfr : d'.frames ≤ 2147483647) :
    (∃ c1 m1, propagate e fuel f m = .ok (true, c1, m1) ∧ ¬ NoStale m1) ∨
    ∃ m' h', process e fuel f m = .ok (b, c, m') ∧
      (∀ m1, propagate e fuel f m = .ok (true, c, m1) → NoStale m1) ∧ Full e True m' h' ∧ VFull h' d' := by
  rw [process_eq] at hp
  obtain ⟨⟨b1, c1, d1⟩, q2, hp⟩ := bind_ok hp
  obtain ⟨⟨b2, c2, h1⟩, q1⟩ := (propagate_both fuel f v).bwd trivial _ q2 trivial
  obtain ⟨x, q2', e1, e2, v1⟩ := (propagate_both fuel f v).fwd _ q1
  rw [q2] at q2'
  cases q2'
  simp only at e1 e2 v1
  subst e1 e2
  have hF1 : Fits h1 := by
    unfold Fits
    rw [v1.idx]
    unfold vfinish at hp
    cases b2 <;> cases hp <;> exact hi
  obtain ⟨⟨b3, c3, m1⟩, q3⟩ := (propagate_sim hlab fuel f r (fun _ => hF)).bwd trivial _ q1 hF1
  obtain ⟨x, q1', e1, e2, r1⟩ := (propagate_sim hlab fuel f r (fun _ => hF)).fwd _ q3
  rw [q1] at q1'
  cases q1'
  simp only at e1 e2 r1
  subst e1 e2
  cases b3 with
  | false =>
    right
    cases hp
    refine ⟨m1, h1, ?_, ?_, r1, v1⟩
    · unfold process
      rw [q3]
      rfl
    · intro m2 hm2
      rw [q3] at hm2
      cases hm2
  | true =>
    by_cases hst : NoStale m1
    · right
      obtain ⟨h2, g1, g2, _, g3⟩ := finish_spec v1 (propagate_prev q1 rfl) ((noStale_iff r1).mp hst)
      unfold vfinish at hp
      simp only [if_true] at hp
      have hp := Except.ok.inj hp
      obtain ⟨hb, hp⟩ := Prod.mk.inj hp
      obtain ⟨hc, hd⟩ := Prod.mk.inj hp
      subst hd
      subst hc
      obtain ⟨m2, g4⟩ := (finish_sim r1).bwd trivial h2 g1 (by
        unfold Counts
        rw [g3, v1.frames]
        exact hfr)
      obtain ⟨h3, g5, g6⟩ := (finish_sim r1).fwd m2 g4
      rw [g1] at g5
      cases g5
      refine ⟨m2, h2, ?_, ?_, g6, g2⟩
      · unfold process
        rw [q3, ok_bind]
        simp only [if_true]
        rw [g4, ok_bind, hb]
      · intro m3 hm3
        rw [q3] at hm3
        cases hm3
        exact hst
    · exact .inl ⟨_, _, q3, hst⟩

/-! ## Runs -/

theorem init_fwd {e : Env F D} (hlab : LmLabels e) {fuel : Nat} {m0 m : Mem F} (h0 : new = .ok m0)
    (h1 : initDecoder e fuel m0 = .ok m) :
    ∃ h d, Mid.initDecoder e fuel Mid.fresh = .ok h ∧ Decoder.initDecoder e fuel Decoder.fresh = .ok d ∧
      Full e False m h ∧ VFull h d := by
  obtain ⟨m0', g1, g2⟩ := new_full e False False.elim
  rw [h0] at g1
  cases g1
  have hm : m0.toks = [] ∧ m0.prev = [] := by
    unfold new at h0
    obtain ⟨t, _, h0⟩ := bind_ok h0
    cases h0
    exact ⟨rfl, rfl⟩
  obtain ⟨h, g3, g4⟩ := (initDecoder_sim hlab fuel g2 hm).fwd m h1
  obtain ⟨d, g5, g6⟩ := (initDecoder_both fuel).fwd h g3
  exact ⟨h, d, g3, g5, g4, g6⟩

theorem init_bwd {e : Env F D} (hlab : LmLabels e) (hS : Small e) {fuel : Nat} {d : Dec F}
    (h1 : Decoder.initDecoder e fuel Decoder.fresh = .ok d) (hi : d.idx.length ≤ 46338) :
    ∃ m0 m h, new = .ok m0 ∧ initDecoder e fuel m0 = .ok m ∧ Full e True m h ∧ VFull h d := by
  obtain ⟨m0, g1, g2⟩ := new_full e True (fun _ => hS)
  have hm : m0.toks = [] ∧ m0.prev = [] := by
    unfold new at g1
    obtain ⟨t, _, g1⟩ := bind_ok g1
    cases g1
    exact ⟨rfl, rfl⟩
  obtain ⟨h, g3⟩ := (initDecoder_both fuel).bwd trivial d h1 trivial
  obtain ⟨d', g4, v⟩ := (initDecoder_both fuel).fwd h g3
  rw [h1] at g4
  cases g4
  obtain ⟨m, g5⟩ := (initDecoder_sim hlab fuel g2 hm).bwd trivial h g3 (by unfold Fits; rw [v.idx]; exact hi)
  obtain ⟨h', g6, r⟩ := (initDecoder_sim hlab fuel g2 hm).fwd m g5
  rw [g3] at g6
  cases g6
  exact ⟨m0, m, h, g1, g5, r, v⟩

/-- A run of the decoder with memory is a run of the decoder with values. -/
theorem mrun_fwd {e : Env F D} (hlab : LmLabels e) {fs : List (List F)} {bs : List Bool}
    {cs : List (Option (Cutoffs F D))} {m : Mem F} (h : MRun e NoStale fs bs cs m) :
    ∃ h d, Full e False m h ∧ VFull h d ∧ Run e fs bs cs d := by
  induction h with
  | init h0 h1 =>
    obtain ⟨h, d, _, g2, g3, g4⟩ := init_fwd hlab h0 h1
    exact ⟨h, d, g3, g4, .init g2⟩
  | frame _ hp hc ih =>
    obtain ⟨h, d, r, v, hr⟩ := ih
    obtain ⟨h', d', _, g2, g3, g4⟩ := step_fwd hlab r v hp hc
    exact ⟨h', d', g3, g4, .frame hr g2⟩

theorem fewTokens_prefix {e : Env F D} {fs : List (List F)} {f : List F} (h : FewTokens e (fs ++ [f])) :
    FewTokens e fs := by
  intro n bs cs d hr
  by_cases hn : n ≤ fs.length
  · refine h n bs cs d ?_
    rw [List.take_append_of_le_length hn]
    exact hr
  · refine h fs.length bs cs d ?_
    rw [List.take_append_of_le_length (Nat.le_refl _), List.take_length]
    rw [List.take_of_length_le (by omega)] at hr
    exact hr

theorem fewTokens_self {e : Env F D} {fs : List (List F)} (h : FewTokens e fs) {bs : List Bool}
    {cs : List (Option (Cutoffs F D))} {d : Dec F} (hr : Run e fs bs cs d) : d.idx.length ≤ 46338 := by
  rw [run_idx hr]
  exact h fs.length bs cs d (by rw [List.take_length]; exact hr)

theorem stale_append {e : Env F D} {fs : List (List F)} (f : List F) (h : Stale e fs) : Stale e (fs ++ [f]) := by
  obtain ⟨pre, g, post, bs, cs, m, fuel, c, m1, h1, h2⟩ := h
  exact ⟨pre, g, post ++ [f], bs, cs, m, fuel, c, m1, by rw [h1]; simp, h2⟩

/-- A run of the decoder with values is one of the decoder with memory. -/
theorem mrun_bwd {e : Env F D} (hlab : LmLabels e) (hS : Small e) {fs : List (List F)} {bs : List Bool}
    {cs : List (Option (Cutoffs F D))} {d : Dec F} (hr : Run e fs bs cs d) :
    FewTokens e fs → fs.length ≤ 2147483647 →
    Stale e fs ∨ ∃ m h, Full e True m h ∧ VFull h d ∧ MRun e NoStale fs bs cs m := by
  induction hr with
  | @init fuel d h1 =>
    intro hF _
    obtain ⟨m0, m, h, g1, g2, g3, g4⟩ := init_bwd hlab hS h1 (fewTokens_self hF (.init h1))
    exact .inr ⟨m, h, g3, g4, .init g1 g2⟩
  | @frame fs bs cs d d' fuel f b c hr hp ih =>
    intro hF hl
    simp only [List.length_append, List.length_cons, List.length_nil] at hl
    rcases ih (fewTokens_prefix hF) (by omega) with h | ⟨m, h, r, v, hm⟩
    · exact .inl (stale_append f h)
    · have hr' := Run.frame hr hp
      have hfr := run_frames hr'
      simp only [List.length_append, List.length_cons, List.length_nil] at hfr
      rcases step_bwd hlab r v (by unfold Fits; rw [v.idx]; exact fewTokens_self (fewTokens_prefix hF) hr) hp
        (fewTokens_self hF hr') (by omega) with ⟨c1, m1, g1, g2⟩ | ⟨m', h', g1, g2, g3, g4⟩
      · exact .inl ⟨fs, f, [], bs, cs, m, fuel, c1, m1, rfl, hm, g1, g2⟩
      · exact .inr ⟨m', h', g3, g4, .frame hm g1 g2⟩

/-! ## What related decoders have in common -/

theorem sameTokens_of {e : Env F D} {bd : Prop} {m : Mem F} {h : Mid.Half F} {d : Dec F} (r : Full e bd m h)
    (v : VFull h d) : SameTokens m d := by
  obtain ⟨live, Good, i1, i2, i3⟩ := v.inv
  have hp := r.toks
  have hw := r.words
  unfold SameTokens
  unfold Points at hp
  generalize m.toks = as at hp ⊢
  generalize d.toks = us at i2 ⊢
  generalize h.toks = ts at hp i2
  induction hp generalizing us with
  | nil => cases i2; exact .nil
  | cons h0 _ ih =>
    cases i2 with
    | cons k ks =>
      refine .cons ⟨_, tok_of h0, k.state, k.cost, fun j hj => ?_⟩ (ih _ ks)
      rw [hw]
      exact k.hist.read hj

theorem inUse_of {e : Env F D} {bd : Prop} {m : Mem F} {h : Mid.Half F} {d : Dec F} (r : Full e bd m h)
    (v : VFull h d) : InUse m d.live := by
  obtain ⟨live, h1, h2, h3⟩ := r.live
  refine ⟨live, h1.nodupLive, by rw [h2, v.live], fun a ha => h3 a (.inl ha), fun a => ?_⟩
  constructor
  · intro ha
    exact ⟨(h1.cover a).mp (.inl ha), fun hf => h1.disjoint a hf ha⟩
  · rintro ⟨hu, hf⟩
    exact ((h1.cover a).mpr hu).resolve_right hf

theorem bestPath_same {e : Env F D} {bd : Prop} {m : Mem F} {h : Mid.Half F} {d : Dec F} (r : Full e bd m h)
    (v : VFull h d) (eos : Bool) (x : List Int × F) :
    bestPath e { m with eos := eos } = .ok x ↔ Decoder.bestPath e { d with eos := eos } = .ok x := by
  have r' : Full e bd { m with eos := eos } { h with eos := eos } :=
    ⟨r.live, r.nodup, r.toks, r.prevs, r.findable, r.stores, r.size, r.strong, r.words, r.cache, r.frames, rfl,
      r.small, r.states⟩
  have v' : VFull { h with eos := eos } { d with eos := eos } := ⟨v.inv, v.idx, v.frames, rfl, v.live⟩
  rw [bestPath_eq r', bestPath_veq v']

/-! ## Runs without words at early collections -/

theorem finish_noMarks {h h' : Mid.Half F} {d : Dec F} (v : VFull h d) (hn : NoMarks h.words)
    (hs : h.frames % 20 = 0 → ∀ t ∈ d.toks, t.hist = []) (hf : Mid.finish h = .ok h') : NoMarks h'.words := by
  unfold Mid.finish Mid.tidy at hf
  by_cases hz : h.frames % 20 = 0
  · rw [if_pos hz] at hf
    obtain ⟨h1, g1, hf⟩ := bind_ok hf
    cases hf
    obtain ⟨w, g2, g1⟩ := bind_ok g1
    cases g1
    have hroots : h.toks.filterMap (·.olabel) = [] := by
      obtain ⟨live, Good, i1, i2, i3⟩ := v.inv
      rw [List.filterMap_eq_nil_iff]
      intro t ht
      obtain ⟨i, hi⟩ := List.mem_iff_getElem?.mp ht
      rcases forall2_get i2 i with ⟨g1, g2⟩ | ⟨t', u, g1, g2, g3⟩
      · rw [hi] at g1; cases g1
      · rw [hi] at g1; cases g1
        have := g3.hist
        rw [hs hz u (List.mem_of_getElem? g2)] at this
        cases hol : t.olabel with
        | none => rfl
        | some a => rw [hol] at this; cases this
    rw [hroots] at g2
    exact gc_noMarks hn g2
  · rw [if_neg hz] at hf
    cases hf
    exact hn

theorem initDecoder_noMarks {e : Env F D} {fuel : Nat} {h : Mid.Half F}
    (hi : Mid.initDecoder e fuel Mid.fresh = .ok h) : NoMarks h.words := by
  unfold Mid.initDecoder at hi
  obtain ⟨_, _, hi⟩ := bind_ok hi
  obtain ⟨ls, _, hi⟩ := bind_ok hi
  obtain ⟨⟨ins, h1⟩, g1, hi⟩ := bind_ok hi
  refine processNonemitting_noMarks (h := { h1 with frames := 0 }) ?_ hi
  exact insertTok_noMarks (r := (ins, h1)) (h := { (Mid.fresh : Mid.Half F) with toks := [], prev := [] })
    (by rintro a ⟨n, g, _⟩; cases g) g1

theorem silent_prefix {e : Env F D} {fs : List (List F)} {f : List F} {n : Nat} (h : Silent e (fs ++ [f]) n) :
    Silent e fs n := by
  intro i bs cs d hr
  by_cases hn : i ≤ fs.length
  · refine h i bs cs d ?_
    rw [List.take_append_of_le_length hn]
    exact hr
  · refine h fs.length bs cs d ?_
    rw [List.take_append_of_le_length (Nat.le_refl _), List.take_length]
    rw [List.take_of_length_le (by omega)] at hr
    exact hr

/-- In a run over at most `20 * (j + 1)` frames with no word at any collection but the last, no collection starts
with a stale mark, and until the last one there is no mark at all. -/
theorem mrun_silent {e : Env F D} (hlab : LmLabels e) {j : Nat} {fs : List (List F)} {bs : List Bool}
    {cs : List (Option (Cutoffs F D))} {m : Mem F} (hm : MRun e (fun _ => True) fs bs cs m) :
    fs.length ≤ 20 * (j + 1) → Silent e fs (20 * j) →
    MRun e NoStale fs bs cs m ∧ ∃ h d, Full e False m h ∧ VFull h d ∧ Run e fs bs cs d ∧
      (h.frames ≤ 20 * j → NoMarks h.words) := by
  induction hm with
  | init h0 h1 =>
    intro _ _
    obtain ⟨h, d, g1, g2, g3, g4⟩ := init_fwd hlab h0 h1
    exact ⟨.init h0 h1, h, d, g3, g4, .init g2, fun _ => initDecoder_noMarks g1⟩
  | @frame fs bs cs m m' fuel f b c hm hp _ ih =>
    intro hl hs
    have hl0 := hl
    simp only [List.length_append, List.length_cons, List.length_nil] at hl
    obtain ⟨hm', h, d, r, v, hr, hn⟩ := ih (by omega) (silent_prefix hs)
    have hfd := run_frames hr
    have hfh : h.frames = d.frames := v.frames
    -- frames of a call that is not over
    have hprop : ∀ c1 m1, propagate e fuel f m = .ok (true, c1, m1) → ∃ h1 d1,
        Mid.propagate e fuel f h = .ok (true, c1, h1) ∧ vpropagate e fuel f d = .ok (true, c1, d1) ∧
        Full e False m1 h1 ∧ VFull h1 d1 ∧ h1.frames = h.frames := by
      intro c1 m1 g
      obtain ⟨⟨b2, c2, h1⟩, q1, e1, e2, r1⟩ := (propagate_sim hlab fuel f r False.elim).fwd _ g
      obtain ⟨⟨b3, c3, d1⟩, q2, e3, e4, v1⟩ := (propagate_both fuel f v).fwd _ q1
      simp only at e1 e2 e3 e4 r1 v1
      subst e1 e2 e3 e4
      have hd : Decoder.process e fuel f d = .ok (true, c1, { d1 with frames := d1.frames + 1 }) := by
        rw [process_eq, q2]; rfl
      have k1 := (Run.frame hr hd).inv.frames
      have k2 := hr.inv.frames
      simp only [List.filter_append, List.length_append, List.filter_cons, List.filter_nil, id, if_true,
        List.length_cons, List.length_nil] at k1
      refine ⟨h1, d1, q1, q2, r1, v1, ?_⟩
      rw [v1.frames, hfh]
      omega
    have hclean : ∀ m1, propagate e fuel f m = .ok (true, c, m1) → NoStale m1 := by
      intro m1 g
      obtain ⟨h1, d1, q1, q2, r1, v1, hfr⟩ := hprop c m1 g
      rw [noStale_iff r1]
      intro hz
      refine fresh_of_noMarks (propagate_noMarks (hn ?_) q1)
      rw [hfr] at hz
      omega
    refine ⟨.frame hm' hp hclean, ?_⟩
    obtain ⟨h', d', g1, g2, g3, g4⟩ := step_fwd hlab r v hp hclean
    refine ⟨h', d', g3, g4, .frame hr g2, ?_⟩
    intro hle
    unfold Mid.process at g1
    obtain ⟨⟨b1, c1, h1⟩, q1, g1⟩ := bind_ok g1
    have hn1 : h.frames ≤ 20 * j → NoMarks h1.words := fun hj => propagate_noMarks (hn hj) q1
    have hrd := (Run.frame hr g2).inv.frames
    have k2 := hr.inv.frames
    cases b1 with
    | false =>
      cases g1
      simp only [List.filter_append, List.length_append, List.filter_cons, List.filter_nil, id] at hrd
      refine hn1 ?_
      rw [hfh, k2]
      have : h'.frames = d'.frames := g4.frames
      simp at hrd
      omega
    | true =>
      simp only [if_true] at g1
      obtain ⟨h2, q2, g1⟩ := bind_ok g1
      cases g1
      simp only [List.filter_append, List.length_append, List.filter_cons, List.filter_nil, id, if_true,
        List.length_cons, List.length_nil] at hrd
      have hfr' : h'.frames = d'.frames := g4.frames
      have hj : h.frames + 1 ≤ 20 * j := by omega
      obtain ⟨⟨b3, d1a⟩, q3, e3, v1⟩ : ∃ x : (Option (Cutoffs F D)) × Dec F,
          vpropagate e fuel f d = .ok (true, x.1, x.2) ∧ x.1 = c ∧ VFull h1 x.2 := by
        obtain ⟨⟨b3, c3, d1⟩, q3, e3, e4, v1⟩ := (propagate_both fuel f v).fwd _ q1
        simp only at e3 e4 v1
        subst e3 e4
        exact ⟨(c, d1), q3, rfl, v1⟩
      simp only at q3 e3 v1
      subst e3
      have hd' : d' = { d1a with frames := d1a.frames + 1 } := by
        rw [process_eq, q3] at g2
        cases g2
        rfl
      have hf1 : h1.frames = h.frames := by
        have : d'.frames = d1a.frames + 1 := by rw [hd']
        rw [v1.frames]
        omega
      refine finish_noMarks v1 (hn1 (by omega)) ?_ q2
      intro hz t ht
      rw [hf1] at hz
      refine hs (fs ++ [f]).length _ _ d' (by rw [List.take_length]; exact Run.frame hr g2) (by omega) (by omega) t ?_
      rw [hd']
      exact ht

end Verif.Mdec
