import Verif.ApiRun

/-!
# One utterance among others, and the same utterance alone
-/

namespace Verif.Api

open Verif Verif.Text Verif.Api.Spec

variable {G F D : Type}

/-- A call about an utterance, as a function of its recogniser and its content; the last component is the new message,
if any. -/
def useUtt (r : Stt.Rec F D) (u : Stt.Utt F) : Call F → Exec (Ret F × Stt.Utt F × Option Stt.Msg)
  | .process _ mem data size =>
    match u.reader.process r.conv data size with
    | .error (.fault f) => .error f
    | .error (.status c) => .ok (.code (-1), u, some (.status c))
    | .ok (xs, reader) => Stt.afterSamples r mem { u with reader := reader } xs >>= fun u' =>
      .ok (.code xs.length, u', none)
  | .endOfStream _ fill => Stt.finish r fill u >>= fun u' => .ok (.done, u', none)
  | .look _ => Main.fromC u.back.hyp >>= fun hyp => .ok (.text hyp u.back.ll, u, none)
  | _ => .error .ub

theorem useUtt_process (r : Stt.Rec F D) (u : Stt.Utt F) (q : Option Nat) (mem : Stt.Mem F)
    (data : Option (List UInt8)) (size : Int) : useUtt r u (.process q mem data size) =
    match u.reader.process r.conv data size with
    | .error (.fault f) => .error f
    | .error (.status c) => .ok (.code (-1), u, some (.status c))
    | .ok (xs, reader) => Stt.afterSamples r mem { u with reader := reader } xs >>= fun u' =>
      .ok (.code xs.length, u', none) := rfl

theorem useUtt_end (r : Stt.Rec F D) (u : Stt.Utt F) (q : Option Nat) (fill : Nat → UInt8) :
    useUtt r u (.endOfStream q fill) = Stt.finish r fill u >>= fun u' => .ok (.done, u', none) := rfl

theorem useUtt_look (r : Stt.Rec F D) (u : Stt.Utt F) (q : Option Nat) :
    useUtt r u (.look q) = Main.fromC u.back.hyp >>= fun hyp => .ok (.text hyp u.back.ll, u, none) := rfl

theorem useUtt_for (r : Stt.Rec F D) (u : Stt.Utt F) {a b : Nat} {c : Call F} (h : About a c = true) :
    useUtt r u (for' b c) = useUtt r u c := by
  cases c with
  | process q _ _ _ => rfl
  | endOfStream q _ => rfl
  | look q => rfl
  | sttInit _ => cases h
  | sttDestroy _ => cases h
  | uttInit _ _ => cases h
  | uttDestroy _ => cases h
  | readHeader _ => cases h
  | lastError => cases h

theorem for_for (a b : Nat) (c : Call F) : for' a (for' b c) = for' a c := by
  cases c <;> rfl

theorem about_for (a b : Nat) {c : Call F} (h : About a c = true) : About b (for' b c) = true := by
  cases c with
  | process q _ _ _ => exact beq_self_eq_true b
  | endOfStream q _ => exact beq_self_eq_true b
  | look q => exact beq_self_eq_true b
  | sttInit _ => cases h
  | sttDestroy _ => cases h
  | uttInit _ _ => cases h
  | uttDestroy _ => cases h
  | readHeader _ => cases h
  | lastError => cases h

theorem step_use {mach : Main.Machine G F D} (w : App.World G) {s : Session G F} {a : Nat} {c : Call F} {x : Utt F}
    {self : App.Self G} {r : Stt.Rec F D} (hc : About a c = true) (hx : s.utts.get a = some x)
    (hs : s.stts.get x.stt = some self) (hr : mach.recogniser self = some r) :
    ∃ g : Ret F × Stt.Utt F × Option Stt.Msg → Session G F,
      step mach w s c = (useUtt r x.data c >>= fun q => .ok (q.1, g q)) ∧
      ∀ q, useUtt r x.data c = .ok q → (g q).heap = s.heap ∧ (g q).stts = s.stts ∧
        (g q).utts.get a = some { x with data := q.2.1 } := by
  cases c with
  | process u mem data size =>
    cases u with
    | none => cases hc
    | some b =>
      have : b = a := by simpa [About] using hc
      subst this
      refine ⟨fun q => { s with utts := s.utts.put b { x with data := q.2.1 }, msg := q.2.2.getD s.msg }, ?_, ?_⟩
      · show process mach s (some b) mem data size = _
        unfold process
        simp only [hx, hs, hr, processApi_ready]
        rw [useUtt_process]
        cases x.data.reader.process r.conv data size with
        | error e => cases e with
          | fault f => rfl
          | status c => rfl
        | ok y =>
          obtain ⟨xs, reader⟩ := y
          simp only
          cases Stt.afterSamples r mem ⟨reader, x.data.wave, x.data.back⟩ xs with
          | error f => rfl
          | ok u' => rfl
      · intro q _
        refine ⟨rfl, rfl, ?_⟩
        show (s.utts.put b _).get b = _
        rw [get_put, if_pos rfl]
  | endOfStream u fill =>
    cases u with
    | none => cases hc
    | some b =>
      have : b = a := by simpa [About] using hc
      subst this
      refine ⟨fun q => { s with utts := s.utts.put b { x with data := q.2.1 } }, ?_, ?_⟩
      · show endOfStream mach s (some b) fill = _
        unfold endOfStream
        simp only [hx, hs, hr]
        rw [Stt.end_ready]
        rw [useUtt_end]
        cases Stt.finish r fill x.data with
        | error f => rfl
        | ok u' => rfl
      · intro q _
        refine ⟨rfl, rfl, ?_⟩
        show (s.utts.put b _).get b = _
        rw [get_put, if_pos rfl]
  | look u =>
    cases u with
    | none => cases hc
    | some b =>
      have : b = a := by simpa [About] using hc
      subst this
      refine ⟨fun _ => s, ?_, ?_⟩
      · show look s (some b) = _
        rw [useUtt_look]
        unfold look
        simp only [hx]
        cases Main.fromC x.data.back.hyp with
        | error f => rfl
        | ok u' => rfl
      · intro q hq
        refine ⟨rfl, rfl, ?_⟩
        rw [useUtt_look] at hq
        obtain ⟨hyp, _, hq⟩ := bind_ok hq
        cases hq
        exact hx
  | sttInit _ => cases hc
  | sttDestroy _ => cases hc
  | uttInit _ _ => cases hc
  | uttDestroy _ => cases hc
  | readHeader _ => cases hc
  | lastError => cases hc

/-- The same with a recogniser that was destroyed, if the call does not fail. -/
theorem step_orphan {mach : Main.Machine G F D} {w : App.World G} {s s' : Session G F} {a : Nat} {c : Call F}
    {x : Utt F} {self : App.Self G} {y : Ret F} (hc : About a c = true) (hx : s.utts.get a = some x)
    (hs : s.stts.get x.stt = some self) (hr : mach.recogniser self = none) (h : step mach w s c = .ok (y, s'))
    (r : Stt.Rec F D) (hconv : r.conv = mach.conv) :
    ∃ u m, useUtt r x.data c = .ok (y, u, m) ∧ s'.heap = s.heap ∧ s'.stts = s.stts ∧
      s'.utts.get a = some { x with data := u } := by
  cases c with
  | process u mem data size =>
    cases u with
    | none => cases hc
    | some b =>
      have : b = a := by simpa [About] using hc
      subst this
      replace h : process mach s (some b) mem data size = _ := h
      unfold process at h
      simp only [hx, hs, hr] at h
      unfold processOrphan at h
      rw [useUtt_process, hconv]
      cases hp : x.data.reader.process mach.conv data size with
      | error e =>
        rw [hp] at h
        cases e with
        | fault f => cases h
        | status c =>
          cases h
          exact ⟨_, _, rfl, rfl, rfl, hx⟩
      | ok z =>
        obtain ⟨xs, reader⟩ := z
        rw [hp] at h
        simp only at h
        by_cases hl : xs.length = 0
        · rw [if_pos hl] at h
          cases h
          refine ⟨{ x.data with reader := reader }, none, ?_, rfl, rfl, ?_⟩
          · show (Stt.afterSamples r mem { x.data with reader := reader } xs >>= _) = _
            unfold Stt.afterSamples
            rw [if_pos hl, hl]
            rfl
          · show (s.utts.put b _).get b = _
            rw [get_put, if_pos rfl]
        · rw [if_neg hl] at h
          cases h
  | endOfStream u fill =>
    cases u with
    | none => cases hc
    | some b =>
      have : b = a := by simpa [About] using hc
      subst this
      replace h : endOfStream mach s (some b) fill = _ := h
      unfold endOfStream at h
      simp only [hx, hs, hr] at h
      cases h
  | look u =>
    cases u with
    | none => cases hc
    | some b =>
      have : b = a := by simpa [About] using hc
      subst this
      replace h : look s (some b) = _ := h
      unfold look at h
      simp only [hx] at h
      obtain ⟨hyp, h1, h⟩ := bind_ok h
      cases h
      refine ⟨x.data, none, ?_, rfl, rfl, hx⟩
      rw [useUtt_look, h1]
      rfl
  | sttInit _ => cases hc
  | sttDestroy _ => cases hc
  | uttInit _ _ => cases hc
  | uttDestroy _ => cases hc
  | readHeader _ => cases hc
  | lastError => cases hc

/-- The utterance `a` of one session is the utterance `b` of another; the recogniser `p` of the one may be destroyed, that
of the other, at address 0, is not. -/
structure Sim (mach : Main.Machine G F D) (s t : Session G F) (p a b : Nat) : Prop where
  left : p < s.heap.next ∧ a < s.heap.next
  right : ∃ r self m u, t.stts.get 0 = some self ∧ mach.recogniser self = some r ∧ t.utts.get b = some ⟨m, 0, u⟩ ∧
    (∀ x, s.utts.get a = some x → x.stt = p ∧ x.data = u) ∧
    (∀ self', s.stts.get p = some self' → mach.recogniser self' = some r ∨ self' = .empty)

theorem recogniser_conv {mach : Main.Machine G F D} {self : App.Self G} {r : Stt.Rec F D}
    (h : mach.recogniser self = some r) : r.conv = mach.conv := by
  unfold Main.Machine.recogniser at h
  split at h
  · cases h; rfl
  · cases h

theorem recogniser_empty (mach : Main.Machine G F D) : mach.recogniser (.empty : App.Self G) = none := rfl

/-- A call about an utterance that is not there fails. -/
theorem about_none {mach : Main.Machine G F D} {w : App.World G} {s : Session G F} {a : Nat} {c : Call F}
    (hc : About a c = true) (hg : s.utts.get a = none) : step mach w s c = .error .ub := by
  cases c with
  | process q mem data size =>
    cases q with
    | none => cases hc
    | some q =>
      have : q = a := by simpa [About] using hc
      subst this
      show process mach s (some q) mem data size = _
      unfold process
      simp only [hg]
  | endOfStream q fill =>
    cases q with
    | none => cases hc
    | some q =>
      have : q = a := by simpa [About] using hc
      subst this
      show endOfStream mach s (some q) fill = _
      unfold endOfStream
      simp only [hg]
  | look q =>
    cases q with
    | none => cases hc
    | some q =>
      have : q = a := by simpa [About] using hc
      subst this
      show look s (some q) = _
      unfold look
      simp only [hg]
  | sttInit _ => cases hc
  | sttDestroy _ => cases hc
  | uttInit _ _ => cases hc
  | uttDestroy _ => cases hc
  | readHeader _ => cases hc
  | lastError => cases hc

/-- A call about the utterance does the same in both sessions. -/
theorem sim_use {mach : Main.Machine G F D} {w : App.World G} {tr : List (Call F × Ret F)} {s t s' : Session G F}
    {p a b : Nat} {c : Call F} {y : Ret F} (hi : Inv w tr s) (h : Sim mach s t p a b) (hc : About a c = true)
    (hs : step mach w s c = .ok (y, s')) :
    ∃ t', step mach w t (for' b c) = .ok (y, t') ∧ Sim mach s' t' p a b := by
  obtain ⟨hl, r, self, m, u, h1, h2, h3, h4, h5⟩ := h
  cases hx : s.utts.get a with
  | none => rw [about_none hc hx] at hs; cases hs
  | some x =>
    obtain ⟨hxp, hxu⟩ := h4 x hx
    obtain ⟨self', hself⟩ := hi.uttOf _ (get_mem hx)
    obtain ⟨g, g1, g2⟩ := step_use (mach := mach) w (about_for a b hc) h3 h1 h2
    have key : ∃ u' m', useUtt r u c = .ok (y, u', m') ∧ s'.heap = s.heap ∧ s'.stts = s.stts ∧
        s'.utts.get a = some { x with data := u' } := by
      rw [← hxu]
      rcases h5 self' (hxp ▸ hself) with hr | he
      · obtain ⟨g', k1, k2⟩ := step_use (mach := mach) w hc hx hself hr
        rw [hs] at k1
        cases hq : useUtt r x.data c with
        | error f => rw [hq] at k1; cases k1
        | ok q =>
          rw [hq] at k1
          replace k1 : Except.ok (y, s') = Except.ok (q.1, g' q) := k1
          obtain ⟨z1, z2, z3⟩ := k2 q hq
          injection k1 with k1
          injection k1 with e1 e2
          subst e1 e2
          exact ⟨q.2.1, q.2.2, rfl, z1, z2, z3⟩
      · subst he
        exact step_orphan hc hx hself (recogniser_empty mach) hs r (recogniser_conv h2)
    obtain ⟨u', m', k1, k2, k3, k4⟩ := key
    rw [useUtt_for r u hc] at g1 g2
    rw [k1] at g1
    obtain ⟨z1, z2, z3⟩ := g2 _ k1
    refine ⟨g (y, u', m'), g1, ⟨k2 ▸ hl, r, self, m, u', z2 ▸ h1, h2, z3, ?_, k3 ▸ h5⟩⟩
    intro x' hx'
    rw [k4] at hx'
    cases hx'
    exact ⟨hxp, rfl⟩

/-- Any other call changes nothing of the utterance. -/
theorem sim_other {mach : Main.Machine G F D} {w : App.World G} {s t s' : Session G F}
    {p a b : Nat} {c : Call F} {y : Ret F} (h : Sim mach s t p a b) (hc : About a c = false)
    (hs : Effect mach w s c y s') : Sim mach s' t p a b := by
  obtain ⟨⟨hp, ha⟩, r, self, m, u, h1, h2, h3, h4, h5⟩ := h
  cases hs with
  | load hl =>
    next name a' self' heap =>
    have hn := init_next hl
    rcases App.init_after hl with ⟨e, _⟩ | ⟨self1, conf, e, _, _⟩
    · cases e
    · cases e
      refine ⟨⟨Nat.lt_trans hp hn, Nat.lt_trans ha hn⟩, r, self, m, u, h1, h2, h3, h4, ?_⟩
      intro self'' hg
      replace hg : (s.stts.put s.heap.next self').get p = some self'' := hg
      rw [get_put, if_neg (Nat.ne_of_lt hp)] at hg
      exact h5 _ hg
  | noLoad hl =>
    have hn := init_next hl
    exact ⟨⟨Nat.lt_trans hp hn, Nat.lt_trans ha hn⟩, r, self, m, u, h1, h2, h3, h4, h5⟩
  | unload hg hd =>
    next q self' heap =>
    have hn := destroy_next hd
    refine ⟨⟨hn.symm ▸ hp, hn.symm ▸ ha⟩, r, self, m, u, h1, h2, h3, h4, ?_⟩
    intro self'' hg'
    replace hg' : (s.stts.put q .empty).get p = some self'' := hg'
    rw [get_put] at hg'
    split at hg'
    · cases hg'; exact .inr rfl
    · exact h5 _ hg'
  | make hg hr hin hm =>
    next q f self' r' u' m' heap =>
    obtain ⟨n1, n2, _⟩ := uttInit_true hm
    refine ⟨⟨Nat.lt_trans hp n2, Nat.lt_trans ha n2⟩, r, self, m, u, h1, h2, h3, ?_, h5⟩
    intro x' hx'
    replace hx' : (s.utts.put m'.utt _).get a = some x' := hx'
    rw [get_put, if_neg (n1 ▸ Nat.ne_of_lt ha)] at hx'
    exact h4 _ hx'
  | noMake hm =>
    have hn := (uttInit_false hm).1
    exact ⟨⟨Nat.lt_trans hp hn, Nat.lt_trans ha hn⟩, r, self, m, u, h1, h2, h3, h4, h5⟩
  | unmake hg hd =>
    next q x heap =>
    have hn := uttDestroy_next hd
    refine ⟨⟨hn.symm ▸ hp, hn.symm ▸ ha⟩, r, self, m, u, h1, h2, h3, ?_, h5⟩
    intro x' hx'
    replace hx' : (s.utts.del q).get a = some x' := hx'
    rw [get_del] at hx'
    split at hx'
    · cases hx'
    · exact h4 _ hx'
  | use hab hq hne hg =>
    next a' x u' m' =>
    refine ⟨⟨hp, ha⟩, r, self, m, u, h1, h2, h3, ?_, h5⟩
    intro x' hx'
    have hne : a ≠ a' := by
      intro e
      subst e
      rw [hab] at hc
      cases hc
    replace hx' : (s.utts.put a' _).get a = some x' := hx'
    rw [get_put, if_neg hne] at hx'
    exact h4 _ hx'
  | see hq hne => exact ⟨⟨hp, ha⟩, r, self, m, u, h1, h2, h3, h4, h5⟩

/-- A new utterance and the same in a session of its own. -/
theorem sim_make {mach : Main.Machine G F D} {w : App.World G} {tr : List (Call F × Ret F)} {s s' : Session G F}
    {p a : Nat} {f : Pcm.Format} (hi : Inv w tr s)
    (hs : step mach w s (.uttInit (some p) f) = .ok (.ptr (some a), s')) :
    ∃ name b t, (Call.sttInit name, Ret.ptr (some p)) ∈ tr ∧
      Ran mach w [(.sttInit name, .ptr (some 0)), (.uttInit (some 0) f, .ptr (some b))] t ∧ Sim mach s' t p a b := by
  generalize hret : (Ret.ptr (some a) : Ret F) = ret at hs
  generalize hcall : (Call.uttInit (some p) f : Call F) = c at hs
  cases step_effect hs with
  | make hg hr hin hm =>
    next p' f' self r u m heap =>
    cases hcall
    cases hret
    obtain ⟨n1, n2, _⟩ := uttInit_true hm
    obtain ⟨name, hn, hmade⟩ := hi.sttMade (p, self) (get_mem hg)
    rcases hmade with he | ⟨⟨h, h1, c, hload⟩, _⟩
    · replace he : self = .empty := he
      subst he
      rw [recogniser_empty] at hr
      cases hr
    · obtain ⟨self0, h2, e2, hf⟩ := init_alike hload ⟨0, []⟩
      have hr0 : mach.recogniser self0 = some r := by
        rw [← recogniser_forget, ← hf, recogniser_forget]
        exact hr
      obtain ⟨m0, h3, e3, o3⟩ := App.uttInit_owns h2
      obtain ⟨_, _, hini⟩ := initApi_ready hin
      have r1 : Ran mach w ([] ++ [(Call.sttInit name, Ret.ptr (some 0))])
          (⟨h2, [(0, self0)], [], .none⟩ : Session G F) := by
        refine .snoc .nil ?_
        show sttInit w .start name = _
        unfold sttInit
        show (App.init w name ⟨0, []⟩ >>= _) = _
        rw [e2]
        rfl
      have r2 : Ran mach w (([] ++ [(Call.sttInit name, Ret.ptr (some 0))]) ++
          [(Call.uttInit (some 0) f, Ret.ptr (some m0.utt))])
          (⟨h3, [(0, self0)], [(m0.utt, ⟨m0, 0, u⟩)], .none⟩ : Session G F) := by
        refine .snoc r1 ?_
        show uttInit mach (⟨h2, [(0, self0)], [], .none⟩ : Session G F) (some 0) f = _
        unfold uttInit
        show (Stt.initApi (mach.recogniser self0) f .none >>= _) = _
        rw [hr0, hini .none]
        simp only [ok_bind]
        rw [e3]
        rfl
      refine ⟨name, m0.utt, _, hn, r2, ⟨⟨Nat.lt_trans (hi.sttNext _ (get_mem hg)) n2, n1 ▸ n2⟩, r, self0, m0, u, rfl,
        hr0, ?_, ?_, ?_⟩⟩
      · show Store.get [(m0.utt, _)] m0.utt = _
        rw [get_cons, if_pos rfl]
      · intro x hx
        replace hx : (s.utts.put m.utt ⟨m, p, u⟩).get m.utt = some x := hx
        rw [get_put, if_pos rfl] at hx
        cases hx
        exact ⟨rfl, rfl⟩
      · intro self' hg'
        rw [hg] at hg'
        cases hg'
        exact .inl hr
  | noMake hm => cases hret
  | load hi => cases hcall
  | noLoad hi => cases hcall
  | unload hg hi => cases hcall
  | unmake hg hi => cases hcall
  | use hab hq hne hg => exact absurd hret.symm (hne _)
  | see hq hne => exact absurd hret.symm (hne _)

theorem effect_next {mach : Main.Machine G F D} {w : App.World G} {s s' : Session G F} {c : Call F} {y : Ret F}
    (hs : Effect mach w s c y s') : s.heap.next ≤ s'.heap.next := by
  cases hs with
  | load hl => exact Nat.le_of_lt (init_next hl)
  | noLoad hl => exact Nat.le_of_lt (init_next hl)
  | unload hg hd => exact Nat.le_of_eq (destroy_next hd).symm
  | make hg hr hin hm => exact Nat.le_of_lt (uttInit_true hm).2.1
  | noMake hm => exact Nat.le_of_lt (uttInit_false hm).1
  | unmake hg hd => exact Nat.le_of_eq (uttDestroy_next hd).symm
  | use hab hq hne hg => exact Nat.le_refl _
  | see hq hne => exact Nat.le_refl _

/-- A call about an address is later than the allocation. -/
theorem about_next {mach : Main.Machine G F D} {w : App.World G} {tr : List (Call F × Ret F)} {s : Session G F}
    (h : Ran mach w tr s) : ∀ {p : Call F × Ret F} {a : Nat}, p ∈ tr → About a p.1 = true → a < s.heap.next := by
  induction h with
  | nil => intro p a hm; cases hm
  | @snoc tr s c x s' hr hs ih =>
    intro p a hm hc
    refine Nat.lt_of_lt_of_le ?_ (effect_next (step_effect hs))
    rcases mem_snoc.mp hm with hm | hm
    · exact ih hm hc
    · subst hm
      cases hg : s.utts.get a with
      | none => rw [about_none hc hg] at hs; cases hs
      | some y => exact (ran_inv hr).uttNext _ (get_mem hg)

/-- The two parts of a run. -/
theorem ran_alone {mach : Main.Machine G F D} {w : App.World G} {tr : List (Call F × Ret F)} {s : Session G F}
    (h : Ran mach w tr s) {p a : Nat} {f : Pcm.Format} (hm : (Call.uttInit (some p) f, Ret.ptr (some a)) ∈ tr) :
    ∃ name b t, (Call.sttInit name, Ret.ptr (some p)) ∈ tr ∧ Ran mach w (alone name f b a tr) t ∧
      Sim mach s t p a b := by
  induction h with
  | nil => cases hm
  | @snoc tr s c x s' hr hs ih =>
    have hi := ran_inv hr
    rcases mem_snoc.mp hm with hm | hm
    · obtain ⟨name, b, t, k1, k2, k3⟩ := ih hm
      cases hc : About a c with
      | true =>
        obtain ⟨t', e1, e2⟩ := sim_use hi k3 hc hs
        refine ⟨name, b, t', mem_snoc.mpr (.inl k1), ?_, e2⟩
        have : alone name f b a (tr ++ [(c, x)]) = alone name f b a tr ++ [(for' b c, x)] := by
          simp [alone, hc]
        rw [this]
        exact .snoc k2 e1
      | false =>
        refine ⟨name, b, t, mem_snoc.mpr (.inl k1), ?_, sim_other k3 hc (step_effect hs)⟩
        have : alone name f b a (tr ++ [(c, x)]) = alone name f b a tr := by
          simp [alone, hc]
        rw [this]
        exact k2
    · cases hm
      obtain ⟨name, b, t, k1, k2, k3⟩ := sim_make hi hs
      refine ⟨name, b, t, mem_snoc.mpr (.inl k1), ?_, k3⟩
      have n1 : s.heap.next ≤ a := by
        generalize hret : (Ret.ptr (some a) : Ret F) = ret at hs
        generalize hcall : (Call.uttInit (some p) f : Call F) = c at hs
        cases step_effect hs with
        | make hg hr hin hmk =>
          cases hret
          exact Nat.le_of_eq (uttInit_true hmk).1.symm
        | noMake hm => cases hret
        | load hi => cases hcall
        | noLoad hi => cases hcall
        | unload hg hi => cases hcall
        | unmake hg hi => cases hcall
        | use hab hq hne hg => exact absurd hret.symm (hne _)
        | see hq hne => exact absurd hret.symm (hne _)
      have : (tr ++ [(Call.uttInit (some p) f, Ret.ptr (some a))]).filter
          (fun q : Call F × Ret F => About a q.1) = [] := by
        rw [List.filter_eq_nil_iff]
        intro q hq hb
        rcases mem_snoc.mp hq with hq | hq
        · exact absurd (about_next hr hq hb) (Nat.not_lt.mpr n1)
        · subst hq
          cases hb
      show Ran mach w (_ :: _ :: ((tr ++ [(Call.uttInit (some p) f, Ret.ptr (some a))]).filter
        (fun q : Call F × Ret F => About a q.1)).map _) t
      rw [this]
      exact k2

variable {mach : Main.Machine G F D} {w : App.World G}

/-! ## Lemmas about runs -/

theorem run_ran {tr : List (Call F × Ret F)} {s s' : Session G F} {cs : List (Call F)} {xs : List (Ret F)}
    (h : Ran mach w tr s) (hr : run mach w s cs = .ok (xs, s')) : Ran mach w (tr ++ cs.zip xs) s' := by
  induction cs generalizing tr s xs with
  | nil =>
    cases hr
    simpa using h
  | cons c cs ih =>
    unfold run at hr
    obtain ⟨⟨x, s1⟩, h1, hr⟩ := bind_ok hr
    obtain ⟨⟨ys, s2⟩, h2, hr⟩ := bind_ok hr
    cases hr
    have := ih (.snoc h h1) h2
    simpa using this

theorem run_snoc (s : Session G F) (cs : List (Call F)) (c : Call F) : run mach w s (cs ++ [c]) =
    run mach w s cs >>= fun q => step mach w q.2 c >>= fun z => .ok (q.1 ++ [z.1], z.2) := by
  induction cs generalizing s with
  | nil =>
    show (step mach w s c >>= _) = (Except.ok ([], s) >>= _)
    rw [ok_bind]
    cases step mach w s c with
    | error _ => rfl
    | ok _ => rfl
  | cons d cs ih =>
    show (step mach w s d >>= _) = ((step mach w s d >>= _) >>= _)
    cases step mach w s d with
    | error _ => rfl
    | ok z =>
      obtain ⟨z, s1⟩ := z
      show (run mach w s1 (cs ++ [c]) >>= _) = ((run mach w s1 cs >>= _) >>= _)
      rw [ih]
      cases run mach w s1 cs with
      | error _ => rfl
      | ok q =>
        obtain ⟨q, s2⟩ := q
        show ((step mach w s2 c >>= _) >>= _) = (step mach w s2 c >>= _)
        cases step mach w s2 c with
        | error _ => rfl
        | ok _ => rfl

theorem ran_snoc {tr : List (Call F × Ret F)} {q : Call F × Ret F} {s : Session G F} (h : Ran mach w (tr ++ [q]) s) :
    ∃ s0, Ran mach w tr s0 ∧ step mach w s0 q.1 = .ok (q.2, s) := by
  generalize e : tr ++ [q] = l at h
  cases h with
  | nil => simp at e
  | snoc h1 h2 =>
    obtain ⟨e1, e2⟩ := List.append_inj' e rfl
    cases e1
    cases e2
    exact ⟨_, h1, h2⟩

theorem ran_prefix {tr tr' : List (Call F × Ret F)} {s : Session G F} (h : Ran mach w (tr ++ tr') s) :
    ∃ s0, Ran mach w tr s0 := by
  generalize e : tr ++ tr' = l at h
  induction h generalizing tr' with
  | nil =>
    obtain ⟨rfl, _⟩ := List.append_eq_nil_iff.mp e
    exact ⟨_, .nil⟩
  | @snoc tr0 s c x s1 hr hs ih =>
    rcases List.eq_nil_or_concat tr' with rfl | ⟨l, q, rfl⟩
    · rw [List.append_nil] at e
      subst e
      exact ⟨_, .snoc hr hs⟩
    · rw [List.concat_eq_append, ← List.append_assoc] at e
      obtain ⟨e1, _⟩ := List.append_inj' e rfl
      exact ih e1

theorem ran_det {tr tr' : List (Call F × Ret F)} {s s' : Session G F} (h : Ran mach w tr s) (h' : Ran mach w tr' s')
    (e : tr.map Prod.fst = tr'.map Prod.fst) : tr = tr' ∧ s = s' := by
  induction h generalizing tr' s' with
  | nil =>
    cases h' with
    | nil => exact ⟨rfl, rfl⟩
    | snoc _ _ => simp at e
  | @snoc tr s c x s1 hr hs ih =>
    cases h' with
    | nil => simp at e
    | @snoc tr2 s2 c2 x2 s3 hr2 hs2 =>
      rw [List.map_append, List.map_append] at e
      obtain ⟨e1, e2⟩ := List.append_inj' e rfl
      obtain ⟨rfl, rfl⟩ := ih hr2 e1
      cases e2
      rw [hs] at hs2
      cases hs2
      exact ⟨rfl, rfl⟩

theorem load_next {s s' : Session G F} {name : Str} {p : Nat}
    (hs : step mach w s (.sttInit name) = .ok (.ptr (some p), s')) : p = s.heap.next := by
  generalize hret : (Ret.ptr (some p) : Ret F) = ret at hs
  generalize hcall : (Call.sttInit name : Call F) = c at hs
  cases step_effect hs with
  | load hl =>
    cases hret
    rcases App.init_after hl with ⟨e, _⟩ | ⟨self1, conf, e, _, _⟩
    · cases e
    · cases e; rfl
  | noLoad hi => cases hret
  | make hg hr hin hmk => cases hcall
  | noMake hm => cases hret
  | unload hg hi => cases hcall
  | unmake hg hi => cases hcall
  | use hab hq hne hg => exact absurd hret.symm (hne _)
  | see hq hne => exact absurd hret.symm (hne _)

/-- An address is given to one recogniser only. -/
theorem made_once {tr : List (Call F × Ret F)} {s : Session G F} (h : Ran mach w tr s) {n1 n2 : Str} {p : Nat}
    (h1 : (Call.sttInit n1, Ret.ptr (some p)) ∈ tr) (h2 : (Call.sttInit n2, Ret.ptr (some p)) ∈ tr) : n1 = n2 := by
  induction h with
  | nil => cases h1
  | @snoc tr s c x s' hr hs ih =>
    have hi := ran_inv hr
    rcases mem_snoc.mp h1 with k1 | k1 <;> rcases mem_snoc.mp h2 with k2 | k2
    · exact ih k1 k2
    · cases k2
      exact absurd (load_next hs) (Nat.ne_of_lt (hi.trNext _ _ k1))
    · cases k1
      exact absurd (load_next hs) (Nat.ne_of_lt (hi.trNext _ _ k2))
    · rw [← k1] at k2
      cases k2
      rfl

/-- A recogniser that was not destroyed is as it was loaded. -/
theorem ran_live {tr : List (Call F × Ret F)} {s : Session G F} (h : Ran mach w tr s) {name : Str} {p : Nat}
    (hm : (Call.sttInit name, Ret.ptr (some p)) ∈ tr) (hd : ∀ x, (Call.sttDestroy (some p), x) ∉ tr) :
    ∃ self, s.stts.get p = some self ∧ ∃ h0 h1 c, App.init w name h0 = .ok (some (p, self), h1, c) := by
  induction h with
  | nil => cases hm
  | @snoc tr s c x s' hr hs ih =>
    have hi := ran_inv hr
    have hd' : ∀ x, (Call.sttDestroy (some p), x) ∉ tr := fun x hx => hd x (mem_snoc.mpr (.inl hx))
    rcases mem_snoc.mp hm with hm | hm
    · obtain ⟨self, h1, h2⟩ := ih hm hd'
      have hp : p < s.heap.next := hi.sttNext _ (get_mem h1)
      refine ⟨self, ?_, h2⟩
      cases step_effect hs with
      | load hl =>
        rcases App.init_after hl with ⟨e, _⟩ | ⟨self1, conf, e, _, _⟩
        · cases e
        · cases e
          show Store.get (Store.put _ _ _) p = _
          rw [get_put, if_neg (Nat.ne_of_lt hp)]
          exact h1
      | noLoad hi => exact h1
      | make hg hr hin hmk => exact h1
      | noMake hm => exact h1
      | @unload q self' heap hg hi =>
        have : p ≠ q := by
          rintro rfl
          exact hd _ (mem_snoc.mpr (.inr rfl))
        show Store.get (Store.put _ _ _) p = _
        rw [get_put, if_neg this]
        exact h1
      | unmake hg hi => exact h1
      | use hab hq hne hg => exact h1
      | see hq hne => exact h1
    · generalize hret : x = ret at hs
      generalize hcall : c = call at hs
      cases hm
      cases step_effect hs with
      | @load name' a self heap hl =>
        cases hret
        cases hcall
        refine ⟨self, ?_, _, _, _, hl⟩
        show Store.get (Store.put _ _ _) p = _
        rw [get_put, if_pos rfl]
      | noLoad hi => cases hret
      | make hg hr hin hmk => cases hcall
      | noMake hm => cases hret
      | unload hg hi => cases hcall
      | unmake hg hi => cases hcall
      | use hab hq hne hg => exact absurd hret.symm (hne _)
      | see hq hne => exact absurd hret.symm (hne _)

end Verif.Api
