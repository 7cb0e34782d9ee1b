import Verif.SayLemmas

/-!
# Lemmas about the texts in a program
-/

namespace Verif.Msg

open Verif Verif.Text Verif.App Verif.App.Spec Verif.Msg.Spec Verif.Api Verif.Api.Spec Verif.Pcm.Spec

variable {G F D : Type} {mach : Main.Machine G F D} {w : World G}

/-- All utterances have a format. -/
def Ready (s : Session G F) : Prop := ∀ a x, s.utts.get a = some x → x.data.reader.ready = true

theorem setFormat_ready {r r' : Pcm.Reader} {f : Pcm.Format} (h : r.setFormat f = .ok r') : r'.ready = true := by
  unfold Pcm.Reader.setFormat at h
  split at h
  · cases h
  · split at h
    · cases h
    · split at h
      · cases h
        rfl
      · cases h

theorem process_ready {conv : Int → F} {r r' : Pcm.Reader} {data : Option (List UInt8)} {size : Int} {xs : List F}
    (h : r.process conv data size = .ok (xs, r')) : r'.ready = r.ready := by
  unfold Pcm.Reader.process at h
  cases data with
  | none => cases h
  | some mem =>
    dsimp only at h
    split at h
    · cases h
    · split at h
      · cases h
      · split at h
        · cases h
        · cases hd : Pcm.decodeBuffer conv r.format.bits (r.buffer ++ mem.take size.toNat) with
          | error e => rw [hd] at h; cases h
          | ok x =>
            rw [hd] at h
            cases h
            rfl

theorem initApi_reader {rec : Option (Stt.Rec F D)} {f : Pcm.Format} {m m' : Stt.Msg} {r : Stt.Rec F D} {u : Stt.Utt F}
    (h : Stt.initApi rec f m = .ok (.ready r u, m')) : u.reader.ready = true := by
  unfold Stt.initApi at h
  cases rec with
  | none => cases h
  | some r0 =>
    dsimp only at h
    obtain ⟨d, _, h⟩ := bind_ok h
    split at h
    · cases h
    · cases h
    · rename_i hs
      cases h
      exact setFormat_ready hs

theorem afterSamples_reader {r : Stt.Rec F D} {mem : Stt.Mem F} {u u' : Stt.Utt F} {xs : List F}
    (h : Stt.afterSamples r mem u xs = .ok u') : u'.reader = u.reader := by
  unfold Stt.afterSamples at h
  split at h
  · cases h
    rfl
  · obtain ⟨⟨feats, wave⟩, _, h⟩ := bind_ok h
    obtain ⟨back, _, h⟩ := bind_ok h
    cases h
    rfl

theorem finish_reader {r : Stt.Rec F D} {fill : Nat → UInt8} {u u' : Stt.Utt F} (h : Stt.finish r fill u = .ok u') :
    u'.reader = u.reader := by
  unfold Stt.finish at h
  obtain ⟨⟨rows, inst⟩, _, h⟩ := bind_ok h
  obtain ⟨d, _, h⟩ := bind_ok h
  obtain ⟨back, _, h⟩ := bind_ok h
  cases h
  rfl

theorem Ready.put {s s' : Session G F} (h : Ready s) {a : Nat} {x : Api.Utt F} (hx : x.data.reader.ready = true)
    (hu : s'.utts = s.utts.put a x) : Ready s' := by
  intro b y hy
  rw [hu, get_put] at hy
  split at hy
  · cases hy
    exact hx
  · exact h b y hy

theorem Ready.same {s s' : Session G F} (h : Ready s) (hu : s'.utts = s.utts) : Ready s' := by
  intro b y hy
  rw [hu] at hy
  exact h b y hy

/-- Every call keeps it so. -/
theorem step_ready {s s' : Session G F} {c : Call F} {x : Ret F} (hr : Ready s)
    (h : Api.step mach w s c = .ok (x, s')) : Ready s' := by
  cases c with
  | sttInit name =>
    replace h : Api.sttInit w s name = .ok (x, s') := h
    unfold Api.sttInit at h
    obtain ⟨⟨p, heap, c⟩, _, h⟩ := bind_ok h
    rcases p with _ | ⟨a, self⟩
    · rcases c with _ | c <;> (cases h; exact hr.same rfl)
    · cases h
      exact hr.same rfl
  | sttDestroy p =>
    replace h : Api.sttDestroy s p = .ok (x, s') := h
    unfold Api.sttDestroy at h
    split at h
    · cases h
    · split at h
      · cases h
      · obtain ⟨_, _, h⟩ := bind_ok h
        cases h
        exact hr.same rfl
  | uttInit p f =>
    replace h : Api.uttInit mach s p f = .ok (x, s') := h
    unfold Api.uttInit at h
    split at h
    · cases h
    · split at h
      · cases h
      · obtain ⟨⟨hd, msg⟩, h1, h⟩ := bind_ok h
        cases hd with
        | ready r u =>
          obtain ⟨⟨m, heap⟩, _, h⟩ := bind_ok h
          cases m with
          | none => cases h
          | some m =>
            cases h
            exact hr.put (x := ⟨_, _, _⟩) (initApi_reader h1) rfl
        | null =>
          obtain ⟨⟨m, heap⟩, _, h⟩ := bind_ok h
          cases h
          exact hr.same rfl
        | noInternal _ _ =>
          obtain ⟨⟨m, heap⟩, _, h⟩ := bind_ok h
          cases h
          exact hr.same rfl
        | noRecognizer _ =>
          obtain ⟨⟨m, heap⟩, _, h⟩ := bind_ok h
          cases h
          exact hr.same rfl
  | uttDestroy u =>
    replace h : Api.uttDestroy s u = .ok (x, s') := h
    unfold Api.uttDestroy at h
    split at h
    · cases h
    · split at h
      · cases h
      · obtain ⟨_, _, h⟩ := bind_ok h
        cases h
        intro b y hy
        rw [get_del] at hy
        split at hy
        · cases hy
        · exact hr b y hy
  | process u mem data size =>
    replace h : Api.process mach s u mem data size = .ok (x, s') := h
    unfold Api.process at h
    split at h
    · cases h
      exact hr.same rfl
    · split at h
      · cases h
      · rename_i a y hy
        split at h
        · cases h
        · split at h
          · unfold Api.processOrphan at h
            split at h
            · cases h
            · cases h
              exact hr.same rfl
            · rename_i hp
              split at h
              · cases h
                exact hr.put (x := ⟨_, _, ⟨_, _, _⟩⟩) ((process_ready hp).trans (hr _ _ hy)) rfl
              · cases h
          · rw [processApi_ready] at h
            split at h
            · cases h
            · cases h
              exact hr.put (x := ⟨_, _, _⟩) (hr _ _ hy) rfl
            · rename_i hp
              obtain ⟨⟨_, hd, msg⟩, h1, h⟩ := bind_ok h
              obtain ⟨u', h2, h1⟩ := bind_ok h1
              cases h1
              cases h
              refine hr.put (x := ⟨_, _, _⟩) ?_ rfl
              rw [afterSamples_reader h2]
              exact (process_ready hp).trans (hr _ _ hy)
  | endOfStream u fill =>
    replace h : Api.endOfStream mach s u fill = .ok (x, s') := h
    unfold Api.endOfStream at h
    split at h
    · cases h
    · split at h
      · cases h
      · rename_i a y hy
        split at h
        · cases h
        · split at h
          · cases h
          · rw [Stt.end_ready] at h
            obtain ⟨⟨hd, msg⟩, h1, h⟩ := bind_ok h
            obtain ⟨u', h2, h1⟩ := bind_ok h1
            cases h1
            cases h
            refine hr.put (x := ⟨_, _, _⟩) ?_ rfl
            rw [finish_reader h2]
            exact hr _ _ hy
  | look u =>
    replace h : Api.look s u = .ok (x, s') := h
    unfold Api.look at h
    split at h
    · cases h
    · split at h
      · cases h
      · obtain ⟨_, _, h⟩ := bind_ok h
        cases h
        exact hr
  | readHeader file =>
    replace h : Api.readHeader s file = .ok (x, s') := h
    unfold Api.readHeader at h
    split at h
    · cases h
    · cases h
      exact hr.same rfl
    · cases h
      exact hr
  | lastError =>
    cases h
    exact hr

/-- What a call does to the buffer. -/
def Marks (w : World G) (c : Call F) (r : Ret F) (buf buf' : Str) : Prop :=
  buf'.length = 2048 ∧
    ((Fails r ∧ ∃ t, Told w c t ∧ lastError buf' = shown t) ∨ (¬ Fails r ∧ buf' = buf))

theorem saying_marks {α : Type} {r : Mio α} {buf : Str} (hb : buf.length = 2048) {c : Call F} {x : Ret F}
    (h1 : ∀ k t, r = .error (.status k t) → Fails x ∧ Told w c t)
    (h2 : (∀ k t, r ≠ .error (.status k t)) → ¬ Fails x) : ∃ buf', saying buf r = .ok buf' ∧ Marks w c x buf buf' := by
  obtain ⟨b, e1, e2, e3, e4⟩ := saying_cases hb r
  refine ⟨b, e1, e2, ?_⟩
  by_cases he : ∃ k t, r = .error (.status k t)
  · obtain ⟨k, t, he⟩ := he
    exact .inl ⟨(h1 k t he).1, t, (h1 k t he).2, e3 k t he⟩
  · have he' : ∀ k t, r ≠ .error (.status k t) := fun k t h => he ⟨k, t, h⟩
    exact .inr ⟨h2 he', e4 he'⟩

theorem recogniser_conv {self : Self G} {r : Stt.Rec F D} (h : mach.recogniser self = some r) : r.conv = mach.conv := by
  unfold Main.Machine.recogniser at h
  split at h
  · cases h
    rfl
  · cases h

/-- A call with texts and the call without. -/
theorem step_marks {s : Session G F} {buf : Str} (hr : Ready s) (hb : buf.length = 2048) (c : Call F) :
    (∀ f, Api.step mach w s c = .error f → step mach w (s, buf) c = .error f) ∧
      ∀ x s', Api.step mach w s c = .ok (x, s') →
        ∃ buf', step mach w (s, buf) c = .ok (x, s', buf') ∧ Marks w c x buf buf' := by
  have other : (∀ s' x, Api.step mach w s c = .ok (x, s') → ¬ Fails x) →
      step mach w (s, buf) c = (Api.step mach w s c >>= fun y => .ok (y.1, y.2, buf)) →
      (∀ f, Api.step mach w s c = .error f → step mach w (s, buf) c = .error f) ∧
      ∀ x s', Api.step mach w s c = .ok (x, s') →
        ∃ buf', step mach w (s, buf) c = .ok (x, s', buf') ∧ Marks w c x buf buf' := by
    intro h1 h2
    refine ⟨fun f hf => by rw [h2, hf]; rfl, fun x s' hs => ⟨buf, by rw [h2, hs]; rfl, hb, .inr ⟨h1 s' x hs, rfl⟩⟩⟩
  cases c with
  | sttInit name =>
    have hsame := C89_same w name s.heap buf hb
    have e1 : Api.step mach w s (.sttInit name) = Api.sttInit w s name := rfl
    have e2 : step mach w (s, buf) (.sttInit name) = sttInit w (s, buf) name := rfl
    rw [e1, e2]
    unfold Api.sttInit sttInit
    rw [← hsame]
    dsimp only
    cases hi : init w name s.heap buf with
    | error f => exact ⟨(fun f' hf => by cases hf; rfl), fun x s' hs => by cases hs⟩
    | ok y =>
      obtain ⟨p, heap, c, buf'⟩ := y
      refine ⟨fun f' hf => ?_, fun x s' hs => ?_⟩
      · rcases p with _ | ⟨a, self⟩
        · rcases c with _ | c <;> cases hf
        · cases hf
      · rcases p with _ | ⟨a, self⟩
        · obtain ⟨⟨c', rfl⟩, h2, h3⟩ := init_told (F := F) hb hi
          cases hs
          exact ⟨buf', rfl, h2, .inl ⟨trivial, h3⟩⟩
        · obtain ⟨rfl, rfl⟩ := C89_success_keeps_text w name _ _ _ _ _ _ hb hi
          cases hs
          exact ⟨buf', rfl, hb, .inr ⟨id, rfl⟩⟩
  | sttDestroy p =>
    refine other (fun s' x h => ?_) rfl
    replace h : Api.sttDestroy s p = .ok (x, s') := h
    unfold Api.sttDestroy at h
    split at h
    · cases h
    · split at h
      · cases h
      · obtain ⟨_, _, h⟩ := bind_ok h
        cases h
        exact id
  | uttInit p f =>
    have e1 : Api.step mach w s (.uttInit p f) = Api.uttInit mach s p f := rfl
    have e2 : step mach w (s, buf) (.uttInit p f) =
      (Api.uttInit mach s p f >>= fun y => saying buf (setFormat Pcm.Reader.new f) >>= fun b => .ok (y.1, y.2,
  b)) := rfl
    rw [e1, e2]
    refine ⟨fun e he => by rw [he]; rfl, fun x s' h => ?_⟩
    have key : (∀ k t, setFormat Pcm.Reader.new f = .error (.status k t) → Fails x) ∧
        ((∀ k t, setFormat Pcm.Reader.new f ≠ .error (.status k t)) → ¬ Fails x) := by
      have hfg := forget_setFormat Pcm.Reader.new f
      unfold Api.uttInit at h
      split at h
      · cases h
      · split at h
        · cases h
        · obtain ⟨⟨hd, msg⟩, h1, h⟩ := bind_ok h
          unfold Stt.initApi at h1
          split at h1
          · cases h1
          · obtain ⟨d, _, h1⟩ := bind_ok h1
            rw [← hfg] at h1
            rcases hs : setFormat Pcm.Reader.new f with (⟨k, t⟩ | e) | y
            · rw [hs] at h1
              cases h1
              obtain ⟨⟨m, heap⟩, _, h⟩ := bind_ok h
              cases h
              exact ⟨fun _ _ _ => trivial, fun h => absurd rfl (h k t)⟩
            · rw [hs] at h1
              cases h1
            · rw [hs] at h1
              cases h1
              obtain ⟨⟨m, heap⟩, _, h⟩ := bind_ok h
              refine ⟨(fun k t he => by cases he), fun _ => ?_⟩
              cases m with
              | none => cases h
              | some m =>
                cases h
                exact id
    obtain ⟨b, b1, b2⟩ := saying_marks (w := w) (c := .uttInit p f) (x := x) hb
      (fun k t he => ⟨key.1 k t he, setFormat_told he p⟩) key.2
    exact ⟨b, by rw [h, ok_bind, b1, ok_bind], b2⟩
  | uttDestroy u =>
    refine other (fun s' x h => ?_) rfl
    replace h : Api.uttDestroy s u = .ok (x, s') := h
    unfold Api.uttDestroy at h
    split at h
    · cases h
    · split at h
      · cases h
      · obtain ⟨_, _, h⟩ := bind_ok h
        cases h
        exact id
  | process u mem data size =>
    have e1 : Api.step mach w s (.process u mem data size) = Api.process mach s u mem data size := rfl
    have e2 : step mach w (s, buf) (.process u mem data size) = (Api.process mach s u mem data size >>= fun y =>
      processSays mach (s, buf) u data size >>= fun b => .ok (y.1, y.2, b)) := rfl
    rw [e1, e2]
    refine ⟨fun e he => by rw [he]; rfl, fun x s' h => ?_⟩
    suffices hk : ∃ b, processSays mach (s, buf) u data size = .ok b ∧
        Marks w (.process u mem data size) x buf b by
      obtain ⟨b, b1, b2⟩ := hk
      exact ⟨b, by rw [h, ok_bind, b1, ok_bind], b2⟩
    unfold processSays
    cases u with
    | none =>
      cases h
      obtain ⟨b, h1, h2, h3⟩ := report_shown hb tUttNull
      exact ⟨b, h1, h2, .inl ⟨rfl, tUttNull, .null, h3⟩⟩
    | some a =>
      unfold Api.process at h
      dsimp only at h ⊢
      cases hx : s.utts.get a with
      | none => rw [hx] at h; cases h
      | some y =>
        rw [hx] at h
        dsimp only at h ⊢
        have hrd := hr a y hx
        have hfg := forget_readerProcess mach.conv y.data.reader data size
        refine saying_marks hb (fun k t he => ⟨?_, readerProcess_told hrd he _ _⟩) fun hne => ?_
        · rw [he] at hfg
          cases hst : s.stts.get y.stt with
          | none => rw [hst] at h; cases h
          | some self =>
            rw [hst] at h
            dsimp only at h
            cases hm : mach.recogniser self with
            | none =>
              rw [hm] at h
              dsimp only at h
              unfold Api.processOrphan at h
              rw [← hfg] at h
              cases h
              rfl
            | some r =>
              rw [hm] at h
              dsimp only at h
              rw [processApi_ready, recogniser_conv hm, ← hfg] at h
              cases h
              rfl
        · cases hst : s.stts.get y.stt with
          | none => rw [hst] at h; cases h
          | some self =>
            rw [hst] at h
            dsimp only at h
            rcases hp : readerProcess mach.conv y.data.reader data size with (⟨k, t⟩ | e) | ⟨xs, rd⟩
            · exact absurd hp (hne k t)
            · rw [hp] at hfg
              cases hm : mach.recogniser self with
              | none =>
                rw [hm] at h
                dsimp only at h
                unfold Api.processOrphan at h
                rw [← hfg] at h
                cases h
              | some r =>
                rw [hm] at h
                dsimp only at h
                rw [processApi_ready, recogniser_conv hm, ← hfg] at h
                cases h
            · rw [hp] at hfg
              cases hm : mach.recogniser self with
              | none =>
                rw [hm] at h
                dsimp only at h
                unfold Api.processOrphan at h
                rw [← hfg] at h
                dsimp only [forget] at h
                split at h
                · cases h
                  intro h0
                  cases h0
                · cases h
              | some r =>
                rw [hm] at h
                dsimp only at h
                rw [processApi_ready, recogniser_conv hm, ← hfg] at h
                dsimp only [forget] at h
                obtain ⟨⟨_, hd, msg⟩, h1, h⟩ := bind_ok h
                obtain ⟨u', h2, h1⟩ := bind_ok h1
                cases h1
                cases h
                intro h0
                replace h0 : (xs.length : Int) = -1 := h0
                omega
  | endOfStream u fill =>
    refine other (fun s' x h => ?_) rfl
    replace h : Api.endOfStream mach s u fill = .ok (x, s') := h
    unfold Api.endOfStream at h
    split at h
    · cases h
    · split at h
      · cases h
      · split at h
        · cases h
        · split at h
          · cases h
          · rw [Stt.end_ready] at h
            obtain ⟨⟨hd, msg⟩, h1, h⟩ := bind_ok h
            obtain ⟨_, _, h1⟩ := bind_ok h1
            cases h1
            cases h
            exact id
  | look u =>
    refine other (fun s' x h => ?_) rfl
    replace h : Api.look s u = .ok (x, s') := h
    unfold Api.look at h
    split at h
    · cases h
    · split at h
      · cases h
      · obtain ⟨_, _, h⟩ := bind_ok h
        cases h
        exact id
  | readHeader file =>
    have e1 : Api.step mach w s (.readHeader file) = Api.readHeader s file := rfl
    have e2 : step mach w (s, buf) (.readHeader file) =
      (Api.readHeader s file >>= fun y => saying buf (readPcmHeader [] file) >>= fun b => .ok (y.1, y.2, b)) := rfl
    rw [e1, e2]
    refine ⟨fun e he => by rw [he]; rfl, fun x s' h => ?_⟩
    have hfg := plain_readPcmHeader [] file
    have key : (∀ k t, readPcmHeader [] file = .error (.status k t) → Fails x) ∧
        ((∀ k t, readPcmHeader [] file ≠ .error (.status k t)) → ¬ Fails x) := by
      unfold Api.readHeader at h
      rw [← hfg] at h
      rcases hs : readPcmHeader [] file with (⟨k, t⟩ | e) | y
      · rw [hs] at h
        cases h
        exact ⟨fun _ _ _ => trivial, fun h => absurd rfl (h k t)⟩
      · rw [hs] at h
        cases h
      · rw [hs] at h
        cases h
        exact ⟨(fun k t he => by cases he), fun _ => id⟩
    obtain ⟨b, b1, b2⟩ := saying_marks (w := w) (c := .readHeader file) (x := x) hb
      (fun k t he => ⟨key.1 k t he, .header (header_text file _ _ he)⟩) key.2
    exact ⟨b, by rw [h, ok_bind, b1, ok_bind], b2⟩
  | lastError =>
    refine other (fun s' x h => ?_) rfl
    cases h
    exact id

/-- What is read after more calls. -/
theorem run_marks : ∀ (cs : List (Call F)) {s : Session G F} {buf : Str}, Ready s → buf.length = 2048 →
    (∀ f, Api.run mach w s cs = .error f → run mach w (s, buf) cs = .error f) ∧
      ∀ xs s', Api.run mach w s cs = .ok (xs, s') →
        ∃ buf', run mach w (s, buf) cs = .ok (xs, s', buf') ∧ buf'.length = 2048 ∧
          (((∀ q ∈ cs.zip xs, ¬ Fails q.2) ∧ buf' = buf) ∨ ∃ pre c x post t, cs.zip xs = pre ++ (c, x) :: post ∧
            Fails x ∧ (∀ q ∈ post, ¬ Fails q.2) ∧ Told w c t ∧ lastError buf' = shown t)
  | [], s, buf, _, hb => by
    refine ⟨(fun f h => by cases h), fun xs s' h => ?_⟩
    cases h
    exact ⟨buf, rfl, hb, .inl ⟨(fun q hq => by cases hq), rfl⟩⟩
  | c :: cs, s, buf, hr, hb => by
    obtain ⟨h1, h2⟩ := step_marks (mach := mach) (w := w) hr hb c
    have e1 : Api.run mach w s (c :: cs) = (Api.step mach w s c >>= fun y => Api.run mach w y.2 cs >>= fun z =>
      .ok (y.1 :: z.1, z.2)) := rfl
    have e2 : run mach w (s, buf) (c :: cs) = (step mach w (s, buf) c >>= fun y => run mach w y.2 cs >>= fun z =>
      .ok (y.1 :: z.1, z.2)) := rfl
    rw [e1, e2]
    cases hs : Api.step mach w s c with
    | error f =>
      rw [h1 f hs]
      exact ⟨(fun f' h => by cases h; rfl), fun xs s' h => by cases h⟩
    | ok y =>
      obtain ⟨x, s1⟩ := y
      obtain ⟨b, e, hbl, hm⟩ := h2 x s1 hs
      rw [e]
      simp only [ok_bind]
      obtain ⟨h3, h4⟩ := run_marks cs (step_ready hr hs) hbl
      cases hr2 : Api.run mach w s1 cs with
      | error f =>
        rw [h3 f hr2]
        exact ⟨(fun f' h => by cases h; rfl), fun xs s' h => by cases h⟩
      | ok z =>
        obtain ⟨xs, s2⟩ := z
        obtain ⟨b', e', hbl', hor⟩ := h4 xs s2 hr2
        rw [e']
        refine ⟨fun f' h => (by cases h), fun xs' s' h => ?_⟩
        cases h
        refine ⟨b', rfl, hbl', ?_⟩
        rcases hor with ⟨hn, rfl⟩ | ⟨pre, c', x', post, t, g1, g2⟩
        · rcases hm with ⟨hf, t, ht, hl⟩ | ⟨hf, rfl⟩
          · exact .inr ⟨[], c, x, cs.zip xs, t, rfl, hf, hn, ht, hl⟩
          · refine .inl ⟨?_, rfl⟩
            intro q hq
            rw [List.zip_cons_cons] at hq
            rcases List.mem_cons.1 hq with rfl | hq
            · exact hf
            · exact hn q hq
        · exact .inr ⟨(c, x) :: pre, c', x', post, t, by rw [List.zip_cons_cons, g1]; rfl, g2⟩

end Verif.Msg
