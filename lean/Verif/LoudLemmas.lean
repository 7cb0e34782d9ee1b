import Verif.LoudModel

/-!
# The program with its warnings: leaving them out gives the other models
-/

namespace Verif.Loud

open Verif Verif.Fst Verif.Decoder

/-! ## Runs -/

theorem res_bind {α β : Type} (x : Talk α) (f : α → Talk β) : (x >>= f).res = x.res >>= fun a => (f a).res := by
  show (Talk.bind x f).res = _
  unfold Talk.bind
  cases x.res <;> rfl

theorem said_bind {α β : Type} (x : Talk α) (f : α → Talk β) :
    (x >>= f).said = x.said ++ (match x.res with | .ok a => (f a).said | .error _ => []) := by
  show (Talk.bind x f).said = _
  unfold Talk.bind
  cases x.res with
  | ok a => rfl
  | error e => exact (List.append_nil _).symm

@[simp] theorem res_pure {α : Type} (a : α) : (pure a : Talk α).res = .ok a := rfl
@[simp] theorem said_pure {α : Type} (a : α) : (pure a : Talk α).said = [] := rfl
@[simp] theorem res_lift {α : Type} (x : Exec α) : (Talk.lift x).res = x := rfl
@[simp] theorem said_lift {α : Type} (x : Exec α) : (Talk.lift x).said = [] := rfl

theorem res_bind_eq {α β : Type} {x : Talk α} {f : α → Talk β} {y : Exec α} {g : α → Exec β} (h : x.res = y)
    (hf : ∀ a, (f a).res = g a) : (x >>= f).res = y >>= g := by
  rw [res_bind, h]
  cases y with
  | error e => rfl
  | ok a => exact hf a

theorem res_foldlM {α β : Type} {f : β → α → Talk β} {g : β → α → Exec β} (h : ∀ b a, (f b a).res = g b a) :
    ∀ (l : List α) (b : β), (l.foldlM f b).res = l.foldlM g b
  | [], _ => rfl
  | a :: l, b => by
    rw [List.foldlM_cons, List.foldlM_cons]
    exact res_bind_eq (h b a) (fun b => res_foldlM h l b)

theorem bind_assoc' {α β γ : Type} (x : Talk α) (f : α → Talk β) (g : β → Talk γ) :
    x >>= f >>= g = x >>= fun a => f a >>= g := by
  obtain ⟨s, r⟩ := x
  cases r with
  | error e => rfl
  | ok a =>
    show Talk.bind (Talk.bind ⟨s, .ok a⟩ f) g = Talk.bind ⟨s, .ok a⟩ _
    unfold Talk.bind
    simp only
    cases h : (f a).res with
    | error e =>
      show _ = (⟨s ++ (Talk.bind (f a) g).said, (Talk.bind (f a) g).res⟩ : Talk γ)
      unfold Talk.bind
      rw [h]
    | ok b =>
      show _ = (⟨s ++ (Talk.bind (f a) g).said, (Talk.bind (f a) g).res⟩ : Talk γ)
      unfold Talk.bind
      simp only [h, List.append_assoc]

theorem bind_pure' {α : Type} (x : Talk α) : x >>= pure = x := by
  obtain ⟨s, r⟩ := x
  cases r with
  | error e => rfl
  | ok a =>
    show (⟨s ++ [], .ok a⟩ : Talk α) = _
    rw [List.append_nil]

theorem pure_bind' {α β : Type} (a : α) (f : α → Talk β) : (pure a : Talk α) >>= f = f a := rfl

instance : LawfulMonad Talk := LawfulMonad.mk'
  (id_map := fun x => bind_pure' x)
  (pure_bind := fun a f => pure_bind' a f)
  (bind_assoc := fun x f g => bind_assoc' x f g)

theorem res_mapM {α β : Type} {f : α → Talk β} {g : α → Exec β} (h : ∀ a, (f a).res = g a) :
    ∀ l : List α, (l.mapM f).res = l.mapM g
  | [] => rfl
  | a :: l => by
    rw [List.mapM_cons, List.mapM_cons]
    refine res_bind_eq (h a) fun b => res_bind_eq (res_mapM h l) fun bs => rfl

variable {F D : Type}

/-! ## Features -/

theorem melBin_res (n : F → Bool) (o : Fbank.Ops F) (w : List F) (bin : Nat × List F) :
    (melBin n o w bin).res = Fbank.melBin o w bin := by
  unfold melBin
  rw [res_bind]
  cases Fbank.melBin o w bin with
  | error e => rfl
  | ok x =>
    show (if n x = true then _ else _ : Talk F).res = _
    split <;> rfl

theorem computeFrame_res (n : F → Bool) (o : Fbank.Ops F) (x y : List F) :
    (computeFrame n o x y).res = Fbank.computeFrame o x y := by
  unfold computeFrame Fbank.computeFrame melCompute Fbank.melCompute
  refine res_bind_eq rfl ?_
  rintro ⟨x, y⟩
  refine res_bind_eq rfl fun x => res_bind_eq (res_mapM (melBin_res n o x) _) fun es => res_bind_eq rfl fun f => rfl

theorem fbankLoop_res (n : F → Bool) (o : Fbank.Ops F) (wave : List F) : ∀ (k i : Nat) (x y : List F),
    (fbankLoop n o wave k i x y).res = Fbank.frameLoop o wave k i x y
  | 0, _, _, _ => rfl
  | k + 1, i, x, y => by
    unfold fbankLoop Fbank.frameLoop
    refine res_bind_eq rfl fun x => res_bind_eq (computeFrame_res n o x y) ?_
    rintro ⟨f, x, y⟩
    exact res_bind_eq rfl fun _ => res_bind_eq (fbankLoop_res n o wave k (i + 1) x y) fun _ => rfl

theorem fbankProcess_res (n : F → Bool) (o : Fbank.Ops F) (junk : Fbank.Junk F) (buf wave : List F) :
    (fbankProcess n o junk buf wave).res = Fbank.process o junk buf wave := by
  unfold fbankProcess Fbank.process
  split
  · exact res_bind_eq (res_lift _) fun _ => rfl
  · refine res_bind_eq (res_lift _) fun total => res_bind_eq (res_lift _) fun _ => ?_
    generalize Fbank.calcNumFrames _ = k
    simp only
    split
    · rfl
    · exact res_bind_eq (res_lift _) fun _ => res_bind_eq (fbankLoop_res n o _ _ _ _ _) fun rows =>
        res_bind_eq (res_lift _) fun remove => res_bind_eq (res_lift _) fun _ => rfl

/-! ## Search -/

theorem startState_res (l : Lm F) : (startState l).res = l.fst.start := by
  unfold startState
  refine res_bind_eq rfl fun s => res_bind_eq rfl fun r => ?_
  cases r <;> rfl

theorem propagateLm_res (ar : Arith F D) (lm : IFst F) (s label : Int) :
    (propagateLm ar lm s label).res = Decoder.propagateLm ar lm s label := by
  unfold propagateLm Decoder.propagateLm
  split
  · refine res_bind_eq rfl fun r => ?_
    cases r <;> rfl
  · rfl

theorem addLm_res (e : Env F D) (s label : Int) (total : D) :
    (addLm e s label total).res = Decoder.addLm e s label total := by
  unfold addLm Decoder.addLm
  cases e.lm with
  | none => rfl
  | some lm =>
    refine res_bind_eq (propagateLm_res _ _ _ _) ?_
    rintro ⟨a, b⟩
    rfl

theorem nonemitArc_res (e : Env F D) (i : Nat) (cutoff : D) (acc : Dec F × List State) (arc : GArc F) :
    (nonemitArc e i cutoff acc arc).res = Decoder.nonemitArc e i cutoff acc arc := by
  obtain ⟨d, stack⟩ := acc
  unfold nonemitArc Decoder.nonemitArc
  simp only
  split
  · rfl
  · cases d.toks[i]? with
    | none => rfl
    | some tok =>
      refine res_bind_eq (addLm_res _ _ _ _) ?_
      rintro ⟨l, t⟩
      simp only
      split
      · rfl
      · refine res_bind_eq rfl ?_
        rintro ⟨b, d⟩
        rfl

theorem nonemitLoop_res (e : Env F D) (cutoff : D) : ∀ (fuel : Nat) (d : Dec F) (stack : List State),
    (nonemitLoop e cutoff fuel d stack).res = Decoder.nonemitLoop e cutoff fuel d stack
  | 0, _, [] => by unfold nonemitLoop Decoder.nonemitLoop; rfl
  | _ + 1, _, [] => by unfold nonemitLoop Decoder.nonemitLoop; rfl
  | 0, _, _ :: _ => rfl
  | fuel + 1, d, st :: stack => by
    unfold nonemitLoop Decoder.nonemitLoop
    cases d.idx.lookup st with
    | none => rfl
    | some i =>
      refine res_bind_eq (res_foldlM (nonemitArc_res e _ cutoff) _ _) ?_
      rintro ⟨d, stack⟩
      exact nonemitLoop_res e cutoff fuel d stack

theorem processNonemitting_res (e : Env F D) (cutoff : D) (fuel : Nat) (d : Dec F) :
    (processNonemitting e cutoff fuel d).res = Decoder.processNonemitting e cutoff fuel d := by
  unfold processNonemitting Decoder.processNonemitting
  exact res_bind_eq rfl fun _ => nonemitLoop_res _ _ _ _ _

theorem emitArc_res (e : Env F D) (frame : List F) (ab : F) (tok : Token F) (acc : D × Dec F) (arc : GArc F) :
    (emitArc e frame ab tok acc arc).res = Decoder.emitArc e frame ab tok acc arc := by
  obtain ⟨nwc, d⟩ := acc
  unfold emitArc Decoder.emitArc
  simp only
  split
  · rfl
  · refine res_bind_eq rfl fun total => ?_
    split
    · rfl
    · refine res_bind_eq (addLm_res _ _ _ _) ?_
      rintro ⟨l, t⟩
      refine res_bind_eq rfl fun _ => res_bind_eq rfl ?_
      rintro ⟨b, d⟩
      rfl

theorem emitTok_res (e : Env F D) (frame : List F) (wc ab : F) (acc : D × Dec F) (tok : Token F) :
    (emitTok e frame wc ab acc tok).res = Decoder.emitTok e frame wc ab acc tok := by
  unfold emitTok Decoder.emitTok
  split
  · rfl
  · refine res_bind_eq (res_foldlM (emitArc_res e frame ab tok) _ _) ?_
    rintro ⟨n, d⟩
    rfl

theorem processEmitting_res (e : Env F D) (frame : List F) (d : Dec F) :
    (processEmitting e frame d).res = Decoder.processEmitting e frame d := by
  unfold processEmitting Decoder.processEmitting
  refine res_bind_eq rfl ?_
  rintro ⟨cut, ab, best⟩
  simp only
  split
  · rfl
  · refine res_bind_eq rfl fun n => res_bind_eq (res_foldlM (emitTok_res e frame _ ab) _ _) ?_
    rintro ⟨n, d⟩
    rfl

theorem decode_res (e : Env F D) (fuel : Nat) (frame : List F) (d : Dec F) :
    (decode e fuel frame d).res = Decoder.process e fuel frame d := by
  unfold decode Decoder.process
  refine res_bind_eq (processEmitting_res e frame d) ?_
  rintro ⟨c, d⟩
  cases c with
  | none => rfl
  | some c =>
    simp only
    split
    · rfl
    · refine res_bind_eq (processNonemitting_res _ _ _ _) fun d => ?_
      split <;> rfl

/-! ## The C interface -/

theorem lmStart_res (r : Rec F D) : (lmStart r).res = Decoder.lmStart r.plain.dec := by
  unfold lmStart Decoder.lmStart Rec.plain
  cases r.lm with
  | none => rfl
  | some l => exact startState_res l

theorem initDecoder_res (r : Rec F D) (fuel : Nat) (d : Dec F) :
    (initDecoder r fuel d).res = Decoder.initDecoder r.plain.dec fuel d := by
  unfold initDecoder Decoder.initDecoder
  refine res_bind_eq rfl fun _ => res_bind_eq (lmStart_res r) fun ls => res_bind_eq rfl ?_
  rintro ⟨b, d⟩
  exact processNonemitting_res _ _ _ _

theorem decodeRow_res (r : Rec F D) (fill : Nat → UInt8) (b : Stt.Back F) (row : List F) :
    (decodeRow r fill b row).res = Stt.decodeRow r.plain fill b row := by
  unfold decodeRow Stt.decodeRow
  refine res_bind_eq (decode_res _ _ _ _) ?_
  rintro ⟨_, _, d⟩
  simp only
  split <;> rfl

theorem frameLoop_res (r : Rec F D) (fill : Nat → UInt8) : ∀ (fs out : List (List F)) (b : Stt.Back F),
    (frameLoop r fill out fs b).res = Stt.frameLoop r.plain fill out fs b
  | [], out, b => by unfold frameLoop Stt.frameLoop; rfl
  | f :: fs, out, b => by
    unfold frameLoop Stt.frameLoop
    refine res_bind_eq rfl ?_
    rintro ⟨rows, inst⟩
    exact res_bind_eq (res_foldlM (decodeRow_res r fill) _ _) fun b => frameLoop_res r fill fs rows b

theorem afterSamples_res (r : Rec F D) (mem : Stt.Mem F) (u : Stt.Utt F) (xs : List F) :
    (afterSamples r mem u xs).res = Stt.afterSamples r.plain mem u xs := by
  unfold afterSamples Stt.afterSamples
  split
  · rfl
  · refine res_bind_eq (fbankProcess_res _ _ _ _ _) ?_
    rintro ⟨feats, wave⟩
    exact res_bind_eq (frameLoop_res _ _ _ _ _) fun b => rfl

/-- What `ce_stt_process` does with an utterance that exists. -/
theorem processApi_ready (r : Rec F D) (mem : Stt.Mem F) (u : Stt.Utt F) (msg : Stt.Msg) (data : List UInt8) :
    ((Stt.processApi mem (.ready r.plain u) msg (some data) data.length).map fun x => x.2.1) =
      (feed r mem data u).res.map (fun u => Stt.Handle.ready r.plain u) := by
  unfold Stt.processApi feed Stt.checkParamUtt
  simp only [Int.reduceEq, if_false]
  cases u.reader.process r.plain.conv (some data) data.length with
  | error e => cases e <;> rfl
  | ok p =>
    obtain ⟨xs, reader⟩ := p
    simp only
    rw [afterSamples_res]
    cases Stt.afterSamples r.plain mem { u with reader := reader } xs <;> rfl

theorem finish_res (r : Rec F D) (fill : Nat → UInt8) (u : Stt.Utt F) :
    (finish r fill u).res = Stt.finish r.plain fill u := by
  unfold finish Stt.finish
  refine res_bind_eq rfl ?_
  rintro ⟨rows, inst⟩
  refine res_bind_eq (res_foldlM ?_ _ _) fun d => res_bind_eq rfl fun b => rfl
  intro d row
  refine res_bind_eq (decode_res _ _ _ _) ?_
  rintro ⟨_, _, d⟩
  rfl

theorem initApi_some (r : Rec F D) (fmt : Pcm.Format) (msg : Stt.Msg) :
    ((Stt.initApi (some r.plain) fmt msg).map Prod.fst) =
      (uttInit r fmt).res.map fun u => match u with | none => Stt.Handle.null | some u => .ready r.plain u := by
  unfold Stt.initApi uttInit
  rw [res_bind, initDecoder_res]
  simp only
  cases Decoder.initDecoder r.plain.dec r.plain.fuel fresh with
  | error e => rfl
  | ok d =>
    simp only [ok_bind]
    cases Pcm.Reader.new.setFormat fmt with
    | error e => cases e <;> rfl
    | ok reader => rfl

end Verif.Loud
