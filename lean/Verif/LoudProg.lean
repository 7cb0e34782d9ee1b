import Verif.LoudMain
import Verif.LmValue

/-!
# The program with its warnings: when they are written
-/

namespace Verif.Loud

open Verif Verif.Fst Verif.Decoder Verif.Loud.Spec

variable {G F D : Type}

/-! ## Pieces of the program -/

/-- Unless the piece ends in a fault, it writes no warning. -/
def HushP {α : Type} (p : Prog α) : Prop := (∀ f, p.res ≠ .error (.fault f)) → p.out = (results p.out).map .result

/-- After the warning that an energy is not a number, the piece ends in a failed assertion. -/
def DoomP {α : Type} (p : Prog α) : Prop := .warning .nan ∈ p.out → p.res = .error (.fault .assert)

theorem hushP_quiet {α : Type} (p : Main.Prog α) : HushP (Prog.quiet p) := by
  intro _
  show p.out.map Out.result = (results (p.out.map Out.result)).map Out.result
  rw [results_results]

theorem hushP_call {α : Type} {t : Talk α} {P : α → Prop} (h : Hush P t) : HushP (Prog.call t) := by
  intro hr
  cases ht : t.res with
  | error f => exact absurd (by unfold Prog.call; simp only [ht]) (hr f)
  | ok a =>
    show t.said.map Out.warning = (results (t.said.map Out.warning)).map Out.result
    rw [(h a ht).1]
    rfl

theorem hushP_bind {α β : Type} {p : Prog α} {f : α → Prog β} (hp : HushP p) (hf : ∀ a, p.res = .ok a → HushP (f a)) :
    HushP (p.bind f) := by
  obtain ⟨o, x⟩ := p
  cases x with
  | error e => exact fun hr => hp fun x hx => hr x (by injection hx with hx; subst hx; rfl)
  | ok a =>
    intro hr
    have h1 := hp (fun f h => by cases h)
    have h2 := hf a rfl hr
    show o ++ (f a).out = (results (o ++ (f a).out)).map .result
    rw [results_append, List.map_append, ← h2]
    simp only at h1
    rw [← h1]

theorem nan_not_result (rs : List Main.Out) : Out.warning .nan ∉ rs.map Out.result := by
  intro h
  obtain ⟨r, _, hr⟩ := List.mem_map.mp h
  cases hr

theorem doomP_quiet {α : Type} (p : Main.Prog α) : DoomP (Prog.quiet p) := fun h => absurd h (nan_not_result _)

theorem doomP_call {α : Type} {t : Talk α} (h : Doom t) : DoomP (Prog.call t) := by
  intro hm
  obtain ⟨w, hw, he⟩ := List.mem_map.mp hm
  injection he with he
  subst he
  unfold Prog.call
  simp only [h hw]

theorem doomP_bind {α β : Type} {p : Prog α} {f : α → Prog β} (hp : DoomP p) (hf : ∀ a, DoomP (f a)) : DoomP (p.bind f) := by
  obtain ⟨o, x⟩ := p
  cases x with
  | error e =>
    intro h
    have := hp h
    injection this with this
    subst this
    rfl
  | ok a =>
    intro h
    rcases List.mem_append.mp h with h | h
    · have := hp h
      cases this
    · exact hf a h

theorem processData_hush {r : Rec F D} {P : Int → Prop} (hk : r.Knows P) (hn : NanLike r.isNan r.base.fb)
    (junk : Main.Junk F) (fmt : Pcm.Format) (data : List UInt8) : HushP (processData (some r) junk fmt data) := by
  show HushP ((Prog.call (uttInit r fmt)).bind (withUtterance r junk data))
  refine hushP_bind (hushP_call (uttInit_hush hk fmt)) fun o ho => ?_
  cases o with
  | none => exact hushP_quiet _
  | some u =>
    have hu : (uttInit r fmt).res = .ok (some u) := by
      unfold Prog.call at ho
      simp only at ho
      split at ho
      · next h => injection ho with ho; rw [h, ho]
      · cases ho
    exact hushP_call (runUtterance_hush hk hn junk data u ((uttInit_hush hk fmt _ hu).2 u rfl))

theorem processData_doom {r : Rec F D} (hn : NanLike r.isNan r.base.fb) (junk : Main.Junk F) (fmt : Pcm.Format)
    (data : List UInt8) : DoomP (processData (some r) junk fmt data) := by
  show DoomP ((Prog.call (uttInit r fmt)).bind (withUtterance r junk data))
  refine doomP_bind (doomP_call (uttInit_doom r fmt)) fun o => ?_
  cases o with
  | none => exact doomP_quiet _
  | some u => exact doomP_call (runUtterance_doom hn junk data u)

/-- A property of pieces of programs that is kept from `ProcessAudio` to `main`. -/
structure Kept (K : ∀ {α : Type}, Prog α → Prop) : Prop where
  quiet : ∀ {α : Type} (p : Main.Prog α), K (Prog.quiet p)
  bind : ∀ {α β : Type} {p : Prog α} {f : α → Prog β}, K p → (∀ a, K (f a)) → K (p.bind f)

theorem kept_hush : Kept HushP := ⟨hushP_quiet, fun hp hf => hushP_bind hp fun a _ => hf a⟩

theorem kept_doom : Kept DoomP := ⟨doomP_quiet, doomP_bind⟩

variable {K : ∀ {α : Type}, Prog α → Prop}

theorem processAudio_kept (hK : Kept @K) {w : App.World G} {rec : Option (Rec F D)} {junk : Main.Junk F}
    (h : ∀ fmt data, K (processData rec junk fmt data)) (name : Text.Str) : K (processAudio w rec junk name) := by
  unfold processAudio
  cases w.file name with
  | none => exact hK.quiet _
  | some bs =>
    simp only
    cases Pcm.readPcmHeader bs with
    | error x =>
      cases x with
      | status c => exact hK.quiet _
      | fault f => exact hK.quiet (⟨[], .error (.fault f)⟩ : Main.Prog Text.Str)
    | ok p => exact h p.1 p.2

theorem scpLine_kept (hK : Kept @K) {w : App.World G} {rec : Option (Rec F D)} {junk : Main.Junk F}
    (h : ∀ fmt data, K (processData rec junk fmt data)) (line : Text.Str) : K (scpLine w rec junk line) := by
  unfold scpLine
  refine hK.bind (hK.quiet _) fun fields => ?_
  split
  · exact hK.bind (processAudio_kept hK h _) fun _ => hK.quiet _
  · exact hK.quiet _

theorem scpLoop_kept (hK : Kept @K) {w : App.World G} {rec : Option (Rec F D)} {junk : Nat → Main.Junk F}
    (h : ∀ i fmt data, K (processData rec (junk i) fmt data)) : ∀ (fuel i : Nat) (f : Text.File),
    K (scpLoop w rec junk fuel i f)
  | 0, _, _ => hK.quiet (⟨[], .error (.fault .fuel)⟩ : Main.Prog Unit)
  | fuel + 1, i, f => by
    unfold scpLoop
    split
    · exact hK.bind (scpLine_kept hK (h i) _) fun _ => scpLoop_kept hK h fuel (i + 1) _
    · exact hK.quiet _
    · exact hK.quiet _

theorem processInput_kept (hK : Kept @K) {w : App.World G} {rec : Option (Rec F D)} {junk : Nat → Main.Junk F}
    (h : ∀ i fmt data, K (processData rec (junk i) fmt data)) (input : Text.Str) : K (processInput w rec junk input) := by
  unfold processInput
  split
  · exact hK.bind (processAudio_kept hK (h 0) _) fun _ => hK.quiet _
  · unfold processScp
    cases w.file input with
    | none => exact hK.quiet _
    | some bs => exact scpLoop_kept hK h _ _ _

theorem main_kept (hK : Kept @K) (mach : Main.Machine G F D) (isNan : F → Bool) (w : App.World G)
    (junk : Nat → Main.Junk F) (conf input : Text.Str)
    (h : ∀ a s h' c, App.init w conf ⟨0, []⟩ = .ok (some (a, s), h', c) → ∀ i fmt data,
      K (processData (recogniser mach isNan s) (junk i) fmt data)) : K (main mach isNan w junk [conf, input]) := by
  unfold main
  simp only
  split
  · exact hK.quiet _
  · cases hx : App.init w conf ⟨0, []⟩ with
    | error e => exact hK.quiet (⟨[], .error (.fault e)⟩ : Main.Prog Unit)
    | ok p =>
      obtain ⟨q, h', c⟩ := p
      show K ((Prog.quiet (Main.Prog.lift (.ok (q, h', c)))).bind _)
      cases q with
      | none => exact hK.quiet Main.fatal
      | some as =>
        obtain ⟨a, s⟩ := as
        refine (?_ : K ((processInput w (recogniser mach isNan s) junk input).bind fun _ =>
          (Prog.quiet (Main.Prog.lift (App.destroy h' (some (a, s))))).bind fun _ => Prog.quiet (pure ())))
        exact hK.bind (processInput_kept hK (h a s h' c hx) input) fun _ => hK.bind (hK.quiet _) fun _ => hK.quiet _

/-! ## The language model of a directory -/

theorem firstArc_value (g : UInt32 → F) (t : Transducer UInt32) (s : Nat) (l : Int) :
    firstArc (Main.Spec.valueFst g t) s l =
      (firstArc t s l).map fun a => ⟨a.next, a.ilabel, a.olabel, g a.weight⟩ := by
  unfold firstArc Main.Spec.valueFst
  simp only [List.getElem?_map]
  cases t.states[s]? with
  | none => rfl
  | some p =>
    simp only [Option.map_some, List.find?_map]
    rfl

theorem chain_value (g : UInt32 → F) {t : Transducer UInt32} {w : Int} {s e : Nat} {bs : List (Arc UInt32)}
    (h : Chain t w s bs e) : Chain (Main.Spec.valueFst g t) w s (bs.map fun a => ⟨a.next, a.ilabel, a.olabel, g a.weight⟩) e := by
  induction h with
  | here s => exact .here s
  | step h1 h2 h3 _ ih =>
    refine .step ?_ ?_ h3 ih
    · rw [firstArc_value, h1]; rfl
    · rw [firstArc_value, h2]; rfl

/-- If the answer along a chain is given at all, it is the arc at its end. -/
theorem lmGetArc_finds {W : Type} {o : FloatOps W} {t : Transducer W} (h : IsLm t) {l : Int} (hl : l ≠ 0) {s e : Nat}
    {bs : List (Arc W)} (hc : Chain t l s bs e) {a : Arc W} (ha : firstArc t e l = some a) : ∀ (fuel : Nat)
    (r : Option (Arc W)), lmGetArc o (fstOf t) [] fuel s l = .ok r → ∃ a', r = some a' ∧ a'.next = a.next := by
  induction hc with
  | here s =>
    intro fuel r hr
    cases fuel with
    | zero => cases hr
    | succ fuel =>
      rw [lmGetArc_step h (lt_of_firstArc ha) hl, ha] at hr
      injection hr with hr
      exact ⟨a, hr.symm, rfl⟩
  | @step s s' e b bs h1 h2 h3 _ ih =>
    intro fuel r hr
    cases fuel with
    | zero => cases hr
    | succ fuel =>
      rw [lmGetArc_step h (lt_of_firstArc h2) hl, h1, h2] at hr
      simp only at hr
      rw [h3] at hr
      obtain ⟨r', h4, h5⟩ := bind_ok hr
      obtain ⟨a', rfl, ha'⟩ := ih ha fuel r' h4
      injection h5 with h5
      exact ⟨_, h5.symm, ha'⟩

theorem lmGetArc_zero {W : Type} {o : FloatOps W} {f : Fst W} {s : Int} {fuel : Nat} {r : Option (Arc W)} :
    lmGetArc o f [] fuel s 0 ≠ .ok r := by
  cases fuel with
  | zero => intro h; cases h
  | succ fuel => unfold lmGetArc; intro h; cases h

open Main.Spec App.Spec Text in
/-- The parts of the language model of a recogniser in memory. -/
theorem lm_of_holds (mach : Main.Machine G F D) {w : App.World G} {s : App.Self G} {m : App.Spec.Model G}
    (hh : Holds w s m) (ho : m.Ok w) : ∃ lm, lmOf mach s = some lm ∧ (match m.lm with
      | none => lm = none
      | some (_, t) => ∃ l, lm = some l ∧ l.large.start = .ok t.start ∧ Begins m l.bos ∧
          (∀ s x, l.large.getArc s x =
            lmGetArc mach.lm (fstOf (valueFst (fun x => mach.word (some x.toNat)) t)) [] mach.lmFuel s x)) := by
  have h := hh.lm
  obtain ⟨a3, tab, e3, hc, hb, he, hd⟩ := hh.symbols
  unfold lmOf
  cases hm : m.lm with
  | none =>
    simp only [hm] at h
    obtain ⟨_, _, hdel⟩ := h
    rw [hdel]
    exact ⟨none, rfl, rfl⟩
  | some p =>
    obtain ⟨u, t⟩ := p
    simp only [hm] at h
    obtain ⟨⟨b1, l, g1, hl⟩, ⟨b2, g2⟩, b3, e, g3⟩ := h
    have hde := hd b3 e g3
    rw [g1, g2, g3]
    obtain ⟨_, _, _, _, o4, o5⟩ := ho.lm u t hm
    refine ⟨_, rfl, _, rfl, ?_, ?_, fun s x => ?_⟩
    · show Except.ok (Main.fstOf mach.word l.fst).start = _
      rw [show (Main.fstOf mach.word l.fst).start = l.fst.start from rfl, hl.start]
    · obtain ⟨id, hid⟩ := Main.isLast_exists (ps := m.symbols.map fun e => (e.word, (e.id : Int))) (k := sentBegin) (by
        rw [List.map_map]; exact ho.sents.1)
      show IsLast _ _ e.1
      rw [hde, hb, hc.id _ id hid]
      obtain ⟨en, hem, hee⟩ := List.mem_map.mp (Main.isLast_mem hid)
      injection hee with _ hee
      have := (ho.symbols en hem).1.small
      rw [wrap32_of (by unfold InI32; omega)]
      exact hid
    · obtain ⟨f, b, e1, e2, e4⟩ := C14_unigram_table_transparent mach.lm
        (valueFst (fun x => mach.word (some x.toNat)) t) (Main.isLm_value o4) (Main.unigramState_value o5)
      have e5 := Main.convert_value mach.word hl.data
      rw [e5] at e1
      cases e1
      rw [Main.initBucket0_value mach.word hl.bucket] at e2
      cases e2
      show lmGetArc _ _ _ _ _ _ = _
      rw [e4]
      rw [convert_layout] at e5
      injection e5 with e5
      rw [e5]

/-- What `recogniser` makes of a recogniser in memory. -/
theorem recogniser_eq {mach : Main.Machine G F D} (isNan : F → Bool) {s : App.Self G} {r : Stt.Rec F D} {lm : Option (Lm F)}
    (hr : mach.recogniser s = some r) (hl : lmOf mach s = some lm) : recogniser mach isNan s = some ⟨r, lm, isNan⟩ := by
  unfold recogniser
  rw [hr, hl]

/-- A recogniser of a model whose language model, if there is one, covers the words of the graph. -/
theorem knows_of_covers {mach : Main.Machine G F D} {w : App.World G} {m : App.Spec.Model G} {r : Stt.Rec F D}
    (ho : m.Ok w) (hir : Main.Spec.IsRec mach w m r) {lm : Option (Lm F)} (isNan : F → Bool)
    (hl : match m.lm with
      | none => lm = none
      | some (_, t) => ∃ l, lm = some l ∧ l.large.start = .ok t.start ∧ Begins m l.bos ∧
          (∀ s x, l.large.getArc s x =
            lmGetArc mach.lm (fstOf (Main.Spec.valueFst (fun x => mach.word (some x.toNat)) t)) [] mach.lmFuel s x))
    (hcov : ∀ u t, m.lm = some (u, t) → ∀ b, Begins m b → Covers t b (WordOf (mach.graph m.graph))) :
    ∃ P, (Rec.mk r lm isNan).Knows P := by
  cases hm : m.lm with
  | none =>
    simp only [hm] at hl
    subst hl
    exact ⟨fun _ => True, fun l h => (by cases h), fun _ _ => trivial, fun l h => (by cases h)⟩
  | some p =>
    obtain ⟨u, t⟩ := p
    simp only [hm] at hl
    obtain ⟨l, rfl, hs, hb, hg⟩ := hl
    obtain ⟨S, ⟨s0, s1, h0, ⟨bs, e, a, c1, c2, c3⟩, h1⟩, hS⟩ := hcov u t hm l.bos hb
    have hlm := Main.isLm_value (g := fun x => mach.word (some x.toNat)) (ho.lm u t hm).2.2.2.2.1
    refine ⟨fun x => ∃ s : Nat, x = (s : Int) ∧ S s, ?_, fun h => (by cases h), ?_⟩
    · intro l' hl' s hs' x hx
      injection hl' with hl'
      subst hl'
      rw [hs] at hs'
      injection hs' with hs'
      rw [hg, ← hs', h0] at hx
      by_cases hz : l.bos = 0
      · rw [hz] at hx; exact absurd hx lmGetArc_zero
      obtain ⟨a', rfl, ha'⟩ := lmGetArc_finds hlm hz (chain_value (fun x => mach.word (some x.toNat)) c1) (by rw [firstArc_value, c2]; rfl) _ x hx
      exact ⟨a', rfl, s1, by rw [ha', ← c3], h1⟩
    · intro lm' hlm'
      injection hlm' with hlm'
      subst hlm'
      refine ⟨fun s ⟨n, hn, hSn⟩ w hw hw0 x hx => ?_⟩
      subst hn
      have hw' : WordOf (mach.graph m.graph) w := by rw [← hir.graph]; exact hw
      obtain ⟨s', ⟨bs, e, a, c1, c2, c3⟩, h1⟩ := hS n hSn w hw' hw0
      have hx : (l.large.getArc n w >>= fun r => match r with
        | some a => do
          let u ← small l.small w
          .ok (some { a with weight := l.ops.sub a.weight u })
        | none => .ok none) = .ok x := hx
      obtain ⟨y, hy, hx⟩ := bind_ok hx
      rw [hg] at hy
      obtain ⟨a', rfl, ha'⟩ := lmGetArc_finds hlm hw0 (chain_value (fun x => mach.word (some x.toNat)) c1) (by rw [firstArc_value, c2]; rfl) _ y hy
      simp only at hx
      obtain ⟨u, _, hx⟩ := bind_ok hx
      injection hx with hx
      exact ⟨_, hx.symm, s', by show a'.next = _; rw [ha', ← c3], h1⟩

end Verif.Loud
