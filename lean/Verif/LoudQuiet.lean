import Verif.LoudLemmas
import Verif.LoudSpec

/-!
# When nothing is said

`Hush P x`: if the run `x` has a value, then it has written nothing and the value satisfies `P`.
`Doom x`: a run that has written that an energy is not a number ends in a failed assertion.
-/

namespace Verif.Loud

open Verif Verif.Fst Verif.Decoder Verif.Loud.Spec

variable {F D : Type}

/-- See the head of the file. -/
def Hush {α : Type} (P : α → Prop) (x : Talk α) : Prop := ∀ a, x.res = .ok a → x.said = [] ∧ P a

theorem hush_bind {α β : Type} {P : α → Prop} {Q : β → Prop} {x : Talk α} {f : α → Talk β} (hx : Hush P x)
    (hf : ∀ a, x.res = .ok a → P a → Hush Q (f a)) : Hush Q (x >>= f) := by
  intro b hb
  rw [res_bind] at hb
  obtain ⟨a, ha, hb⟩ := bind_ok hb
  obtain ⟨h1, h2⟩ := hx a ha
  obtain ⟨h3, h4⟩ := hf a ha h2 b hb
  refine ⟨?_, h4⟩
  rw [said_bind, ha, h1]
  exact h3

theorem hush_lift {α : Type} {P : α → Prop} {x : Exec α} (h : ∀ a, x = .ok a → P a) : Hush P (Talk.lift x) :=
  fun a ha => ⟨rfl, h a ha⟩

theorem hush_lift' {α : Type} (x : Exec α) : Hush (fun _ => True) (Talk.lift x) := hush_lift fun _ _ => trivial

theorem hush_pure {α : Type} {P : α → Prop} {a : α} (h : P a) : Hush P (pure a : Talk α) := by
  intro b hb
  injection hb with hb
  exact ⟨rfl, hb ▸ h⟩

theorem hush_foldlM {α β : Type} {P : β → Prop} {f : β → α → Talk β} : ∀ (as : List α) (b : β),
    (∀ a ∈ as, ∀ b, P b → Hush P (f b a)) → P b → Hush P (as.foldlM f b)
  | [], _, _, hb => hush_pure hb
  | a :: as, b, h, hb => by
    rw [List.foldlM_cons]
    exact hush_bind (h a List.mem_cons_self b hb) fun b' _ hb' =>
      hush_foldlM as b' (fun a' ha' => h a' (List.mem_cons_of_mem _ ha')) hb'

theorem hush_weaken {α : Type} {P Q : α → Prop} {x : Talk α} (h : Hush P x) (hq : ∀ a, P a → Q a) : Hush Q x :=
  fun a ha => ⟨(h a ha).1, hq a (h a ha).2⟩

/-! ## Features -/

theorem floorLog_nan {n : F → Bool} {o : Fbank.Ops F} (hn : NanLike n o) {x : F} (hx : n x = true) :
    Fbank.floorLog o x = .error .assert := by
  unfold Fbank.floorLog
  simp only [hn.lt x hx, Bool.false_eq_true, if_false, hn.nonneg x hx]
  rfl

theorem floorLog_error {o : Fbank.Ops F} {x : F} {e : Fault} (h : Fbank.floorLog o x = .error e) : e = .assert := by
  unfold Fbank.floorLog at h
  simp only at h
  cases hb : o.nonneg (if o.lt x o.eps then o.eps else x) with
  | false => rw [hb] at h; injection h with h; exact h.symm
  | true => rw [hb] at h; cases h

theorem melBin_error {o : Fbank.Ops F} {w : List F} {bin : Nat × List F} {e : Fault} (h : Fbank.melBin o w bin = .error e) :
    e = .assert := by
  unfold Fbank.melBin at h
  cases hb : decide (bin.1 + bin.2.length ≤ w.length) with
  | false => rw [hb] at h; injection h with h; exact h.symm
  | true => rw [hb] at h; cases h

/-- The logarithms of energies, one of which is not a number. -/
theorem mapM_floorLog_nan {n : F → Bool} {o : Fbank.Ops F} (hn : NanLike n o) : ∀ {xs : List F},
    (∃ x ∈ xs, n x = true) → xs.mapM (Fbank.floorLog o) = .error .assert
  | [], h => by obtain ⟨x, hx, _⟩ := h; cases hx
  | x :: xs, h => by
    rw [List.mapM_cons]
    cases hx : Fbank.floorLog o x with
    | error e => rw [floorLog_error hx]; rfl
    | ok y =>
      have : ∃ x ∈ xs, n x = true := by
        obtain ⟨z, hz, hz'⟩ := h
        rcases List.mem_cons.mp hz with rfl | hz
        · rw [floorLog_nan hn hz'] at hx; cases hx
        · exact ⟨z, hz, hz'⟩
      rw [mapM_floorLog_nan hn this]
      rfl

/-- The mel energies: a fault is a failed assertion, and whatever is said is that an energy is not a number; if there is
a value then some energy in it is none. -/
theorem mapM_melBin_said {n : F → Bool} {o : Fbank.Ops F} {w : List F} : ∀ (bins : List (Nat × List F)),
    (∀ e, (bins.mapM (melBin n o w)).res = .error e → e = .assert) ∧
    (∀ x ∈ (bins.mapM (melBin n o w)).said, x = .nan) ∧
    ((bins.mapM (melBin n o w)).said ≠ [] → ∀ es, (bins.mapM (melBin n o w)).res = .ok es → ∃ x ∈ es, n x = true)
  | [] => by
    refine ⟨fun e h => ?_, fun x h => ?_, fun h => absurd rfl h⟩
    · rw [List.mapM_nil] at h; cases h
    · rw [List.mapM_nil] at h; cases h
  | bin :: bins => by
    obtain ⟨i1, i2, i3⟩ := mapM_melBin_said (n := n) (o := o) (w := w) bins
    have hb : (∀ e, (melBin n o w bin).res = .error e → e = .assert) ∧ (∀ x ∈ (melBin n o w bin).said, x = .nan) ∧
        ((melBin n o w bin).said ≠ [] → ∀ x, (melBin n o w bin).res = .ok x → n x = true) := by
      unfold melBin
      cases h : Fbank.melBin o w bin with
      | error e =>
        refine ⟨fun e' h' => ?_, fun x h' => (by cases h'), fun h' => absurd rfl h'⟩
        injection h' with h'
        rw [← h']
        exact melBin_error h
      | ok v =>
        cases hv : n v with
        | false =>
          refine ⟨fun e' h' => ?_, fun x h' => ?_, fun h' => ?_⟩
          · rw [res_bind] at h'
            simp only [res_lift, ok_bind, hv] at h'
            cases h'
          · rw [said_bind] at h'
            simp only [res_lift, said_lift, hv] at h'
            cases h'
          · exact absurd (by rw [said_bind]; simp only [res_lift, said_lift, hv]; rfl) h'
        | true =>
          refine ⟨fun e' h' => ?_, fun x h' => ?_, fun _ x h' => ?_⟩
          · rw [res_bind] at h'
            simp only [res_lift, ok_bind, hv] at h'
            cases h'
          · rw [said_bind] at h'
            simp only [res_lift, said_lift, hv] at h'
            exact List.mem_singleton.mp h'
          · rw [res_bind] at h'
            simp only [res_lift, ok_bind, hv] at h'
            injection h' with h'
            rw [← h']; exact hv
    obtain ⟨b1, b2, b3⟩ := hb
    rw [List.mapM_cons]
    cases hr : (melBin n o w bin).res with
    | error e =>
      refine ⟨fun e' h' => ?_, fun x h' => ?_, fun _ es h' => ?_⟩
      · rw [res_bind, hr] at h'
        injection h' with h'
        exact b1 e' (by rw [hr, h'])
      · rw [said_bind, hr] at h'
        simp only [List.append_nil] at h'
        exact b2 x h'
      · rw [res_bind, hr] at h'
        cases h'
    | ok v =>
      cases hs : (bins.mapM (melBin n o w)).res with
      | error e =>
        refine ⟨fun e' h' => ?_, fun x h' => ?_, fun _ es h' => ?_⟩
        · rw [res_bind, hr, ok_bind, res_bind, hs] at h'
          injection h' with h'
          exact i1 e' (by rw [hs, h'])
        · rw [said_bind, hr] at h'
          simp only at h'
          rw [said_bind, hs] at h'
          simp only [List.append_nil] at h'
          exact (List.mem_append.mp h').elim (b2 x) (i2 x)
        · rw [res_bind, hr, ok_bind, res_bind, hs] at h'
          cases h'
      | ok vs =>
        refine ⟨fun e' h' => ?_, fun x h' => ?_, fun h es h' => ?_⟩
        · rw [res_bind, hr, ok_bind, res_bind, hs] at h'
          cases h'
        · rw [said_bind, hr] at h'
          simp only at h'
          rw [said_bind, hs] at h'
          simp only [said_pure, List.append_nil] at h'
          exact (List.mem_append.mp h').elim (b2 x) (i2 x)
        · rw [res_bind, hr, ok_bind, res_bind, hs] at h'
          injection h' with h'
          subst h'
          rw [said_bind, hr] at h
          simp only at h
          rw [said_bind, hs] at h
          simp only [said_pure, List.append_nil] at h
          by_cases h1 : (melBin n o w bin).said = []
          · rw [h1, List.nil_append] at h
            obtain ⟨x, hx, hx'⟩ := i3 h vs hs
            exact ⟨x, List.mem_cons_of_mem _ hx, hx'⟩
          · exact ⟨v, List.mem_cons_self, b3 h1 v hr⟩

/-- See the head of the file. -/
def Doom {α : Type} (x : Talk α) : Prop := Warning.nan ∈ x.said → x.res = .error .assert

theorem doom_bind {α β : Type} {x : Talk α} {f : α → Talk β} (hx : Doom x) (hf : ∀ a, x.res = .ok a → Doom (f a)) :
    Doom (x >>= f) := by
  intro h
  rw [said_bind] at h
  rw [res_bind]
  rcases List.mem_append.mp h with h | h
  · rw [hx h]; rfl
  · cases hr : x.res with
    | error e => rw [hr] at h; cases h
    | ok a =>
      rw [hr] at h
      exact hf a hr h

theorem doom_lift {α : Type} (x : Exec α) : Doom (Talk.lift x) := fun h => by cases h

theorem doom_pure {α : Type} (a : α) : Doom (pure a : Talk α) := fun h => by cases h

theorem doom_foldlM {α β : Type} {f : β → α → Talk β} (hf : ∀ b a, Doom (f b a)) : ∀ (as : List α) (b : β),
    Doom (as.foldlM f b)
  | [], _ => doom_pure _
  | a :: as, b => by
    rw [List.foldlM_cons]
    exact doom_bind (hf b a) fun b' _ => doom_foldlM hf as b'

/-- The feature of one frame: what is said is that an energy is not a number, and then the assertion of the logarithm
fails. -/
theorem computeFrame_said {n : F → Bool} {o : Fbank.Ops F} (hn : NanLike n o) (x y : List F) :
    (computeFrame n o x y).said ≠ [] → (computeFrame n o x y).res = .error .assert := by
  unfold computeFrame
  intro h
  rw [said_bind] at h
  rw [res_bind]
  simp only [res_lift, said_lift, List.nil_append] at h ⊢
  cases h1 : o.fft x y with
  | error e => rw [h1] at h; exact absurd rfl h
  | ok p =>
    rw [h1] at h
    simp only at h
    rw [ok_bind, res_bind]
    rw [said_bind] at h
    simp only [res_lift, said_lift, List.nil_append] at h ⊢
    cases h2 : Fbank.powerSpectrum o p.1 with
    | error e => rw [h2] at h; exact absurd rfl h
    | ok w =>
      rw [h2] at h
      simp only at h
      rw [ok_bind, res_bind]
      rw [said_bind] at h
      obtain ⟨m1, m2, m3⟩ := mapM_melBin_said (n := n) (o := o) (w := w) o.bins
      cases h3 : (melCompute n o w).res with
      | error e => rw [m1 e h3]; rfl
      | ok es =>
        rw [h3] at h
        simp only at h
        rw [ok_bind, res_bind]
        rw [said_bind] at h
        simp only [res_lift, said_lift, List.nil_append] at h ⊢
        have hm : (melCompute n o w).said ≠ [] := by
          intro hc
          rw [hc] at h
          cases hf : es.mapM (Fbank.floorLog o) with
          | error e => rw [hf] at h; exact h rfl
          | ok f => rw [hf] at h; exact h rfl
        rw [mapM_floorLog_nan hn (m3 hm es h3)]
        rfl

theorem computeFrame_hush {n : F → Bool} {o : Fbank.Ops F} (hn : NanLike n o) (x y : List F) :
    Hush (fun _ => True) (computeFrame n o x y) := by
  intro a ha
  refine ⟨?_, trivial⟩
  apply Classical.byContradiction
  intro hc
  rw [computeFrame_said hn x y hc] at ha
  cases ha

theorem computeFrame_doom {n : F → Bool} {o : Fbank.Ops F} (hn : NanLike n o) (x y : List F) :
    Doom (computeFrame n o x y) := fun h => computeFrame_said hn x y (by intro hc; rw [hc] at h; cases h)

theorem fbankLoop_hush {n : F → Bool} {o : Fbank.Ops F} (hn : NanLike n o) (wave : List F) : ∀ (k i : Nat) (x y : List F),
    Hush (fun _ => True) (fbankLoop n o wave k i x y)
  | 0, _, _, _ => hush_pure trivial
  | k + 1, i, _, _ =>
    hush_bind (hush_lift' _) fun _ _ _ => hush_bind (computeFrame_hush hn _ _) fun _ _ _ =>
      hush_bind (hush_lift' _) fun _ _ _ => hush_bind (fbankLoop_hush hn wave k (i + 1) _ _) fun _ _ _ => hush_pure trivial

theorem fbankLoop_doom {n : F → Bool} {o : Fbank.Ops F} (hn : NanLike n o) (wave : List F) : ∀ (k i : Nat) (x y : List F),
    Doom (fbankLoop n o wave k i x y)
  | 0, _, _, _ => doom_pure _
  | k + 1, i, _, _ =>
    doom_bind (doom_lift _) fun _ _ => doom_bind (computeFrame_doom hn _ _) fun _ _ =>
      doom_bind (doom_lift _) fun _ _ => doom_bind (fbankLoop_doom hn wave k (i + 1) _ _) fun _ _ => doom_pure _

theorem fbankProcess_hush {n : F → Bool} {o : Fbank.Ops F} (hn : NanLike n o) (junk : Fbank.Junk F) (buf wave : List F) :
    Hush (fun _ => True) (fbankProcess n o junk buf wave) := by
  unfold fbankProcess
  split
  · exact hush_bind (hush_lift' _) fun _ _ _ => hush_pure trivial
  · refine hush_bind (hush_lift' _) fun _ _ _ => hush_bind (hush_lift' _) fun _ _ _ => ?_
    simp only
    split
    · exact hush_pure trivial
    · exact hush_bind (hush_lift' _) fun _ _ _ => hush_bind (fbankLoop_hush hn _ _ _ _ _) fun _ _ _ =>
        hush_bind (hush_lift' _) fun _ _ _ => hush_bind (hush_lift' _) fun _ _ _ => hush_pure trivial

theorem fbankProcess_doom {n : F → Bool} {o : Fbank.Ops F} (hn : NanLike n o) (junk : Fbank.Junk F) (buf wave : List F) :
    Doom (fbankProcess n o junk buf wave) := by
  unfold fbankProcess
  split
  · exact doom_bind (doom_lift _) fun _ _ => doom_pure _
  · refine doom_bind (doom_lift _) fun _ _ => doom_bind (doom_lift _) fun _ _ => ?_
    simp only
    split
    · exact doom_pure _
    · exact doom_bind (doom_lift _) fun _ _ => doom_bind (fbankLoop_doom hn _ _ _ _ _) fun _ _ =>
        doom_bind (doom_lift _) fun _ _ => doom_bind (doom_lift _) fun _ _ => doom_pure _

/-! ## Search -/

/-- From the states in `P`, the model has an arc into `P` for every word in `W`, whenever it answers. -/
structure Knows (lm : IFst F) (W P : Int → Prop) : Prop where
  arc : ∀ s, P s → ∀ w, W w → w ≠ 0 → ∀ r, lm.getArc s w = .ok r → ∃ a, r = some a ∧ P a.next

theorem propagateLm_hush {ar : Arith F D} {lm : IFst F} {W P : Int → Prop} (hk : Knows lm W P) {s label : Int} (hs : P s)
    (hw : W label) : Hush (fun p => P p.1) (propagateLm ar lm s label) := by
  unfold propagateLm
  split
  · next h0 =>
    refine hush_bind (hush_lift (P := fun r => ∃ a, r = some a ∧ P a.next) fun r hr => hk.arc s hs label hw h0 r hr) ?_
    rintro r _ ⟨a, rfl, ha⟩
    exact hush_pure ha
  · exact hush_pure hs

/-- The language model of an environment knows the words of its graph. -/
def Env.Knows (e : Env F D) (P : Int → Prop) : Prop :=
  ∀ lm, e.lm = some lm → Loud.Knows lm (fun w => ∃ s, ∃ a ∈ e.g.arcs s, a.olabel = w) P

theorem addLm_hush {e : Env F D} {P : Int → Prop} (hk : Env.Knows e P) {s : Int} (hs : P s) {q : Int} {a : GArc F}
    (ha : a ∈ e.g.arcs q) (total : D) : Hush (fun p => P p.1) (addLm e s a.olabel total) := by
  unfold addLm
  cases h : e.lm with
  | none => exact hush_pure hs
  | some lm => exact hush_bind (propagateLm_hush (hk lm h) hs ⟨q, a, ha, rfl⟩) fun p _ hp => hush_pure hp

/-- All tokens are at states in `P`. -/
def Within (P : Int → Prop) (d : Dec F) : Prop := (∀ t ∈ d.toks, P t.state.2) ∧ ∀ t ∈ d.prev, P t.state.2

theorem insertTok_within {e : Env F D} {P : Int → Prop} {d : Dec F} (hd : Within P d) {st : State} (hs : P st.2)
    {label : Int} {hist : List Int} {cost : F} {p : Bool × Dec F} (h : insertTok e d st label hist cost = .ok p) :
    Within P p.2 := by
  unfold insertTok at h
  simp only at h
  split at h
  · injection h with h
    subst h
    refine ⟨fun t ht => ?_, hd.2⟩
    rcases List.mem_append.mp ht with ht | ht
    · exact hd.1 t ht
    · rw [List.mem_singleton.mp ht]; exact hs
  · split at h
    · cases h
    · split at h
      · injection h with h
        subst h
        refine ⟨fun t ht => ?_, hd.2⟩
        rcases List.mem_or_eq_of_mem_set ht with ht | rfl
        · exact hd.1 t ht
        · exact hs
      · injection h with h
        subst h
        exact hd

theorem nonemitArc_hush {e : Env F D} {P : Int → Prop} (hk : Env.Knows e P) (i : Nat) (cutoff : D) {q : Int} {a : GArc F}
    (ha : a ∈ e.g.arcs q) (acc : Dec F × List State) (hd : Within P acc.1) :
    Hush (fun p => Within P p.1) (nonemitArc e i cutoff acc a) := by
  obtain ⟨d, stack⟩ := acc
  unfold nonemitArc
  simp only
  split
  · exact hush_pure hd
  · cases ht : d.toks[i]? with
    | none => exact fun a h => by cases h
    | some tok =>
      simp only
      refine hush_bind (addLm_hush hk (hd.1 tok (List.mem_of_getElem? ht)) ha _) ?_
      rintro ⟨s, total⟩ _ hs
      simp only
      split
      · exact hush_pure hd
      · exact hush_bind (hush_lift (P := fun p => Within P p.2) fun p hp => insertTok_within hd hs hp) fun p _ hp =>
          hush_pure hp

theorem nonemitLoop_hush {e : Env F D} {P : Int → Prop} (hk : Env.Knows e P) (cutoff : D) : ∀ (fuel : Nat) (d : Dec F)
    (stack : List State), Within P d → Hush (Within P) (nonemitLoop e cutoff fuel d stack)
  | _, d, [], hd => by unfold nonemitLoop; exact hush_pure hd
  | 0, _, _ :: _, _ => fun a h => by cases h
  | fuel + 1, d, st :: stack, hd => by
    unfold nonemitLoop
    cases d.idx.lookup st with
    | none => exact fun a h => by cases h
    | some i =>
      refine hush_bind (hush_foldlM (P := fun p => Within P p.1) _ _
        (fun a ha acc hacc => nonemitArc_hush hk i cutoff ha acc hacc) hd) fun p _ hp => ?_
      exact nonemitLoop_hush hk cutoff fuel p.1 p.2 hp

theorem processNonemitting_hush {e : Env F D} {P : Int → Prop} (hk : Env.Knows e P) (cutoff : D) (fuel : Nat) {d : Dec F}
    (hd : Within P d) : Hush (Within P) (processNonemitting e cutoff fuel d) :=
  hush_bind (hush_lift' _) fun _ _ _ => nonemitLoop_hush hk cutoff fuel d _ hd

theorem emitArc_hush {e : Env F D} {P : Int → Prop} (hk : Env.Knows e P) (frame : List F) (ab : F) {tok : Token F}
    (ht : P tok.state.2) {q : Int} {a : GArc F} (ha : a ∈ e.g.arcs q) (acc : D × Dec F) (hd : Within P acc.2) :
    Hush (fun p => Within P p.2) (emitArc e frame ab tok acc a) := by
  obtain ⟨nwc, d⟩ := acc
  unfold emitArc
  simp only
  split
  · exact hush_pure hd
  · refine hush_bind (hush_lift' _) fun total _ _ => ?_
    split
    · exact hush_pure hd
    · refine hush_bind (addLm_hush hk ht ha _) ?_
      rintro ⟨s, total'⟩ _ hs
      exact hush_bind (hush_lift' _) fun _ _ _ =>
        hush_bind (hush_lift (P := fun p => Within P p.2) fun p hp => insertTok_within hd hs hp) fun p _ hp => hush_pure hp

theorem emitTok_hush {e : Env F D} {P : Int → Prop} (hk : Env.Knows e P) (frame : List F) (wc ab : F) {tok : Token F}
    (ht : P tok.state.2) (acc : D × Dec F) (hd : Within P acc.2) :
    Hush (fun p => Within P p.2) (emitTok e frame wc ab acc tok) := by
  unfold emitTok
  split
  · exact hush_pure hd
  · exact hush_bind (hush_foldlM (P := fun p => Within P p.2) _ _
      (fun a ha acc hacc => emitArc_hush hk frame ab ht ha acc hacc) hd) fun p _ hp => hush_pure hp

theorem processEmitting_hush {e : Env F D} {P : Int → Prop} (hk : Env.Knows e P) (frame : List F) {d : Dec F}
    (hd : Within P d) : Hush (fun p => Within P p.2) (processEmitting e frame d) := by
  have hsw : Within P ({ d with idx := [], toks := d.prev, prev := d.toks } : Dec F) := ⟨hd.2, hd.1⟩
  unfold processEmitting
  refine hush_bind (hush_lift' _) ?_
  rintro ⟨cut, ab, best⟩ _ _
  simp only
  split
  · exact hush_pure hsw
  · refine hush_bind (hush_lift' _) fun nwc _ _ => ?_
    exact hush_bind (hush_foldlM (P := fun p => Within P p.2) _ _
      (fun tok ht acc hacc => emitTok_hush hk frame _ _ (hd.1 tok ht) acc hacc) hsw) fun p _ hp =>
      hush_pure ⟨hp.1, fun t ht => by cases ht⟩

theorem decode_hush {e : Env F D} {P : Int → Prop} (hk : Env.Knows e P) (fuel : Nat) (frame : List F) {d : Dec F}
    (hd : Within P d) : Hush (fun p => Within P p.2.2) (decode e fuel frame d) := by
  unfold decode
  refine hush_bind (processEmitting_hush hk frame hd) ?_
  rintro ⟨c, d'⟩ _ hd'
  cases c with
  | none => exact hush_pure hd'
  | some c =>
    simp only
    split
    · exact hush_pure hd'
    · refine hush_bind (processNonemitting_hush hk _ fuel hd') fun d'' _ hd'' => ?_
      split
      · exact hush_pure hd''
      · exact hush_pure hd''

/-! ## The C interface -/

/-- The language model of a recogniser starts in `P` and knows the words of its graph, whenever it answers. -/
structure Rec.Knows (r : Rec F D) (P : Int → Prop) : Prop where
  start : ∀ l, r.lm = some l → ∀ s, l.large.start = .ok s → ∀ x, l.large.getArc s l.bos = .ok x →
    ∃ a, x = some a ∧ P a.next
  none : r.lm = none → ∀ s, P s
  words : Env.Knows r.plain.dec P

theorem lmStart_hush {r : Rec F D} {P : Int → Prop} (hk : r.Knows P) : Hush P (lmStart r) := by
  unfold lmStart
  cases h : r.lm with
  | none => exact hush_pure (hk.none h 0)
  | some l =>
    simp only
    unfold startState
    refine hush_bind (hush_lift (P := fun s => l.large.start = .ok s) fun s hs => hs) fun s _ hs => ?_
    refine hush_bind (hush_lift (P := fun x => ∃ a, x = some a ∧ P a.next) fun x hx => hk.start l h s hs x hx) ?_
    rintro x _ ⟨a, rfl, ha⟩
    exact hush_pure ha

theorem initDecoder_hush {r : Rec F D} {P : Int → Prop} (hk : r.Knows P) (fuel : Nat) (d : Dec F) :
    Hush (Within P) (initDecoder r fuel d) := by
  unfold initDecoder
  refine hush_bind (hush_lift' _) fun _ _ _ => hush_bind (lmStart_hush hk) fun s _ hs => ?_
  refine hush_bind (hush_lift (P := fun p => Within P p.2) fun p hp => insertTok_within (d := _) ?_ hs hp) fun p _ hp => ?_
  · exact ⟨fun t ht => (by cases ht), fun t ht => (by cases ht)⟩
  · exact processNonemitting_hush hk.words _ fuel hp

theorem storeHyp_dec {r : Stt.Rec F D} {fill : Nat → UInt8} {b b' : Stt.Back F} (h : Stt.storeHyp r fill b = .ok b') :
    b'.dec = b.dec := by
  unfold Stt.storeHyp at h
  obtain ⟨p, _, h⟩ := bind_ok h
  simp only at h
  obtain ⟨q, _, h⟩ := bind_ok h
  injection h with h
  rw [← h]

theorem decodeRow_hush {r : Rec F D} {P : Int → Prop} (hk : r.Knows P) (fill : Nat → UInt8) (b : Stt.Back F) (row : List F)
    (hb : Within P b.dec) : Hush (fun b => Within P b.dec) (decodeRow r fill b row) := by
  unfold decodeRow
  refine hush_bind (decode_hush hk.words _ row hb) ?_
  rintro ⟨x, y, d⟩ _ hd
  simp only
  split
  · exact hush_lift fun b' hb' => by rw [storeHyp_dec hb']; exact hd
  · exact hush_pure hd

theorem frameLoop_hush {r : Rec F D} {P : Int → Prop} (hk : r.Knows P) (fill : Nat → UInt8) : ∀ (fs out : List (List F))
    (b : Stt.Back F), Within P b.dec → Hush (fun b => Within P b.dec) (frameLoop r fill out fs b)
  | [], _, _, hb => hush_pure hb
  | f :: fs, out, b, hb =>
    hush_bind (hush_lift' _) fun p _ _ => hush_bind (hush_foldlM (P := fun b => Within P b.dec) _ _
      (fun row _ b hb => decodeRow_hush hk fill b row hb) hb) fun b' _ hb' => frameLoop_hush hk fill fs _ b' hb'

theorem feed_hush {r : Rec F D} {P : Int → Prop} (hk : r.Knows P) (hn : NanLike r.isNan r.base.fb) (mem : Stt.Mem F)
    (data : List UInt8) (u : Stt.Utt F) (hu : Within P u.back.dec) :
    Hush (fun u => Within P u.back.dec) (feed r mem data u) := by
  unfold feed
  cases u.reader.process r.plain.conv (some data) data.length with
  | error x =>
    cases x with
    | fault f => exact fun a h => by cases h
    | status c => exact hush_pure hu
  | ok p =>
    obtain ⟨xs, reader⟩ := p
    show Hush _ (afterSamples r mem { u with reader := reader } xs)
    unfold afterSamples
    split
    · exact hush_pure hu
    · refine hush_bind (fbankProcess_hush hn _ _ _) fun p _ _ => ?_
      exact hush_bind (frameLoop_hush hk _ _ _ _ hu) fun b _ hb => hush_pure hb

theorem finish_hush {r : Rec F D} {P : Int → Prop} (hk : r.Knows P) (fill : Nat → UInt8) (u : Stt.Utt F)
    (hu : Within P u.back.dec) : Hush (fun _ => True) (finish r fill u) := by
  unfold finish
  refine hush_bind (hush_lift' _) fun p _ _ => ?_
  refine hush_bind (hush_foldlM (P := Within P) _ _ (fun row _ d hd => ?_) hu) fun d _ hd =>
    hush_bind (hush_lift' _) fun _ _ _ => hush_pure trivial
  exact hush_bind (decode_hush hk.words _ row hd) fun p _ hp => hush_pure hp

theorem uttInit_hush {r : Rec F D} {P : Int → Prop} (hk : r.Knows P) (fmt : Pcm.Format) :
    Hush (fun o => ∀ u, o = some u → Within P u.back.dec) (uttInit r fmt) := by
  unfold uttInit
  refine hush_bind (initDecoder_hush hk _ _) fun d _ hd => ?_
  cases Pcm.Reader.new.setFormat fmt with
  | error x =>
    cases x with
    | fault f => exact fun a h => by cases h
    | status c => exact hush_pure fun u hu => by cases hu
  | ok reader => exact hush_pure fun u hu => by cases hu; exact hd

theorem audioLoop_hush {r : Rec F D} {P : Int → Prop} (hk : r.Knows P) (hn : NanLike r.isNan r.base.fb)
    (mem : Nat → Stt.Mem F) : ∀ (fuel i : Nat) (eof : Bool) (rest : List UInt8) (u : Stt.Utt F), Within P u.back.dec →
    Hush (fun u => Within P u.back.dec) (audioLoop r mem fuel i eof rest u)
  | 0, _, _, _, _, _ => fun a h => by cases h
  | fuel + 1, i, eof, rest, u, hu => by
    unfold audioLoop
    split
    · exact hush_pure hu
    · simp only
      split
      · exact hush_pure hu
      · exact hush_bind (feed_hush hk hn _ _ u hu) fun u' _ hu' => audioLoop_hush hk hn mem fuel _ _ _ u' hu'

theorem runUtterance_hush {r : Rec F D} {P : Int → Prop} (hk : r.Knows P) (hn : NanLike r.isNan r.base.fb)
    (junk : Main.Junk F) (data : List UInt8) (u : Stt.Utt F) (hu : Within P u.back.dec) :
    Hush (fun _ => True) (runUtterance r junk data u) :=
  hush_bind (audioLoop_hush hk hn _ _ _ _ _ u hu) fun _ _ hu' => hush_bind (finish_hush hk _ _ hu') fun _ _ _ => hush_lift' _

/-! ## Only the features speak of numbers -/

theorem propagateLm_doom (ar : Arith F D) (lm : IFst F) (s label : Int) : Doom (propagateLm ar lm s label) := by
  unfold propagateLm
  split
  · refine doom_bind (doom_lift _) fun r _ => ?_
    cases r with
    | none => exact doom_bind (fun h => by cases h with | tail _ h => cases h) fun _ _ => doom_pure _
    | some a => exact doom_pure _
  · exact doom_pure _

theorem addLm_doom (e : Env F D) (s label : Int) (total : D) : Doom (addLm e s label total) := by
  unfold addLm
  cases e.lm with
  | none => exact doom_pure _
  | some lm => exact doom_bind (propagateLm_doom _ _ _ _) fun _ _ => doom_pure _

theorem nonemitArc_doom (e : Env F D) (i : Nat) (cutoff : D) (acc : Dec F × List State) (a : GArc F) :
    Doom (nonemitArc e i cutoff acc a) := by
  obtain ⟨d, stack⟩ := acc
  unfold nonemitArc
  simp only
  split
  · exact doom_pure _
  · cases d.toks[i]? with
    | none => exact doom_lift _
    | some tok =>
      simp only
      refine doom_bind (addLm_doom _ _ _ _) fun p _ => ?_
      split
      · exact doom_pure _
      · exact doom_bind (doom_lift _) fun _ _ => doom_pure _

theorem nonemitLoop_doom (e : Env F D) (cutoff : D) : ∀ (fuel : Nat) (d : Dec F) (stack : List State),
    Doom (nonemitLoop e cutoff fuel d stack)
  | _, d, [] => by unfold nonemitLoop; exact doom_pure _
  | 0, _, _ :: _ => doom_lift _
  | fuel + 1, d, st :: stack => by
    unfold nonemitLoop
    cases d.idx.lookup st with
    | none => exact doom_lift _
    | some i =>
      exact doom_bind (doom_foldlM (nonemitArc_doom e i cutoff) _ _) fun p _ => nonemitLoop_doom e cutoff fuel p.1 p.2

theorem processNonemitting_doom (e : Env F D) (cutoff : D) (fuel : Nat) (d : Dec F) :
    Doom (processNonemitting e cutoff fuel d) := doom_bind (doom_lift _) fun _ _ => nonemitLoop_doom _ _ _ _ _

theorem emitArc_doom (e : Env F D) (frame : List F) (ab : F) (tok : Token F) (acc : D × Dec F) (a : GArc F) :
    Doom (emitArc e frame ab tok acc a) := by
  obtain ⟨nwc, d⟩ := acc
  unfold emitArc
  simp only
  split
  · exact doom_pure _
  · refine doom_bind (doom_lift _) fun _ _ => ?_
    split
    · exact doom_pure _
    · exact doom_bind (addLm_doom _ _ _ _) fun _ _ => doom_bind (doom_lift _) fun _ _ => doom_bind (doom_lift _) fun _ _ =>
        doom_pure _

theorem emitTok_doom (e : Env F D) (frame : List F) (wc ab : F) (acc : D × Dec F) (tok : Token F) :
    Doom (emitTok e frame wc ab acc tok) := by
  unfold emitTok
  split
  · exact doom_pure _
  · exact doom_bind (doom_foldlM (emitArc_doom e frame ab tok) _ _) fun _ _ => doom_pure _

theorem processEmitting_doom (e : Env F D) (frame : List F) (d : Dec F) : Doom (processEmitting e frame d) := by
  unfold processEmitting
  refine doom_bind (doom_lift _) fun p _ => ?_
  simp only
  split
  · exact doom_pure _
  · exact doom_bind (doom_lift _) fun _ _ => doom_bind (doom_foldlM (emitTok_doom e frame _ _) _ _) fun _ _ => doom_pure _

theorem decode_doom (e : Env F D) (fuel : Nat) (frame : List F) (d : Dec F) : Doom (decode e fuel frame d) := by
  unfold decode
  refine doom_bind (processEmitting_doom _ _ _) ?_
  rintro ⟨c, d'⟩ _
  cases c with
  | none => exact doom_pure _
  | some c =>
    simp only
    split
    · exact doom_pure _
    · refine doom_bind (processNonemitting_doom _ _ _ _) fun _ _ => ?_
      split <;> exact doom_pure _

theorem lmStart_doom (r : Rec F D) : Doom (lmStart r) := by
  unfold lmStart
  cases r.lm with
  | none => exact doom_pure _
  | some l =>
    refine doom_bind (doom_lift _) fun s _ => doom_bind (doom_lift _) fun x _ => ?_
    cases x with
    | none => exact doom_bind (fun h => by cases h with | tail _ h => cases h) fun _ _ => doom_pure _
    | some a => exact doom_pure _

theorem decodeRow_doom (r : Rec F D) (fill : Nat → UInt8) (b : Stt.Back F) (row : List F) : Doom (decodeRow r fill b row) := by
  unfold decodeRow
  refine doom_bind (decode_doom _ _ _ _) fun p _ => ?_
  simp only
  split
  · exact doom_lift _
  · exact doom_pure _

theorem frameLoop_doom (r : Rec F D) (fill : Nat → UInt8) : ∀ (fs out : List (List F)) (b : Stt.Back F),
    Doom (frameLoop r fill out fs b)
  | [], _, _ => doom_pure _
  | _ :: fs, _, _ => doom_bind (doom_lift _) fun _ _ => doom_bind (doom_foldlM (decodeRow_doom r fill) _ _) fun b' _ =>
      frameLoop_doom r fill fs _ b'

theorem feed_doom {r : Rec F D} (hn : NanLike r.isNan r.base.fb) (mem : Stt.Mem F) (data : List UInt8) (u : Stt.Utt F) :
    Doom (feed r mem data u) := by
  unfold feed
  cases u.reader.process r.plain.conv (some data) data.length with
  | error x =>
    cases x with
    | fault f => exact doom_lift _
    | status c => exact doom_pure _
  | ok p =>
    obtain ⟨xs, reader⟩ := p
    show Doom (afterSamples r mem { u with reader := reader } xs)
    unfold afterSamples
    split
    · exact doom_pure _
    · exact doom_bind (fbankProcess_doom hn _ _ _) fun p _ => doom_bind (frameLoop_doom _ _ _ _ _) fun b _ => doom_pure _

theorem finish_doom (r : Rec F D) (fill : Nat → UInt8) (u : Stt.Utt F) : Doom (finish r fill u) :=
  doom_bind (doom_lift _) fun _ _ => doom_bind (doom_foldlM (fun d row => doom_bind (decode_doom _ _ row d) fun _ _ => doom_pure _)
    _ _) fun _ _ => doom_bind (doom_lift _) fun _ _ => doom_pure _

theorem uttInit_doom (r : Rec F D) (fmt : Pcm.Format) : Doom (uttInit r fmt) := by
  unfold uttInit
  refine doom_bind ?_ fun d _ => ?_
  · exact doom_bind (doom_lift _) fun _ _ => doom_bind (lmStart_doom r) fun _ _ => doom_bind (doom_lift _) fun _ _ =>
      processNonemitting_doom _ _ _ _
  · cases Pcm.Reader.new.setFormat fmt with
    | error x =>
      cases x with
      | fault f => exact doom_lift _
      | status c => exact doom_pure _
    | ok reader => exact doom_pure _

theorem audioLoop_doom {r : Rec F D} (hn : NanLike r.isNan r.base.fb) (mem : Nat → Stt.Mem F) : ∀ (fuel i : Nat)
    (eof : Bool) (rest : List UInt8) (u : Stt.Utt F), Doom (audioLoop r mem fuel i eof rest u)
  | 0, _, _, _, _ => doom_lift _
  | fuel + 1, i, eof, rest, u => by
    unfold audioLoop
    split
    · exact doom_pure _
    · simp only
      split
      · exact doom_pure _
      · exact doom_bind (feed_doom hn _ _ u) fun u' _ => audioLoop_doom hn mem fuel _ _ _ u'

theorem runUtterance_doom {r : Rec F D} (hn : NanLike r.isNan r.base.fb) (junk : Main.Junk F) (data : List UInt8)
    (u : Stt.Utt F) : Doom (runUtterance r junk data u) :=
  doom_bind (audioLoop_doom hn _ _ _ _ _ u) fun _ _ => doom_bind (finish_doom _ _ _) fun _ _ => doom_lift _

end Verif.Loud
