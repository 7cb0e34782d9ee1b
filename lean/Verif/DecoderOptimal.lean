import Verif.DecoderPaths

/-!
# Viterbi optimality: helper lemmas for C54
-/

set_option linter.unusedSectionVars false

namespace Verif.Decoder

open Verif Verif.Fst

variable {F D : Type} {fn : F → Bool} {dn : D → Bool}

/-- `d` holds a token for `s` that costs at most `c`. -/
def Reaches (ar : Arith F D) (fn : F → Bool) (d : Dec F) (s : State) (c : F) : Prop :=
  ∃ t ∈ d.toks, t.state = s ∧ fn t.cost = false ∧ ar.flt c t.cost = false

/-- `d'` is at least as good as `d` everywhere. -/
def Better (ar : Arith F D) (fn : F → Bool) (d d' : Dec F) : Prop := ∀ s c, Reaches ar fn d s c → Reaches ar fn d' s c

theorem Better.refl (ar : Arith F D) (d : Dec F) : Better ar fn d d := fun _ _ h => h

theorem Better.trans {ar : Arith F D} {a b c : Dec F} (h : Better ar fn a b) (g : Better ar fn b c) : Better ar fn a c :=
  fun s x hx => g s x (h s x hx)

theorem MonoLaws.frefl {ar : Arith F D} (hm : MonoLaws ar fn dn) (a : F) : ar.flt a a = false := by
  cases h : ar.flt a a with
  | false => rfl
  | true => have := hm.fasymm h; rw [h] at this; cases this

theorem Reaches.mono {ar : Arith F D} (hm : MonoLaws ar fn dn) {d : Dec F} {s : State} {c c' : F}
    (h : Reaches ar fn d s c) (hn : fn c = false) (hc : ar.flt c' c = false) : Reaches ar fn d s c' := by
  obtain ⟨t, ht, hs, hf, hl⟩ := h
  exact ⟨t, ht, hs, hf, hm.fle hn hl hc⟩

theorem Ins.better {ar : Arith F D} (hl : NanLaws ar fn dn) (hm : MonoLaws ar fn dn) {d d' : Dec F} {t : Token F} {b : Bool}
    (h : Ins ar d t b d') : Better ar fn d d' := by
  rintro s c ⟨u, hu, hs, hf, hle⟩
  obtain ⟨i, hi⟩ := List.getElem?_of_mem hu
  obtain ⟨v, hv, hvs, hvc⟩ := h.keep i u hi
  refine ⟨v, List.mem_of_getElem? hv, hvs.trans hs, ?_⟩
  rcases hvc with rfl | ⟨hlt, _⟩
  · exact ⟨hf, hle⟩
  · refine ⟨?_, ?_⟩
    · cases hn : fn v.cost with
      | false => rfl
      | true => rw [hl.fltl _ hn] at hlt; cases hlt
    · cases hc : ar.flt c v.cost with
      | false => rfl
      | true => rw [hm.ftrans hc hlt] at hle; cases hle

theorem Ins.reaches {ar : Arith F D} (hm : MonoLaws ar fn dn) {d d' : Dec F} {t : Token F} {b : Bool}
    (h : Ins ar d t b d') (hn : ∀ u ∈ d'.toks, fn u.cost = false) : Reaches ar fn d' t.state t.cost := by
  obtain ⟨u, hu, hs, hc⟩ := h.here
  refine ⟨u, hu, hs, hn u hu, ?_⟩
  rcases hc with rfl | hc
  · exact hm.frefl _
  · exact hc

theorem LmMove.mono {e : Env F D} (hm : MonoLaws e.ar fn dn) {s l s' : Int} {k : D → D} (h : LmMove e s l s' k) {a b : D}
    (hab : e.ar.dlt b a = false) : e.ar.dlt (k b) (k a) = false := by
  cases h with
  | off => exact hab
  | silent => exact hm.dadd _ hab
  | word => exact hm.dadd _ hab
  | unknown => exact hm.dadd _ hab

theorem LmMove.unique {e : Env F D} {s l s1 s2 : Int} {k1 k2 : D → D} (h1 : LmMove e s l s1 k1)
    (h2 : LmMove e s l s2 k2) : s1 = s2 ∧ k1 = k2 := by
  have key : ∀ t, (.ok (s1, k1 t) : Exec (Int × D)) = .ok (s2, k2 t) :=
    fun t => (addLm_of h1 t).symm.trans (addLm_of h2 t)
  have hk : ∀ t, s1 = s2 ∧ k1 t = k2 t := fun t => by
    have := Except.ok.inj (key t)
    exact ⟨congrArg Prod.fst this, congrArg Prod.snd this⟩
  exact ⟨(hk e.ar.inf).1, funext fun t => (hk t).2⟩

theorem IsScore.unique {e : Env F D} {f : List F} {t : Int} {v w : F} (h1 : IsScore e f t v) (h2 : IsScore e f t w) :
    v = w := by
  have := (logLikelihood_iff.2 h1).symm.trans (logLikelihood_iff.2 h2)
  exact Except.ok.inj this

theorem NanLaws.num_toF {ar : Arith F D} (hl : NanLaws ar fn dn) {a : D} (h : fn (ar.toF a) = false) : dn a = false := by
  cases hn : dn a with
  | false => rfl
  | true => rw [hl.toF hn] at h; cases h

theorem NanLaws.move {e : Env F D} (hl : NanLaws e.ar fn dn) {s w l : Int} {k : D → D} (hk : LmMove e s w l k) {c : D}
    (hc : dn c = true) : dn (k c) = true := by
  cases hk with
  | off => exact hc
  | silent => exact hl.daddl _ hc
  | word => exact hl.daddl _ hc
  | unknown => exact hl.daddl _ hc

theorem NanLaws.num_move {e : Env F D} (hl : NanLaws e.ar fn dn) {s w l : Int} {k : D → D} (hk : LmMove e s w l k) {c : D}
    (h : dn (k c) = false) : dn c = false := by
  cases hn : dn c with
  | false => rfl
  | true => rw [hl.move hk hn] at h; cases h

/-- The total cost of an arc respects the order of the costs it starts from. -/
theorem total_mono {e : Env F D} (hm : MonoLaws e.ar fn dn) {c c' w a : F} (h : e.ar.flt c c' = false) :
    e.ar.dlt (e.ar.toD (e.ar.fadd (e.ar.fadd c w) a)) (e.ar.toD (e.ar.fadd (e.ar.fadd c' w) a)) = false :=
  hm.toD (hm.fadd _ (hm.fadd _ h))

/-! ## Epsilon arcs -/

/-- The epsilon arc `a` out of `t` has been followed, unless it is above the cutoff. -/
def ArcDone (e : Env F D) (fn : F → Bool) (cutoff : D) (d : Dec F) (t : Token F) (a : GArc F) : Prop :=
  a.ilabel = 0 → ∀ l k, LmMove e t.state.2 a.olabel l k →
    e.ar.dlt cutoff (k (e.ar.toD (e.ar.fadd (e.ar.fadd t.cost a.weight) e.ar.zero))) = false →
    Reaches e.ar fn d (a.next, l) (stepCost e t.cost a.weight e.ar.zero k)

/-- Every token is either waiting on the stack or has all its epsilon arcs followed. -/
def Closed (e : Env F D) (fn : F → Bool) (cutoff : D) (d : Dec F) (stack : List State) : Prop :=
  ∀ t ∈ d.toks, t.state ∈ stack ∨ ∀ a ∈ e.g.arcs t.state.1, ArcDone e fn cutoff d t a

theorem ArcDone.mono {e : Env F D} {cutoff : D} {d d' : Dec F} {t : Token F} {a : GArc F}
    (h : ArcDone e fn cutoff d t a) (hb : Better e.ar fn d d') : ArcDone e fn cutoff d' t a :=
  fun h0 l k hk hc => hb _ _ (h h0 l k hk hc)

/-- Invariant while the arcs of the popped state `st` (token number `i`) are followed; `done` are the arcs
already looked at. -/
structure Mid (e : Env F D) (fn : F → Bool) (Q : Token F → Prop) (cutoff : D) (d0 d : Dec F) (st : State) (i : Nat)
    (stack : List State) (done : List (GArc F)) : Prop where
  exact : IndexExact d
  all : ∀ t ∈ d.toks, Q t
  better : Better e.ar fn d0 d
  here : ∃ t, d.toks[i]? = some t ∧ t.state = st ∧ (st ∈ stack ∨ ∀ a ∈ done, ArcDone e fn cutoff d t a)
  others : ∀ t ∈ d.toks, t.state ≠ st → t.state ∈ stack ∨ ∀ a ∈ e.g.arcs t.state.1, ArcDone e fn cutoff d t a

theorem Mid.step {e : Env F D} (hl : NanLaws e.ar fn dn) (hm : MonoLaws e.ar fn dn) {Q : Token F → Prop}
    (hQ : EpsClosed e Q) (hq : ∀ t, Q t → fn t.cost = false) {cutoff : D} {d0 d d' : Dec F} {st : State} {i : Nat}
    {stack stack' : List State} {done : List (GArc F)} {a : GArc F} (haa : a ∈ e.g.arcs st.1)
    (h : Mid e fn Q cutoff d0 d st i stack done) (hf : nonemitArc e i cutoff (d, stack) a = .ok (d', stack')) :
    Mid e fn Q cutoff d0 d' st i stack' (done ++ [a]) := by
  obtain ⟨t, ht, hts, hd⟩ := h.here
  have snoc : ∀ {d1 : Dec F} {t1 : Token F} {done : List (GArc F)}, (∀ x ∈ done, ArcDone e fn cutoff d1 t1 x) →
      ArcDone e fn cutoff d1 t1 a → ∀ x ∈ done ++ [a], ArcDone e fn cutoff d1 t1 x := by
    intro d1 t1 done h1 h2 x hx
    rcases List.mem_append.1 hx with hx | hx
    · exact h1 x hx
    · simp only [List.mem_singleton] at hx; rw [hx]; exact h2
  rcases nonemitArc_cases hf with ⟨hz, rfl, rfl⟩ | ⟨t', l, k, hz, ht', hk, hc⟩
  · refine ⟨h.exact, h.all, h.better, ⟨t, ht, hts, ?_⟩, h.others⟩
    rcases hd with hd | hd
    · exact .inl hd
    · exact .inr (snoc hd fun h0 => absurd h0 hz)
  · rw [ht] at ht'; cases ht'
    rcases hc with ⟨hc, rfl, rfl⟩ | ⟨hc, ins, hins, rfl⟩
    · refine ⟨h.exact, h.all, h.better, ⟨t, ht, hts, ?_⟩, h.others⟩
      rcases hd with hd | hd
      · exact .inl hd
      · refine .inr (snoc hd fun _ l' k' hk' hc' => ?_)
        obtain ⟨rfl, rfl⟩ := hk.unique hk'
        rw [hc] at hc'; cases hc'
    · have hI := insertTok_ins h.exact hins
      have hB := hI.better hl hm
      have hA : ∀ u ∈ d'.toks, Q u := by
        intro u hu
        rcases hI.mem u hu with hu | ⟨_, rfl⟩
        · exact h.all u hu
        · exact hQ t a l k (h.all t (List.mem_of_getElem? ht)) (by rw [hts]; exact haa) hz hk
      have hR := hI.reaches hm fun u hu => hq u (hA u hu)
      have sub : ∀ s ∈ stack, s ∈ (if ins then (a.next, l) :: stack else stack) := by
        intro s hs; split <;> simp [hs]
      obtain ⟨t', ht', hts', hkeep⟩ := hI.keep i t ht
      refine ⟨hI.exact, hA, h.better.trans hB, ⟨t', ht', hts'.trans hts, ?_⟩, ?_⟩
      · rcases hkeep with rfl | ⟨_, rfl, hst⟩
        · rcases hd with hd | hd
          · exact .inl (sub _ hd)
          · refine .inr (snoc (fun x hx => (hd x hx).mono hB) fun _ l' k' hk' _ => ?_)
            obtain ⟨rfl, rfl⟩ := hk.unique hk'
            exact hR
        · left
          have : st = (a.next, l) := by rw [← hts]; exact hst
          simp [this]
      · intro u hu hus
        rcases hI.mem u hu with hu | ⟨rfl, rfl⟩
        · rcases h.others u hu hus with ho | ho
          · exact .inl (sub _ ho)
          · exact .inr fun x hx => (ho x hx).mono hB
        · exact .inl (by simp)

theorem Mid.fold {e : Env F D} (hl : NanLaws e.ar fn dn) (hm : MonoLaws e.ar fn dn) {Q : Token F → Prop}
    (hQ : EpsClosed e Q) (hq : ∀ t, Q t → fn t.cost = false) {cutoff : D} {d0 : Dec F} {st : State} {i : Nat} :
    ∀ {arcs : List (GArc F)} {d d' : Dec F} {stack stack' : List State} {done : List (GArc F)},
      (∀ a ∈ arcs, a ∈ e.g.arcs st.1) → Mid e fn Q cutoff d0 d st i stack done → arcs.foldlM (nonemitArc e i cutoff) (d, stack) = .ok (d', stack') →
      Mid e fn Q cutoff d0 d' st i stack' (done ++ arcs)
  | [], d, d', stack, stack', done, _, h, hf => by
    cases (by simpa [pure, Except.pure] using hf : d = d' ∧ stack = stack') with
    | intro h1 h2 => subst h1 h2; simpa using h
  | a :: arcs, d, d', stack, stack', done, ha, h, hf => by
    rw [List.foldlM_cons] at hf
    obtain ⟨⟨d1, s1⟩, h1, h2⟩ := bind_ok hf
    have := Mid.fold hl hm hQ hq (fun x hx => ha x (by simp [hx])) (h.step hl hm hQ hq (ha a (by simp)) h1) h2
    simpa using this

theorem nonemitLoop_closed {e : Env F D} (hl : NanLaws e.ar fn dn) (hm : MonoLaws e.ar fn dn) {Q : Token F → Prop}
    (hQ : EpsClosed e Q) (hq : ∀ t, Q t → fn t.cost = false) {cutoff : D} {d0 : Dec F} :
    ∀ {fuel : Nat} {d d' : Dec F} {stack : List State}, IndexExact d → (∀ t ∈ d.toks, Q t) → Better e.ar fn d0 d → Closed e fn cutoff d stack →
      nonemitLoop e cutoff fuel d stack = .ok d' → Better e.ar fn d0 d' ∧ Closed e fn cutoff d' []
  | fuel, d, d', [], _, _, hb, hc, h => by
    cases fuel <;> (cases h; exact ⟨hb, hc⟩)
  | 0, _, _, _ :: _, _, _, _, _, h => by cases h
  | fuel + 1, d, d', st :: stack, hx, hA, hb, hc, h => by
    unfold nonemitLoop at h
    cases hi : d.idx.lookup st with
    | none => rw [hi] at h; cases h
    | some i =>
      rw [hi] at h
      obtain ⟨⟨d1, st1⟩, h1, h2⟩ := bind_ok h
      obtain ⟨t, ht, hts⟩ := (hx st i).1 hi
      have hM : Mid e fn Q cutoff d0 d st i stack [] := by
        refine ⟨hx, hA, hb, ⟨t, ht, hts, .inr (by simp)⟩, ?_⟩
        intro u hu hus
        rcases hc u hu with h | h
        · rcases List.mem_cons.1 h with h | h
          · exact absurd h hus
          · exact .inl h
        · exact .inr h
      have hM' := Mid.fold hl hm hQ hq (fun _ h => h) hM h1
      refine nonemitLoop_closed hl hm hQ hq hM'.exact hM'.all hM'.better ?_ h2
      intro u hu
      by_cases hus : u.state = st
      · obtain ⟨t1, ht1, hts1, hd⟩ := hM'.here
        obtain ⟨j, hj⟩ := List.getElem?_of_mem hu
        have := indexExact_nodup hM'.exact hj ht1 (hus.trans hts1.symm)
        subst this
        rw [hj] at ht1; cases ht1
        rcases hd with hd | hd
        · exact .inl (by rw [hus]; exact hd)
        · right
          intro a ha
          exact hd a (by rw [hus] at ha; simpa using ha)
      · exact hM'.others u hu hus

theorem processNonemitting_closed {e : Env F D} (hl : NanLaws e.ar fn dn) (hm : MonoLaws e.ar fn dn)
    {Q : Token F → Prop} (hQ : EpsClosed e Q) (hq : ∀ t, Q t → fn t.cost = false) {cutoff : D} {fuel : Nat} {d d' : Dec F}
    (hx : IndexExact d) (hA : ∀ t ∈ d.toks, Q t) (h : processNonemitting e cutoff fuel d = .ok d') :
    Better e.ar fn d d' ∧ Closed e fn cutoff d' [] := by
  obtain ⟨_, _, h⟩ := bind_ok h
  refine nonemitLoop_closed hl hm hQ hq hx hA (Better.refl _ _) ?_ h
  intro t ht
  left
  simp only [List.mem_reverse, List.mem_map]
  exact ⟨t, ht, rfl⟩

/-- Following one epsilon arc from a reached state. -/
theorem Closed.eps {e : Env F D} (hl : NanLaws e.ar fn dn) (hm : MonoLaws e.ar fn dn) {Q : Token F → Prop}
    (hQ : EpsClosed e Q) (hq : ∀ t, Q t → fn t.cost = false) {cutoff : D} {d : Dec F} (hA : ∀ t ∈ d.toks, Q t)
    (hc : Closed e fn cutoff d []) {s : State}
    {c : F} (hr : Reaches e.ar fn d s c) {a : GArc F} {l : Int} {k : D → D} (ha : a ∈ e.g.arcs s.1) (hz : a.ilabel = 0)
    (hk : LmMove e s.2 a.olabel l k) (hn : fn (stepCost e c a.weight e.ar.zero k) = false)
    (hcut : e.ar.dlt cutoff (k (e.ar.toD (e.ar.fadd (e.ar.fadd c a.weight) e.ar.zero))) = false) :
    Reaches e.ar fn d (a.next, l) (stepCost e c a.weight e.ar.zero k) := by
  obtain ⟨t, ht, rfl, _, hle⟩ := hr
  rcases hc t ht with h | h
  · simp at h
  · have hmono := hk.mono hm (total_mono (e := e) hm (w := a.weight) (a := e.ar.zero) hle)
    have := h a ha hz l k hk (hm.dle (hl.num_toF hn) hmono hcut)
    exact this.mono hm (hq _ (hQ t a l k (hA t ht) ha hz hk)) (hm.toF hmono)

/-! ## Emitting arcs -/

/-- The emitting arc `a` out of `t` has been followed, unless it is above the final cutoff `nwc`. -/
def EmitDone (e : Env F D) (fn : F → Bool) (f : List F) (nwc : D) (d : Dec F) (t : Token F) (a : GArc F) : Prop :=
  a.ilabel ≠ 0 → ∀ v l k, IsScore e f a.ilabel v → LmMove e t.state.2 a.olabel l k →
    e.ar.dlt nwc (e.ar.toD (e.ar.fadd (e.ar.fadd t.cost a.weight) (e.ar.fneg v))) = false →
    Reaches e.ar fn d (a.next, l) (stepCost e t.cost a.weight (e.ar.fneg v) k)

/-- The cutoff is lowered to a number or left alone. -/
def Lowered (ar : Arith F D) (nwc nwc' : D) : Prop := nwc' = nwc ∨ ar.dlt nwc' nwc = true

theorem Lowered.trans {ar : Arith F D} (hm : MonoLaws ar fn dn) {a b c : D} (h : Lowered ar a b) (g : Lowered ar b c) :
    Lowered ar a c := by
  rcases h with rfl | h
  · exact g
  · rcases g with rfl | g
    · exact .inr h
    · exact .inr (hm.dtrans g h)

theorem Lowered.le {ar : Arith F D} (hm : MonoLaws ar fn dn) {a b t : D} (h : Lowered ar a b) (ht : ar.dlt b t = false) :
    ar.dlt a t = false := by
  rcases h with rfl | h
  · exact ht
  · cases hc : ar.dlt a t with
    | false => rfl
    | true => rw [hm.dtrans h hc] at ht; cases ht

theorem EmitDone.mono {e : Env F D} (hm : MonoLaws e.ar fn dn) {f : List F} {nwc nwc' : D} {d d' : Dec F} {t : Token F}
    {a : GArc F} (h : EmitDone e fn f nwc d t a) (hb : Better e.ar fn d d') (hn : Lowered e.ar nwc nwc') :
    EmitDone e fn f nwc' d' t a :=
  fun h0 v l k hv hk hc => hb _ _ (h h0 v l k hv hk (hn.le hm hc))

theorem tighten_le {ar : Arith F D} (ab : F) (nwc t : D) : Lowered ar nwc (tighten ar ab nwc t) := by
  unfold tighten
  split
  · rename_i h; exact .inr h
  · exact .inl rfl

/-- What emitting arcs keep: the index is exact and all tokens satisfy `Q`. -/
def Fine (Q : Token F → Prop) (d : Dec F) : Prop := IndexExact d ∧ ∀ t ∈ d.toks, Q t

/-- One emitting arc keeps the index exact, improves the beam, lowers the cutoff and is done. -/
theorem emitArc_done {e : Env F D} (hl : NanLaws e.ar fn dn) (hm : MonoLaws e.ar fn dn) {f : List F} {P Q : Token F → Prop}
    (hQ : EmitClosed e f P Q) (hq : ∀ t, Q t → fn t.cost = false) {ab : F} {t : Token F} (hP : P t) {nwc nwc' : D}
    {d d' : Dec F} {a : GArc F} (ha : a ∈ e.g.arcs t.state.1) (hx : Fine Q d)
    (h : emitArc e f ab t (nwc, d) a = .ok (nwc', d')) :
    Fine Q d' ∧ Better e.ar fn d d' ∧ Lowered e.ar nwc nwc' ∧ EmitDone e fn f nwc' d' t a := by
  have hE := emitArc_inv hQ hP ha ⟨hx.1, hx.2, Frame.refl d⟩ h
  refine ⟨⟨hE.exact, hE.all⟩, ?_⟩
  rcases emitArc_cases h with ⟨hz, rfl, rfl⟩ | ⟨v, hz, hv, ⟨hc, rfl, rfl⟩ | ⟨hc, l, k, ins, hk, _, _, hi, rfl⟩⟩
  · exact ⟨Better.refl _ _, .inl rfl, fun h0 => absurd hz h0⟩
  · refine ⟨Better.refl _ _, .inl rfl, fun _ v' l k hv' hk hc' => ?_⟩
    cases hv.unique hv'
    rw [hc] at hc'; cases hc'
  · have hI := insertTok_ins hx.1 hi
    refine ⟨hI.better hl hm, tighten_le _ _ _, fun _ v' l' k' hv' hk' _ => ?_⟩
    cases hv.unique hv'
    obtain ⟨rfl, rfl⟩ := hk.unique hk'
    exact hI.reaches hm fun u hu => hq u (hE.all u hu)

theorem emitArcs_done {e : Env F D} (hl : NanLaws e.ar fn dn) (hm : MonoLaws e.ar fn dn) {f : List F} {P Q : Token F → Prop}
    (hQ : EmitClosed e f P Q) (hq : ∀ t, Q t → fn t.cost = false) {ab : F} {t : Token F} (hP : P t) :
    ∀ {arcs : List (GArc F)} {b b' : D × Dec F}, (∀ a ∈ arcs, a ∈ e.g.arcs t.state.1) → Fine Q b.2 →
      arcs.foldlM (emitArc e f ab t) b = .ok b' →
      Fine Q b'.2 ∧ Better e.ar fn b.2 b'.2 ∧ Lowered e.ar b.1 b'.1 ∧
        ∀ a ∈ arcs, EmitDone e fn f b'.1 b'.2 t a
  | [], b, b', _, hx, h => by
    cases (by simpa [pure, Except.pure] using h : b = b')
    exact ⟨hx, Better.refl _ _, .inl rfl, by simp⟩
  | a :: arcs, (n, d), b', ha, hx, h => by
    rw [List.foldlM_cons] at h
    obtain ⟨⟨n1, d1⟩, h1, h2⟩ := bind_ok h
    obtain ⟨a1, a2, a3, a4⟩ := emitArc_done hl hm hQ hq hP (ha a (by simp)) hx h1
    obtain ⟨b1, b2, b3, b4⟩ := emitArcs_done hl hm hQ hq hP (b := (n1, d1)) (fun x hx => ha x (by simp [hx])) a1 h2
    refine ⟨b1, a2.trans b2, a3.trans hm b3, ?_⟩
    intro x hx
    rcases List.mem_cons.1 hx with rfl | hx
    · exact a4.mono hm b2 b3
    · exact b4 x hx

theorem emitToks_done {e : Env F D} (hl : NanLaws e.ar fn dn) (hm : MonoLaws e.ar fn dn) {f : List F} {P Q : Token F → Prop}
    (hQ : EmitClosed e f P Q) (hq : ∀ t, Q t → fn t.cost = false) {wc ab : F} :
    ∀ {l : List (Token F)} {b b' : D × Dec F}, (∀ t ∈ l, P t) → Fine Q b.2 →
      l.foldlM (emitTok e f wc ab) b = .ok b' →
      Fine Q b'.2 ∧ Better e.ar fn b.2 b'.2 ∧ Lowered e.ar b.1 b'.1 ∧
        ∀ t ∈ l, e.ar.flt wc t.cost = false → ∀ a ∈ e.g.arcs t.state.1, EmitDone e fn f b'.1 b'.2 t a
  | [], b, b', _, hx, h => by
    cases (by simpa [pure, Except.pure] using h : b = b')
    exact ⟨hx, Better.refl _ _, .inl rfl, by simp⟩
  | t :: l, b, b', hP, hx, h => by
    rw [List.foldlM_cons] at h
    obtain ⟨b1, h1, h2⟩ := bind_ok h
    have key : Fine Q b1.2 ∧ Better e.ar fn b.2 b1.2 ∧ Lowered e.ar b.1 b1.1 ∧
        (e.ar.flt wc t.cost = false → ∀ a ∈ e.g.arcs t.state.1, EmitDone e fn f b1.1 b1.2 t a) := by
      unfold emitTok at h1
      split at h1
      · rename_i hw
        cases h1
        exact ⟨hx, Better.refl _ _, .inl rfl, fun h => by rw [hw] at h; cases h⟩
      · obtain ⟨⟨n2, d2⟩, h3, h4⟩ := bind_ok h1
        cases h4
        obtain ⟨c1, c2, c3, c4⟩ := emitArcs_done hl hm hQ hq (hP t (by simp)) (fun _ h => h) hx h3
        exact ⟨c1, c2, c3, fun _ => c4⟩
    obtain ⟨a1, a2, a3, a4⟩ := key
    obtain ⟨c1, c2, c3, c4⟩ := emitToks_done hl hm hQ hq (fun u hu => hP u (by simp [hu])) a1 h2
    refine ⟨c1, a2.trans c2, a3.trans hm c3, ?_⟩
    intro u hu hw a ha
    rcases List.mem_cons.1 hu with rfl | hu
    · exact (a4 hw a ha).mono hm c2 c3
    · exact c4 u hu hw a ha

/-- Following one emitting arc from a reached state. -/
theorem processEmitting_reaches {e : Env F D} (hl : NanLaws e.ar fn dn) (hm : MonoLaws e.ar fn dn) {f : List F}
    {P Q : Token F → Prop} (hQ : EmitClosed e f P Q) (hq : ∀ t, Q t → fn t.cost = false) {d d' : Dec F}
    {cut : Cutoffs F D} (hprev : d.prev = []) (hA : ∀ t ∈ d.toks, P t)
    (h : processEmitting e f d = .ok (some cut, d')) {s : State} {c v : F}
    (hr : Reaches e.ar fn d s c) (hcn : fn c = false) {a : GArc F} {l : Int} {k : D → D} (ha : a ∈ e.g.arcs s.1)
    (hz : a.ilabel ≠ 0) (hv : IsScore e f a.ilabel v) (hk : LmMove e s.2 a.olabel l k)
    (hnum : fn (stepCost e c a.weight (e.ar.fneg v) k) = false) (hw : e.ar.flt cut.weight c = false)
    (hn : e.ar.dlt cut.next (e.ar.toD (e.ar.fadd (e.ar.fadd c a.weight) (e.ar.fneg v))) = false) :
    Reaches e.ar fn d' (a.next, l) (stepCost e c a.weight (e.ar.fneg v) k) := by
  have hx : Fine Q (swapped d) := by
    refine ⟨?_, by simp [swapped, hprev]⟩
    intro s i
    simp [swapped, hprev]
  obtain ⟨cu, ab, best, _, h | ⟨_, nwc0, nwc, d1, _, h3, hc, rfl⟩⟩ := processEmitting_cases h
  · obtain ⟨h, _⟩ := h; cases h
  · cases hc
    obtain ⟨_, _, _, h4⟩ := emitToks_done hl hm hQ hq hA hx h3
    obtain ⟨t, ht, rfl, _, hle⟩ := hr
    have hmono := total_mono (e := e) hm (w := a.weight) (a := e.ar.fneg v) hle
    have h5 := h4 t ht (hm.fle hcn hle hw) a ha hz v l k hv hk
      (hm.dle (hl.num_move hk (hl.num_toF hnum)) hmono hn)
    have h6 := h5.mono hm (hq _ (hQ t a l k v (hA t ht) ha hz hv hk)) (hm.toF (hk.mono hm hmono))
    exact h6

/-! ## Runs -/

theorem epsCutoff_append {ar : Arith F D} {cs : List (Option (Cutoffs F D))} {x : Option (Cutoffs F D)} {n : Nat}
    (hn : n ≤ cs.length) : epsCutoff ar (cs ++ [x]) n = epsCutoff ar cs n := by
  cases n with
  | zero => rfl
  | succ n =>
    simp only [epsCutoff]
    rw [List.getElem?_append_left (by omega)]

theorem Survives.restrict {e : Env F D} {s0 : State} {fs : List (List F)} {f : List F}
    {cs : List (Option (Cutoffs F D))} {x : Option (Cutoffs F D)} (hlen : fs.length = cs.length)
    {p : List (GArc F)} {s : State} {c : F} (h : Survives e s0 (fs ++ [f]) (cs ++ [x]) p s c)
    (hp : emitted p ≤ fs.length) : Survives e s0 fs cs p s c := by
  induction h with
  | nil => exact .nil
  | eps _ ha hl hk hcut hc ih =>
    rw [emitted_eps hl] at hp
    refine .eps (ih hp) ha hl hk ?_ hc
    rw [epsCutoff_append (by omega)] at hcut
    exact hcut
  | emit _ ha hl hf hv hk hcs hw hn ih =>
    rw [emitted_emit hl] at hp
    rw [List.getElem?_append_left (by omega)] at hf hcs
    exact .emit (ih (by omega)) ha hl hf hv hk hcs hw hn

theorem Run.lengths {e : Env F D} {fs : List (List F)} {bs : List Bool} {cs : List (Option (Cutoffs F D))}
    {d : Dec F} (h : Run e fs bs cs d) : fs.length = cs.length ∧ bs.length = cs.length := by
  induction h with
  | init => simp
  | frame _ _ ih => simp [ih.1, ih.2]

theorem Survives.path {e : Env F D} {s0 : State} {fs : List (List F)} {cs : List (Option (Cutoffs F D))}
    {p : List (GArc F)} {s : State} {c : F} (h : Survives e s0 fs cs p s c) : PathTo e s0 fs p s c := by
  induction h with
  | nil => exact .nil
  | eps _ ha hl hk _ _ ih => exact .eps ih ha hl hk
  | emit _ ha hl hf hv hk _ _ _ ih => exact .emit ih ha hl hf hv hk

theorem NoNan.restrict {e : Env F D} {s0 : State} {fs : List (List F)} {f : List F} (h : NoNan e fn s0 (fs ++ [f])) :
    NoNan e fn s0 fs := fun p s c hp => h p s c (hp.append f)

theorem NoNan.isPath {e : Env F D} {s0 : State} {fs : List (List F)} (h : NoNan e fn s0 fs) {n : Nat} (t : Token F)
    (ht : IsPath e s0 fs n t) : fn t.cost = false := by
  obtain ⟨p, hp, _⟩ := ht
  exact h p _ _ hp

theorem Run.optimal {e : Env F D} (hl : NanLaws e.ar fn dn) (hm : MonoLaws e.ar fn dn) {fs : List (List F)}
    {bs : List Bool} {cs : List (Option (Cutoffs F D))} {d : Dec F} (h : Run e fs bs cs d) (hb : ∀ b ∈ bs, b = true)
    {s0 : State} (hs0 : StartState e s0) (hnn : NoNan e fn s0 fs) : ∀ {p : List (GArc F)} {s : State} {c : F},
      Survives e s0 fs cs p s c → emitted p = fs.length → Reaches e.ar fn d s c := by
  induction h with
  | @init fuel d h =>
    have hall := (initDecoder_inv (isPath_eps e s0 [] 0)
      (fun s' hs' => by rw [hs'.unique hs0]; exact ⟨[], .nil, rfl, rfl⟩) h).2.1
    obtain ⟨_, s, ins, d1, hs, h1, h2⟩ := initDecoder_cases h
    have hss := hs.unique hs0
    subst hss
    have hx0 : IndexExact ({ (fresh : Dec F) with toks := [], prev := [] } : Dec F) := indexExact_fresh
    have hI := insertTok_ins hx0 h1
    have hA1 : ∀ t ∈ d1.toks, IsPath e s [] 0 t := by
      intro t ht
      rcases hI.mem t ht with h | ⟨_, rfl⟩
      · simp at h
      · exact ⟨[], .nil, rfl, rfl⟩
    obtain ⟨hbet, hcl⟩ := processNonemitting_closed (d := { d1 with frames := 0 }) hl hm (isPath_eps e s [] 0)
      hnn.isPath hI.exact hA1 h2
    have hstart : Reaches e.ar fn d s e.ar.zero := hbet _ _ (hI.reaches hm fun u hu => hnn.isPath u (hA1 u hu))
    intro p s c hp hn
    induction hp with
    | nil => exact hstart
    | eps hp ha hz hk hcut hc ih =>
      rw [emitted_eps hz] at hn
      have hn0 := hn
      simp only [List.length_nil] at hn0
      rw [hn0] at hcut
      cases hcut
      exact hcl.eps hl hm (isPath_eps _ _ _ _) hnn.isPath hall (ih hn) ha hz hk (hnn _ _ _ (hp.path.eps ha hz hk)) hc
    | emit _ ha hz hf => simp at hf
  | @frame fs bs cs d d' fuel f b c hrun h ih =>
    have hbt : b = true := hb b (by simp)
    subst hbt
    have hb' : ∀ b ∈ bs, b = true := fun b h => hb b (by simp [h])
    obtain ⟨_, hprev⟩ := hrun.inv.alive hb'
    obtain ⟨hlen, _⟩ := hrun.lengths
    have hall := (Run.frame hrun h).inv.paths s0 hs0
    have hpre := hrun.inv.paths s0 hs0
    obtain ⟨d1, h1, h⟩ := process_cases h
    rcases h with ⟨_, h, _⟩ | ⟨c', rfl, ⟨_, h, _⟩ | ⟨_, d2, h2, h⟩⟩
    · cases h
    · cases h
    · rcases h with ⟨_, h, _⟩ | ⟨_, _, rfl⟩
      · cases h
      · have hQ := isPath_emit e s0 fs f
        have hi := processEmitting_inv hQ hprev hpre h1
        have hnn' : ∀ t, IsPath e s0 (fs ++ [f]) (fs ++ [f]).length t → fn t.cost = false := hnn.isPath
        obtain ⟨hbet, hcl⟩ := processNonemitting_closed hl hm (isPath_eps e s0 (fs ++ [f]) (fs ++ [f]).length) hnn' hi.1
          hi.2.1 h2
        intro p s c hp hn
        suffices Reaches e.ar fn d2 s c from this
        induction hp with
        | nil => simp [emitted] at hn
        | @eps p s c a l k cut hp ha hz hk hcut hc ih' =>
          rw [emitted_eps hz] at hn
          rw [hn] at hcut
          simp only [List.length_append, List.length_cons, List.length_nil, Nat.zero_add, epsCutoff, hlen,
            List.getElem?_concat_length, Option.join_some, Option.map_some, Option.some.injEq] at hcut
          subst hcut
          exact hcl.eps hl hm (isPath_eps _ _ _ _) hnn.isPath hall (ih' hn) ha hz hk
            (hnn _ _ _ (hp.path.eps ha hz hk)) hc
        | @emit p s c v a l k f' cut hp ha hz hf hv hk hcs hw hnx _ =>
          have hnum := hnn _ _ _ (hp.path.emit ha hz hf hv hk)
          have hcn := hnn _ _ _ hp.path
          rw [emitted_emit hz] at hn
          have hn : emitted p = fs.length := by simpa using hn
          have hr := ih hb' hnn.restrict (hp.restrict hlen (by omega)) hn
          have hf' : f' = f := by
            rw [hn] at hf; simpa using hf.symm
          have hc' : cut = c' := by
            rw [hn, hlen] at hcs; simpa using hcs.symm
          subst hf' hc'
          exact hbet _ _ (processEmitting_reaches hl hm hQ hnn' hprev hpre h1 hr hcn ha hz hv hk hnum hw hnx)

end Verif.Decoder
