import Verif.MdecSim

/-!
# The decoder with its memory against the half-way decoder: a frame
-/

set_option linter.unusedSectionVars false
set_option linter.unusedVariables false

namespace Verif.Mdec

open Verif Verif.Fst Verif.Decoder
open Verif.Pool (Addr ArenaInv)

variable {F D : Type}

theorem Sim.mono {α β : Type} {bd : Prop} {Bd Bd' : α → Prop} {R R' : β → α → Prop} {x : Exec β} {y : Exec α}
    (h : Sim bd Bd R x y) (hB : ∀ a, y = .ok a → Bd' a → Bd a) (hR : ∀ b a, R b a → R' b a) : Sim bd Bd' R' x y :=
  ⟨fun b hb => by obtain ⟨a, h1, h2⟩ := h.fwd b hb; exact ⟨a, h1, hR _ _ h2⟩,
    fun hbd a ha hB' => h.bwd hbd a ha (hB a ha hB')⟩

theorem foldlM_mono {α γ : Type} {g : α → γ → Exec α} {P : α → Nat} : ∀ (l : List γ),
    (∀ a x a', x ∈ l → g a x = .ok a' → P a ≤ P a') → ∀ a a', l.foldlM g a = .ok a' → P a ≤ P a'
  | [], _, a, a', h => by cases (by simpa [pure, Except.pure] using h : a = a'); exact Nat.le_refl _
  | x :: l, hs, a, a', h => by
    rw [List.foldlM_cons] at h
    obtain ⟨a1, h1, h⟩ := bind_ok h
    exact Nat.le_trans (hs a x a1 (by simp) h1) (foldlM_mono l (fun a y a' hy => hs a y a' (by simp [hy])) _ _ h)

/-! ## Non-emitting arcs -/

theorem nonemitArc_mono {e : Env F D} {i : Nat} {cutoff : D} {acc r : Mid.Half F × List State} {arc : GArc F}
    (h : Mid.nonemitArc e i cutoff acc arc = .ok r) : acc.1.idx.length ≤ r.1.idx.length := by
  obtain ⟨d, stack⟩ := acc
  unfold Mid.nonemitArc at h
  simp only at h
  split at h
  · cases h; exact Nat.le_refl _
  · split at h
    · cases h
    · obtain ⟨⟨l, t⟩, _, h⟩ := bind_ok h
      simp only at h
      split at h
      · cases h; exact Nat.le_refl _
      · obtain ⟨⟨ins, d'⟩, h1, h⟩ := bind_ok h
        cases h
        exact insertTok_mono h1

theorem rel_cache {e : Env F D} {bd : Prop} {ps : List Addr} {ts : List (Tok F)} {m : Mem F} {h : Mid.Half F}
    (r : Rel e bd ps ts m h) {c : Cache F} (hc : CacheOk e c) : Rel e bd ps ts { m with cache := c } h :=
  ⟨r.live, r.nodup, r.toks, r.prevs, r.findable, r.stores, r.size, r.strong, r.words, hc, r.frames, r.eos, r.small,
    r.states⟩

theorem addLm_range {e : Env F D} (hS : Small e) {s l : Int} {t : D} (hs : InRange s) {p : Int × D}
    (h : Decoder.addLm e s l t = .ok p) : InRange p.1 := by
  unfold Decoder.addLm at h
  split at h
  · cases h; exact hs
  · rename_i lm hlm
    obtain ⟨⟨s', w⟩, h1, h⟩ := bind_ok h
    cases h
    unfold Decoder.propagateLm at h1
    split at h1
    · obtain ⟨o, h2, h1⟩ := bind_ok h1
      cases o with
      | none => cases h1; exact hs
      | some a => cases h1; exact hS.lmArcs lm hlm _ _ _ h2
    · cases h1; exact hs

/-- Adding the range of the language model's state to `addLm_sim`. -/
theorem addLm_sim' {e : Env F D} (hlab : LmLabels e) {c : Cache F} (hc : CacheOk e c) {bd : Prop} {s l : Int} {t : D}
    (hS : bd → Small e) (hs : bd → InRange s) (hl : bd → InRange l) :
    Sim bd (fun _ => True) (fun b a => b.1 = a.1 ∧ b.2.1 = a.2 ∧ CacheOk e b.2.2 ∧ (bd → InRange a.1))
      (addLm e c s l t) (Decoder.addLm e s l t) := by
  have h := addLm_sim (t := t) hlab hc (bd := bd) (s := s) (l := l) (fun hbd => ⟨hs hbd, hl hbd⟩)
  refine ⟨fun b hb => ?_, h.bwd⟩
  obtain ⟨a, h1, h2, h3, h4⟩ := h.fwd b hb
  exact ⟨a, h1, h2, h3, h4, fun hbd => addLm_range (hS hbd) (hs hbd) h1⟩

theorem nonemitArc_sim {e : Env F D} (hlab : LmLabels e) {bd : Prop} {ps : List Addr} {ts : List (Tok F)} {m : Mem F}
    {h : Mid.Half F} (r : Rel e bd ps ts m h) (i : Nat) (cutoff : D) (stack : List State) (arc : GArc F)
    (harc : bd → InRange arc.next ∧ InRange arc.olabel) :
    Sim bd (fun a => Fits a.1) (fun b a => b.2 = a.2 ∧ Rel e bd ps ts b.1 a.1)
      (nonemitArc e i cutoff (m, stack) arc) (Mid.nonemitArc e i cutoff (h, stack) arc) := by
  unfold nonemitArc Mid.nonemitArc
  simp only
  split
  · exact Sim.ok ⟨rfl, r⟩
  · cases hi : h.toks[i]? with
    | none =>
      have hn : aget m.toks (i : Int) = .error .ub := by
        have h1 : h.toks.length ≤ i := List.getElem?_eq_none_iff.mp hi
        have h2 : m.toks[i]? = none := by
          rw [List.getElem?_eq_none_iff]
          have := r.toks.length_eq
          omega
        unfold aget
        simp [h2]
      rw [hn, error_bind]
      exact Sim.error
    | some tok =>
      obtain ⟨a, ha, hc⟩ := points_get r.toks hi
      have hmem : tok ∈ h.toks := List.mem_of_getElem? hi
      rw [Verif.aget_nat ha, ok_bind, tok_of hc, ok_bind]
      simp only
      refine (addLm_sim' hlab r.cache r.small (fun hbd => (r.states hbd tok (.inl hmem)).2)
        (fun hbd => (harc hbd).2)).bind ?_ (fun _ _ _ _ => trivial)
      rintro ⟨l, t, c⟩ ⟨l', t'⟩ ⟨e1, e2, e3, e4⟩
      simp only at e1 e2
      subst e1 e2
      simp only
      split
      · exact Sim.ok ⟨rfl, rel_cache r e3⟩
      · refine (insertTok_sim (rel_cache r e3) _ _ _ _ (fun hbd => ⟨(harc hbd).1, e4 hbd⟩)).bind ?_ ?_
        · rintro ⟨b1, m'⟩ ⟨b2, h'⟩ ⟨f1, f2⟩
          simp only at f1 f2
          subst f1
          exact Sim.ok ⟨rfl, f2⟩
        · rintro ⟨b, h'⟩ c hc hB
          cases hc
          exact hB

theorem nonemitLoop_mono {e : Env F D} {cutoff : D} : ∀ (fuel : Nat) {h h' : Mid.Half F} {stack : List State},
    Mid.nonemitLoop e cutoff fuel h stack = .ok h' → h.idx.length ≤ h'.idx.length
  | 0, h, h', [], hh => by unfold Mid.nonemitLoop at hh; cases hh; exact Nat.le_refl _
  | 0, h, h', _ :: _, hh => by unfold Mid.nonemitLoop at hh; cases hh
  | fuel + 1, h, h', [], hh => by unfold Mid.nonemitLoop at hh; cases hh; exact Nat.le_refl _
  | fuel + 1, h, h', st :: stack, hh => by
    unfold Mid.nonemitLoop at hh
    split at hh
    · cases hh
    · obtain ⟨⟨h1, s1⟩, g1, hh⟩ := bind_ok hh
      exact Nat.le_trans (foldlM_mono (P := fun a : Mid.Half F × List State => a.1.idx.length) _
        (fun a x a' _ hx => nonemitArc_mono hx) _ _ g1) (nonemitLoop_mono fuel hh)

theorem nonemitLoop_sim {e : Env F D} (hlab : LmLabels e) {bd : Prop} {ps : List Addr} {ts : List (Tok F)}
    (cutoff : D) : ∀ (fuel : Nat) {m : Mem F} {h : Mid.Half F} {stack : List State}, Rel e bd ps ts m h →
      (bd → ∀ st ∈ stack, InRange st.1 ∧ InRange st.2) →
    Sim bd Fits (Rel e bd ps ts) (nonemitLoop e cutoff fuel m stack) (Mid.nonemitLoop e cutoff fuel h stack)
  | 0, m, h, [], r, hst => by unfold nonemitLoop Mid.nonemitLoop; exact Sim.ok r
  | 0, m, h, _ :: _, r, hst => by unfold nonemitLoop Mid.nonemitLoop; exact Sim.error
  | fuel + 1, m, h, [], r, hst => by unfold nonemitLoop Mid.nonemitLoop; exact Sim.ok r
  | fuel + 1, m, h, st :: stack, r, hst => by
    unfold nonemitLoop Mid.nonemitLoop
    have body : ∀ i : Nat, Sim bd Fits (Rel e bd ps ts)
        ((e.g.arcs st.1).foldlM (nonemitArc e (i : Int) cutoff) (m, stack) >>= fun x =>
          nonemitLoop e cutoff fuel x.1 x.2)
        ((e.g.arcs st.1).foldlM (Mid.nonemitArc e i cutoff) (h, stack) >>= fun x =>
          Mid.nonemitLoop e cutoff fuel x.1 x.2) := by
      intro i
      refine (Sim.foldlM (bd := bd) (Bd := fun a : Mid.Half F × List State => Fits a.1)
        (R := fun b a => b.2 = a.2 ∧ Rel e bd ps ts b.1 a.1 ∧ (bd → ∀ st ∈ a.2, InRange st.1 ∧ InRange st.2))
        ?_ (e.g.arcs st.1) ?_ (m, stack) (h, stack)
        ⟨rfl, r, fun hbd s hs => hst hbd s (by simp [hs])⟩).bind ?_ ?_
      · intro a x a' hx hB
        exact Nat.le_trans (nonemitArc_mono hx) hB
      · rintro ⟨m1, s1⟩ ⟨h1, s2⟩ arc harc ⟨f1, f2, f3⟩
        simp only at f1 f2 f3
        subst f1
        have hs := nonemitArc_sim hlab f2 i cutoff s1 arc (fun hbd => (f2.small hbd).arcs _ _ harc)
        refine ⟨fun b hb => ?_, hs.bwd⟩
        obtain ⟨a, g1, g2, g3⟩ := hs.fwd b hb
        refine ⟨a, g1, g2, g3, fun hbd => ?_⟩
        -- the states pushed
        unfold Mid.nonemitArc at g1
        simp only at g1
        split at g1
        · cases g1; exact f3 hbd
        · split at g1
          · cases g1
          · rename_i tok htok
            obtain ⟨⟨l, t⟩, k1, g1⟩ := bind_ok g1
            simp only at g1
            split at g1
            · cases g1; exact f3 hbd
            · obtain ⟨⟨ins, h'⟩, k2, g1⟩ := bind_ok g1
              cases g1
              intro s hs
              simp only at hs
              split at hs
              · rcases List.mem_cons.mp hs with e1 | e1
                · rw [e1]
                  exact ⟨((f2.small hbd).arcs _ _ harc).1,
                    addLm_range (f2.small hbd) (f2.states hbd tok (.inl (List.mem_of_getElem? htok))).2 k1⟩
                · exact f3 hbd s e1
              · exact f3 hbd s hs
      · rintro ⟨m1, s1⟩ ⟨h1, s2⟩ ⟨f1, f2, f3⟩
        simp only at f1 f2 f3
        subst f1
        exact nonemitLoop_sim hlab cutoff fuel f2 f3
      · rintro ⟨h1, s1⟩ c hc hB
        exact Nat.le_trans (nonemitLoop_mono fuel hc) hB
    constructor
    · intro b hb
      obtain ⟨i, hi, hb⟩ := bind_ok hb
      obtain ⟨_, hn, hb⟩ := bind_ok hb
      have hiv := HashTable.find_ok r.findable r.stores hi
      have hn := cassert_ok hn
      simp only [decide_eq_true_eq] at hn
      cases hlk : h.idx.lookup st with
      | none =>
        rw [hlk] at hiv
        exact absurd hiv hn
      | some n =>
        rw [hlk] at hiv
        simp only [Option.map_some, Option.getD_some, Int.ofNat_eq_natCast] at hiv
        subst hiv
        exact (body n).fwd b hb
    · intro hbd a ha hB
      cases hlk : h.idx.lookup st with
      | none => rw [hlk] at ha; cases ha
      | some n =>
        rw [hlk] at ha
        simp only at ha
        have hle : h.idx.length ≤ a.idx.length := by
          obtain ⟨⟨h1, s1⟩, g1, ha⟩ := bind_ok ha
          exact Nat.le_trans (foldlM_mono (P := fun a : Mid.Half F × List State => a.1.idx.length) _
            (fun a x a' _ hx => nonemitArc_mono hx) _ _ g1) (nonemitLoop_mono fuel ha)
        have hF : h.idx.length ≤ 46338 := Nat.le_trans hle hB
        obtain ⟨s1, s2⟩ := hst hbd st (by simp)
        obtain ⟨i, hi⟩ := (r.strong hbd hF).find (by rw [r.size]; omega) s1 s2 (-1)
        have hiv := HashTable.find_ok r.findable r.stores hi
        rw [hlk] at hiv
        simp only [Option.map_some, Option.getD_some, Int.ofNat_eq_natCast] at hiv
        subst hiv
        rw [hi, ok_bind, show decide ((n : Int) ≠ -1) = true from by simp, cassert_true, ok_bind]
        exact (body n).bwd hbd a ha hB

theorem processNonemitting_mono {e : Env F D} {cutoff : D} {fuel : Nat} {h h' : Mid.Half F}
    (hh : Mid.processNonemitting e cutoff fuel h = .ok h') : h.idx.length ≤ h'.idx.length := by
  unfold Mid.processNonemitting at hh
  obtain ⟨_, _, hh⟩ := bind_ok hh
  exact nonemitLoop_mono fuel hh

theorem processNonemitting_sim {e : Env F D} (hlab : LmLabels e) {bd : Prop} {ps : List Addr} {ts : List (Tok F)}
    (cutoff : D) (fuel : Nat) {m : Mem F} {h : Mid.Half F} (r : Rel e bd ps ts m h) :
    Sim bd Fits (Rel e bd ps ts) (processNonemitting e cutoff fuel m) (Mid.processNonemitting e cutoff fuel h) := by
  unfold processNonemitting Mid.processNonemitting
  rw [readAll_points r.toks, ok_bind]
  refine (Sim.same (Bd := fun _ => True) _).bind (fun _ _ _ => nonemitLoop_sim hlab cutoff fuel r ?_)
    (fun _ _ _ _ => trivial)
  intro hbd st hst
  simp only [List.mem_reverse, List.mem_map] at hst
  obtain ⟨t, ht, rfl⟩ := hst
  exact r.states hbd t (.inl ht)

/-! ## Emitting arcs -/

theorem emitArc_mono {e : Env F D} {frame : List F} {ab : F} {tok : Tok F} {acc r : D × Mid.Half F} {arc : GArc F}
    (h : Mid.emitArc e frame ab tok acc arc = .ok r) : acc.2.idx.length ≤ r.2.idx.length := by
  obtain ⟨nwc, d⟩ := acc
  unfold Mid.emitArc at h
  simp only at h
  split at h
  · cases h; exact Nat.le_refl _
  · obtain ⟨t, _, h⟩ := bind_ok h
    split at h
    · cases h; exact Nat.le_refl _
    · obtain ⟨⟨l, t'⟩, _, h⟩ := bind_ok h
      obtain ⟨_, _, h⟩ := bind_ok h
      obtain ⟨⟨ins, d'⟩, h1, h⟩ := bind_ok h
      cases h
      exact insertTok_mono h1

theorem emitArc_sim {e : Env F D} (hlab : LmLabels e) {bd : Prop} {ps : List Addr} {ts : List (Tok F)} {a : Addr}
    {tok : Tok F} (frame : List F) (ab : F) {m : Mem F} {h : Mid.Half F} (r : Rel e bd (a :: ps) (tok :: ts) m h)
    (nwc : D) (arc : GArc F) (harc : bd → InRange arc.next ∧ InRange arc.olabel) :
    Sim bd (fun a => Fits a.2) (fun x y => x.1 = y.1 ∧ Rel e bd (a :: ps) (tok :: ts) x.2 y.2)
      (emitArc e frame ab tok.state a (nwc, m) arc) (Mid.emitArc e frame ab tok (nwc, h) arc) := by
  unfold emitArc Mid.emitArc
  simp only
  split
  · exact Sim.ok ⟨rfl, r⟩
  · have hc : m.pool.cells a = some tok := by
      have := r.prevs
      cases this with
      | cons h0 _ => exact h0
    rw [tok_of hc, ok_bind]
    refine (Sim.same (Bd := fun _ => True) _).bind ?_ (fun _ _ _ _ => trivial)
    intro total total' htot
    subst htot
    split
    · exact Sim.ok ⟨rfl, r⟩
    · refine (addLm_sim' hlab r.cache r.small (fun hbd => (r.states hbd tok (.inr (by simp))).2)
        (fun hbd => (harc hbd).2)).bind ?_ (fun _ _ _ _ => trivial)
      rintro ⟨l, t, c⟩ ⟨l', t'⟩ ⟨e1, e2, e3, e4⟩
      simp only at e1 e2
      subst e1 e2
      refine (Sim.same (Bd := fun _ => True) _).bind ?_ (fun _ _ _ _ => trivial)
      intro _ _ _
      refine (insertTok_sim (rel_cache r e3) _ _ _ _ (fun hbd => ⟨(harc hbd).1, e4 hbd⟩)).bind ?_ ?_
      · rintro ⟨b1, m'⟩ ⟨b2, h'⟩ ⟨f1, f2⟩
        exact Sim.ok ⟨rfl, f2⟩
      · rintro ⟨b, h'⟩ c hc hB
        cases hc
        exact hB

theorem emitTok_mono {e : Env F D} {frame : List F} {wc ab : F} {tok : Tok F} {acc r : D × Mid.Half F}
    (h : Mid.emitTok e frame wc ab acc tok = .ok r) : acc.2.idx.length ≤ r.2.idx.length := by
  unfold Mid.emitTok at h
  split at h
  · cases h; exact Nat.le_refl _
  · obtain ⟨⟨n, d⟩, h1, h⟩ := bind_ok h
    have := foldlM_mono (P := fun a : D × Mid.Half F => a.2.idx.length) _ (fun a x a' _ hx => emitArc_mono hx) _ _ h1
    cases h
    exact this

/-- A token of the previous frame that is not looked at any more. -/
theorem rel_drop {e : Env F D} {bd : Prop} {ps : List Addr} {ts : List (Tok F)} {a : Addr} {tok : Tok F} {m : Mem F}
    {h : Mid.Half F} (r : Rel e bd (a :: ps) (tok :: ts) m h) : Rel e bd ps ts m h := by
  obtain ⟨live, l1, l2, l3⟩ := r.live
  refine ⟨⟨live, l1, l2, fun b hb => l3 b (hb.imp_right fun h => by simp [h])⟩, ?_, r.toks, ?_, r.findable, r.stores,
    r.size, r.strong, r.words, r.cache, r.frames, r.eos, r.small, ?_⟩
  · exact r.nodup.sublist (List.Sublist.append_left (List.sublist_cons_self _ _) _)
  · have := r.prevs
    cases this with
    | cons _ hs => exact hs
  · exact fun hbd t ht => r.states hbd t (ht.imp_right fun h => by simp [h])

/-- A token of the previous frame given back. -/
theorem rel_free {e : Env F D} {bd : Prop} {ps : List Addr} {ts : List (Tok F)} {a : Addr} {tok : Tok F} {m : Mem F}
    {h : Mid.Half F} (r : Rel e bd (a :: ps) (tok :: ts) m h) :
    ∃ p, Pool.dealloc true m.pool a = .ok p ∧ Rel e bd ps ts { m with pool := p } { h with live := h.live - 1 } := by
  obtain ⟨live, l1, l2, l3⟩ := r.live
  have ha : a ∈ live := l3 a (.inr (by simp))
  have hnd := List.nodup_append.mp r.nodup
  have hne : ∀ b, b ∈ m.toks ∨ b ∈ ps → b ≠ a := by
    rintro b (hb | hb) e
    · exact hnd.2.2 b hb a (by simp) e
    · exact (List.nodup_cons.mp hnd.2.1).1 (e ▸ hb)
  refine ⟨⟨{ m.pool.arena with free := a :: m.pool.arena.free }, fun b => if b = a then none else m.pool.cells b⟩, rfl, ?_⟩
  have hd := rel_drop r
  refine ⟨⟨live.erase a, Pool.release_inv l1 ha, ?_, ?_⟩, hd.nodup, ?_, ?_, r.findable, r.stores, r.size, r.strong,
    r.words, r.cache, r.frames, r.eos, r.small, hd.states⟩
  · rw [List.length_erase_of_mem ha]
    have : 0 < live.length := List.length_pos_of_mem ha
    simp only
    omega
  · intro b hb
    exact (List.mem_erase_of_ne (hne b hb)).mpr (l3 b (hb.imp_right fun h => by simp [h]))
  · exact points_keep hd.toks (fun b hb => by simp only [if_neg (hne b (.inl hb))])
  · exact points_keep hd.prevs (fun b hb => by simp only [if_neg (hne b (.inr hb))])

theorem emitTok_sim {e : Env F D} (hlab : LmLabels e) {bd : Prop} {ps : List Addr} {ts : List (Tok F)} {a : Addr}
    {tok : Tok F} (frame : List F) (wc ab : F) {m : Mem F} {h : Mid.Half F}
    (r : Rel e bd (a :: ps) (tok :: ts) m h) (nwc : D) :
    Sim bd (fun a => Fits a.2) (fun x y => x.1 = y.1 ∧ Rel e bd ps ts x.2 y.2)
      (emitTok e frame wc ab (nwc, m) a) (Mid.emitTok e frame wc ab (nwc, h) tok) := by
  unfold emitTok Mid.emitTok
  have hc : m.pool.cells a = some tok := by
    have := r.prevs
    cases this with
    | cons h0 _ => exact h0
  rw [tok_of hc, ok_bind]
  split
  · exact Sim.ok ⟨rfl, rel_drop r⟩
  · refine (Sim.foldlM (bd := bd) (Bd := fun a : D × Mid.Half F => Fits a.2)
      (R := fun x y => x.1 = y.1 ∧ Rel e bd (a :: ps) (tok :: ts) x.2 y.2)
      ?_ (e.g.arcs tok.state.1) ?_ (nwc, m) (nwc, h) ⟨rfl, r⟩).bind ?_ ?_
    · intro a x a' hx hB
      exact Nat.le_trans (emitArc_mono hx) hB
    · rintro ⟨n1, m1⟩ ⟨n2, h1⟩ arc harc ⟨f1, f2⟩
      simp only at f1 f2
      subst f1
      exact emitArc_sim hlab frame ab f2 n1 arc (fun hbd => (f2.small hbd).arcs _ _ harc)
    · rintro ⟨n1, m1⟩ ⟨n2, h1⟩ ⟨f1, f2⟩
      simp only at f1 f2
      subst f1
      obtain ⟨p, p1, p2⟩ := rel_free f2
      simp only
      rw [p1, ok_bind]
      exact Sim.ok ⟨rfl, p2⟩
    · rintro ⟨n1, h1⟩ c hc hB
      cases hc
      exact hB

theorem emitToks_sim {e : Env F D} (hlab : LmLabels e) {bd : Prop} (frame : List F) (wc ab : F) :
    ∀ (ps : List Addr) (ts : List (Tok F)) {m : Mem F} {h : Mid.Half F}, Rel e bd ps ts m h → ∀ nwc : D,
    Sim bd (fun a => Fits a.2) (fun x y => x.1 = y.1 ∧ Rel e bd [] [] x.2 y.2)
      (ps.foldlM (emitTok e frame wc ab) (nwc, m)) (ts.foldlM (Mid.emitTok e frame wc ab) (nwc, h))
  | [], [], m, h, r, nwc => Sim.ok ⟨rfl, r⟩
  | [], _ :: _, m, h, r, nwc => by have := r.prevs; cases this
  | _ :: _, [], m, h, r, nwc => by have := r.prevs; cases this
  | a :: ps, t :: ts, m, h, r, nwc => by
    rw [List.foldlM_cons, List.foldlM_cons]
    refine (emitTok_sim hlab frame wc ab r nwc).bind ?_ ?_
    · rintro ⟨n1, m1⟩ ⟨n2, h1⟩ ⟨f1, f2⟩
      simp only at f1 f2
      subst f1
      exact emitToks_sim hlab frame wc ab ps ts f2 n1
    · rintro ⟨n1, h1⟩ c hc hB
      exact Nat.le_trans (foldlM_mono (P := fun a : D × Mid.Half F => a.2.idx.length) _
        (fun a x a' _ hx => emitTok_mono hx) _ _ hc) hB

end Verif.Mdec
