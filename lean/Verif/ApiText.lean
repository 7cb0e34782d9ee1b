import Verif.ApiAlone
import Verif.MainProps

/-!
# The calls about an utterance, and recognition of one stream
-/

namespace Verif.Api

open Verif Verif.Text Verif.Api.Spec

variable {G F D : Type} {mach : Main.Machine G F D} {w : App.World G}

/-- Calls about an utterance, one after the other. -/
def useAll (r : Stt.Rec F D) : Stt.Utt F → List (Call F) → Exec (Stt.Utt F)
  | u, [] => .ok u
  | u, c :: cs => useUtt r u c >>= fun q => useAll r q.2.1 cs

theorem useAll_append (r : Stt.Rec F D) (u : Stt.Utt F) (cs ds : List (Call F)) :
    useAll r u (cs ++ ds) = useAll r u cs >>= fun u' => useAll r u' ds := by
  induction cs generalizing u with
  | nil => rfl
  | cons c cs ih =>
    show (useUtt r u c >>= fun q => useAll r q.2.1 (cs ++ ds)) = (useUtt r u c >>= fun q => useAll r q.2.1 cs) >>= _
    cases useUtt r u c with
    | error _ => rfl
    | ok q => exact ih _

theorem useAll_for (r : Stt.Rec F D) (u : Stt.Utt F) {a : Nat} (b : Nat) {cs : List (Call F)}
    (h : ∀ c ∈ cs, About a c = true) : useAll r u (cs.map (for' b)) = useAll r u cs := by
  induction cs generalizing u with
  | nil => rfl
  | cons c cs ih =>
    rw [List.map_cons]
    unfold useAll
    rw [useUtt_for r u (h c List.mem_cons_self)]
    cases useUtt r u c with
    | error _ => rfl
    | ok q => exact ih _ (fun c hc => h c (List.mem_cons_of_mem _ hc))

/-- Looking changes nothing. -/
theorem useAll_looks (r : Stt.Rec F D) {u u' : Stt.Utt F} {cs : List (Call F)} (h : useAll r u cs = .ok u') :
    useAll r u (cs.filter notLook) = .ok u' := by
  induction cs generalizing u with
  | nil => exact h
  | cons c cs ih =>
    unfold useAll at h
    obtain ⟨q, h1, h⟩ := bind_ok h
    have key : ∀ c' : Call F, useUtt r u c' = .ok q → useAll r u (c' :: cs.filter notLook) = .ok u' := by
      intro c' h'
      unfold useAll
      rw [h']
      exact ih h
    cases c with
    | look a =>
      rw [useUtt_look] at h1
      obtain ⟨hyp, _, h1⟩ := bind_ok h1
      cases h1
      exact ih h
    | process _ _ _ _ => exact key _ h1
    | endOfStream _ _ => exact key _ h1
    | sttInit _ => cases h1
    | sttDestroy _ => cases h1
    | uttInit _ _ => cases h1
    | uttDestroy _ => cases h1
    | readHeader _ => cases h1
    | lastError => cases h1

theorem load_effect {s s' : Session G F} {name : Str} {a : Nat}
    (hs : step mach w s (.sttInit name) = .ok (.ptr (some a), s')) :
    ∃ self h, App.init w name s.heap = .ok (some (a, self), h, none) ∧
      s' = { s with heap := h, stts := s.stts.put a self } := by
  generalize hret : (Ret.ptr (some a) : Ret F) = ret at hs
  generalize hcall : (Call.sttInit name : Call F) = c at hs
  cases step_effect hs with
  | load hi =>
    cases hcall
    cases hret
    exact ⟨_, _, hi, rfl⟩
  | noLoad hi => cases hret
  | make hg hr hin hmk => cases hcall
  | noMake hm => cases hret
  | unload hg hi => cases hcall
  | unmake hg hi => cases hcall
  | use hab hq hne hg => exact absurd hret.symm (hne _)
  | see hq hne => exact absurd hret.symm (hne _)

theorem make_effect {s s' : Session G F} {p a : Nat} {f : Pcm.Format}
    (hs : step mach w s (.uttInit (some p) f) = .ok (.ptr (some a), s')) :
    ∃ self r u m h, s.stts.get p = some self ∧ mach.recogniser self = some r ∧
      Stt.initApi (some r) f s.msg = .ok (.ready r u, s.msg) ∧ a = m.utt ∧
      s' = { s with heap := h, utts := s.utts.put m.utt ⟨m, p, u⟩ } := by
  generalize hret : (Ret.ptr (some a) : Ret F) = ret at hs
  generalize hcall : (Call.uttInit (some p) f : Call F) = c at hs
  cases step_effect hs with
  | make hg hr hin hmk =>
    cases hcall
    cases hret
    exact ⟨_, _, _, _, _, hg, hr, hin, rfl, rfl⟩
  | load hi => cases hcall
  | noLoad hi => cases hcall
  | noMake hm => cases hret
  | unload hg hi => cases hcall
  | unmake hg hi => cases hcall
  | use hab hq hne hg => exact absurd hret.symm (hne _)
  | see hq hne => exact absurd hret.symm (hne _)

/-- A session with one utterance. -/
theorem solo_use {name : Str} {f : Pcm.Format} {b : Nat} (l : List (Call F × Ret F)) (hl : ∀ q ∈ l, About b q.1 = true)
    {t : Session G F}
    (h : Ran mach w ([(.sttInit name, .ptr (some 0)), (.uttInit (some 0) f, .ptr (some b))] ++ l) t) :
    ∃ self r m u0 u h1 c, App.init w name ⟨0, []⟩ = .ok (some (0, self), h1, c) ∧ mach.recogniser self = some r ∧
      Stt.initApi (some r) f .none = .ok (.ready r u0, .none) ∧ t.stts.get 0 = some self ∧
      t.utts.get b = some ⟨m, 0, u⟩ ∧ useAll r u0 (l.map Prod.fst) = .ok u := by
  generalize e : [((.sttInit name, .ptr (some 0)) : Call F × Ret F), (.uttInit (some 0) f, .ptr (some b))] ++ l = tr at h
  induction h generalizing l with
  | nil => cases e
  | @snoc tr s c x s' hr hs ih =>
    rcases List.eq_nil_or_concat l with rfl | ⟨l, q, rfl⟩
    · rw [List.append_nil] at e
      have e : [((.sttInit name, .ptr (some 0)) : Call F × Ret F)] ++ [(.uttInit (some 0) f, .ptr (some b))] =
        tr ++ [(c, x)] := e
      obtain ⟨e1, e2⟩ := List.append_inj' e rfl
      cases e2
      subst e1
      obtain ⟨s0, r0, h0⟩ := ran_snoc (tr := []) (q := (.sttInit name, .ptr (some 0))) hr
      cases ran_det r0 .nil rfl |>.2
      obtain ⟨self0, h1, i1, rfl⟩ := load_effect h0
      obtain ⟨self, r, u, m, h2, j1, j2, j3, rfl, rfl⟩ := make_effect hs
      have j0 := j1
      replace j1 : Store.get (Store.put ([] : Store (App.Self G)) 0 self0) 0 = some self := j1
      rw [get_put, if_pos rfl] at j1
      cases j1
      refine ⟨self0, r, m, u, u, h1, none, i1, j2, j3, j0, ?_, rfl⟩
      show Store.get (Store.put _ m.utt _) m.utt = _
      rw [get_put, if_pos rfl]
    · rw [List.concat_eq_append, ← List.append_assoc] at e
      obtain ⟨e1, e2⟩ := List.append_inj' e rfl
      cases e2
      obtain ⟨self, r, m, u0, u, h1, c0, k1, k2, k3, k4, k5, k6⟩ :=
        ih l (fun q hq => hl q (by simp [hq])) e1
      have hc : About b c = true := hl (c, x) (by simp)
      obtain ⟨g, g1, g2⟩ := step_use (mach := mach) w hc k5 k4 k2
      rw [hs] at g1
      cases hq : useUtt r u c with
      | error _ => rw [hq] at g1; cases g1
      | ok q =>
        rw [hq] at g1
        obtain ⟨z1, z2, z3⟩ := g2 q hq
        replace g1 : Except.ok (x, s') = Except.ok (q.1, g q) := g1
        injection g1 with g1
        injection g1 with _ g1
        subst g1
        refine ⟨self, r, m, u0, q.2.1, h1, c0, k1, k2, k3, z2 ▸ k4, z3, ?_⟩
        rw [List.concat_eq_append, List.map_append, useAll_append, k6, ok_bind]
        show (useUtt r u c >>= _) = _
        rw [hq]
        rfl

/-- The content of an utterance in any session. -/
theorem ran_use {tr : List (Call F × Ret F)} {s : Session G F} (h : Ran mach w tr s) {p a : Nat} {f : Pcm.Format}
    (hm : (Call.uttInit (some p) f, Ret.ptr (some a)) ∈ tr) :
    ∃ name self r u0 u h1 c, (Call.sttInit name, Ret.ptr (some p)) ∈ tr ∧
      App.init w name ⟨0, []⟩ = .ok (some (0, self), h1, c) ∧ mach.recogniser self = some r ∧
      Stt.initApi (some r) f .none = .ok (.ready r u0, .none) ∧
      useAll r u0 ((tr.filter fun q => About a q.1).map Prod.fst) = .ok u ∧
      ∀ x, s.utts.get a = some x → x.data = u := by
  obtain ⟨name, b, t, h1, h2, hl, r, self, m, u, e1, e2, e3, e4, e5⟩ := ran_alone h hm
  have hab : ∀ q ∈ (tr.filter fun q => About a q.1), About a q.1 = true := fun q hq => (List.mem_filter.mp hq).2
  obtain ⟨self', r', m', u0, u', i1, c, k1, k2, k3, k4, k5, k6⟩ :=
    solo_use ((tr.filter fun p => About a p.1).map fun p => (for' b p.1, p.2)) (by
      intro q hq
      obtain ⟨q', hq', rfl⟩ := List.mem_map.mp hq
      exact about_for a b (hab q' hq')) h2
  rw [k4] at e1
  cases e1
  rw [k2] at e2
  cases e2
  rw [k5] at e3
  cases e3
  refine ⟨name, self, r, u0, u, i1, c, h1, k1, k2, k3, ?_, fun x hx => (e4 x hx).2⟩
  rw [List.map_map] at k6
  have := useAll_for r u0 b (a := a) (cs := (tr.filter fun q => About a q.1).map Prod.fst) (by
    intro c hc
    obtain ⟨q', hq', rfl⟩ := List.mem_map.mp hc
    exact hab q' hq')
  rw [← this, List.map_map]
  exact k6

/-- A stream fed in pieces. -/
theorem useAll_feed {a : Nat} (r : Stt.Rec F D) {u u' : Stt.Utt F} {ds : List (Stt.Mem F × List UInt8)} (msg : Stt.Msg)
    (h : useAll r u (ds.map fun d => .process (some a) d.1 (some d.2) d.2.length) = .ok u') :
    ∃ msg', Stt.feedApi ds (.ready r u) msg = .ok (.ready r u', msg') := by
  induction ds generalizing u msg with
  | nil => cases h; exact ⟨msg, rfl⟩
  | cons d ds ih =>
    rw [List.map_cons] at h
    unfold useAll at h
    obtain ⟨q, h1, h⟩ := bind_ok h
    obtain ⟨mem, c⟩ := d
    unfold Stt.feedApi
    rw [processApi_ready]
    rw [useUtt_process] at h1
    simp only at h1
    cases hp : u.reader.process r.conv (some c) c.length with
    | error e =>
      rw [hp] at h1
      cases e with
      | fault f => cases h1
      | status e =>
        cases h1
        exact ih (.status e) h
    | ok z =>
      obtain ⟨xs, reader⟩ := z
      rw [hp] at h1
      obtain ⟨u1, h2, h1⟩ := bind_ok h1
      cases h1
      simp only
      rw [h2]
      exact ih msg h

theorem useAll_recognise {a : Nat} {r : Stt.Rec F D} {f : Pcm.Format} {fill : Nat → UInt8} {u0 u : Stt.Utt F}
    {ds : List (Stt.Mem F × List UInt8)} (h0 : Stt.initApi (some r) f .none = .ok (.ready r u0, .none))
    (h : useAll r u0 ((ds.map fun d => .process (some a) d.1 (some d.2) d.2.length) ++ [.endOfStream (some a) fill]) =
      .ok u) : ∃ msg, Stt.recognise r f fill ds = .ok (.ready r u, msg) := by
  rw [useAll_append] at h
  obtain ⟨u1, h1, h⟩ := bind_ok h
  obtain ⟨msg, h2⟩ := useAll_feed r .none h1
  unfold Stt.recognise
  rw [h0, ok_bind]
  simp only
  rw [h2, ok_bind]
  simp only
  rw [Stt.end_ready]
  unfold useAll at h
  rw [useUtt_end] at h
  obtain ⟨q, h3, h⟩ := bind_ok h
  obtain ⟨u2, h4, h3⟩ := bind_ok h3
  cases h3
  cases h
  rw [h4]
  exact ⟨msg, rfl⟩

/-- Empty pieces are refused and change nothing. -/
theorem useAll_full {a : Nat} (r : Stt.Rec F D) (u : Stt.Utt F) (ds : List (Stt.Mem F × List UInt8)) :
    useAll r u (ds.map fun d => .process (some a) d.1 (some d.2) d.2.length) =
      useAll r u ((ds.filter fun d => !d.2.isEmpty).map fun d => .process (some a) d.1 (some d.2) d.2.length) := by
  induction ds generalizing u with
  | nil => rfl
  | cons d ds ih =>
    obtain ⟨mem, c⟩ := d
    cases c with
    | nil =>
      rw [List.filter_cons_of_neg (by simp), List.map_cons]
      rw [← ih u]
      rfl
    | cons x c =>
      rw [List.filter_cons_of_pos (by simp), List.map_cons, List.map_cons]
      unfold useAll
      cases useUtt r u (.process (some a) mem (some (x :: c)) (x :: c).length) with
      | error _ => rfl
      | ok q => exact ih _

theorem full_flatten (ds : List (Stt.Mem F × List UInt8)) :
    ((ds.filter fun d => !d.2.isEmpty).map Prod.snd).flatten = (ds.map Prod.snd).flatten := by
  induction ds with
  | nil => rfl
  | cons d ds ih =>
    obtain ⟨mem, c⟩ := d
    cases c with
    | nil =>
      rw [List.filter_cons_of_neg (by simp), List.map_cons, List.flatten_cons, ih]
      rfl
    | cons x c =>
      rw [List.filter_cons_of_pos (by simp), List.map_cons, List.map_cons, List.flatten_cons, List.flatten_cons, ih]

/-- Calls that have no fault can be made. -/
theorem run_use {s : Session G F} {a : Nat} {x : Utt F} {self : App.Self G} {r : Stt.Rec F D} {cs : List (Call F)}
    {u : Stt.Utt F} (hc : ∀ c ∈ cs, About a c = true) (hx : s.utts.get a = some x) (hs : s.stts.get x.stt = some self)
    (hr : mach.recogniser self = some r) (h : useAll r x.data cs = .ok u) :
    ∃ xs s', xs.length = cs.length ∧ run mach w s cs = .ok (xs, s') ∧ s'.utts.get a = some { x with data := u } := by
  induction cs generalizing s x with
  | nil =>
    cases h
    exact ⟨[], s, rfl, rfl, hx⟩
  | cons c cs ih =>
    unfold useAll at h
    obtain ⟨q, h1, h⟩ := bind_ok h
    obtain ⟨g, g1, g2⟩ := step_use (mach := mach) w (hc c List.mem_cons_self) hx hs hr
    rw [h1] at g1
    obtain ⟨z1, z2, z3⟩ := g2 q h1
    obtain ⟨xs, s', k0, k1, k2⟩ := ih (s := g q) (x := { x with data := q.2.1 })
      (fun c hc' => hc c (List.mem_cons_of_mem _ hc')) z3 (by rw [z2]; exact hs) h
    refine ⟨q.1 :: xs, s', by simp [k0], ?_, k2⟩
    unfold run
    rw [g1]
    show (run mach w (g q) cs >>= _) = _
    rw [k1]
    rfl

theorem init_cases {r : Stt.Rec F D} {f : Pcm.Format} {msg msg' : Stt.Msg} {hd : Stt.Handle F D}
    (h : Stt.initApi (some r) f msg = .ok (hd, msg')) : (∃ u, hd = .ready r u) ∨ hd = .null := by
  unfold Stt.initApi at h
  simp only at h
  obtain ⟨d, _, h⟩ := bind_ok h
  split at h
  · cases h
  · cases h; exact .inr rfl
  · cases h; exact .inl ⟨_, rfl⟩

/-- The other way round. -/
theorem feed_useAll (a : Nat) {r : Stt.Rec F D} {u : Stt.Utt F} {ds : List (Stt.Mem F × List UInt8)} {msg msg' : Stt.Msg}
    {hd : Stt.Handle F D} (h : Stt.feedApi ds (.ready r u) msg = .ok (hd, msg')) :
    ∃ u', hd = .ready r u' ∧
      useAll r u (ds.map fun d => .process (some a) d.1 (some d.2) d.2.length) = .ok u' := by
  induction ds generalizing u msg with
  | nil => cases h; exact ⟨u, rfl, rfl⟩
  | cons d ds ih =>
    obtain ⟨mem, c⟩ := d
    rw [List.map_cons]
    unfold useAll
    rw [useUtt_process]
    unfold Stt.feedApi at h
    rw [processApi_ready] at h
    simp only
    cases hp : u.reader.process r.conv (some c) c.length with
    | error e =>
      rw [hp] at h
      cases e with
      | fault f => cases h
      | status e => exact ih h
    | ok z =>
      obtain ⟨xs, reader⟩ := z
      rw [hp] at h
      obtain ⟨q, h1, h⟩ := bind_ok h
      obtain ⟨u1, h2, h1⟩ := bind_ok h1
      cases h1
      simp only
      rw [h2]
      exact ih h

theorem recognise_useAll (a : Nat) {r : Stt.Rec F D} {f : Pcm.Format} {fill : Nat → UInt8} {u : Stt.Utt F}
    {ds : List (Stt.Mem F × List UInt8)} {msg : Stt.Msg} (h : Stt.recognise r f fill ds = .ok (.ready r u, msg)) :
    ∃ u0, Stt.initApi (some r) f .none = .ok (.ready r u0, .none) ∧
      useAll r u0 ((ds.map fun d => .process (some a) d.1 (some d.2) d.2.length) ++ [.endOfStream (some a) fill]) =
        .ok u := by
  unfold Stt.recognise at h
  obtain ⟨⟨hd, msg0⟩, e0, h⟩ := bind_ok h
  obtain ⟨⟨hd1, msg1⟩, e1, h⟩ := bind_ok h
  simp only at e1 h
  rcases init_cases e0 with ⟨u0, rfl⟩ | rfl
  · obtain ⟨_, rfl, _⟩ := initApi_ready e0
    obtain ⟨u1, rfl, k⟩ := feed_useAll a e1
    refine ⟨u0, e0, ?_⟩
    rw [useAll_append, k, ok_bind]
    unfold useAll
    rw [useUtt_end]
    rw [Stt.end_ready] at h
    obtain ⟨u2, h2, h⟩ := bind_ok h
    cases h
    rw [h2]
    rfl
  · exfalso
    cases ds with
    | nil => cases e1; cases h
    | cons d ds =>
      rw [Stt.feed_null _ (by simp)] at e1
      cases e1
      cases h

end Verif.Api
