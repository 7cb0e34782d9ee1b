import Verif.ApiSpec
import Verif.InitProps
import Verif.SttProps

/-!
# Facts about programs that use the C interface
-/

namespace Verif.Api

open Verif Verif.Text Verif.Api.Spec

variable {G F D : Type}

/-! ## Stores -/

section store

variable {α : Type}

theorem get_nil (a : Nat) : Store.get ([] : Store α) a = none := rfl

theorem get_cons (p : Nat × α) (l : Store α) (a : Nat) :
    Store.get (p :: l) a = if p.1 = a then some p.2 else Store.get l a := by
  unfold Store.get
  rw [List.find?_cons]
  by_cases h : p.1 = a
  · rw [if_pos h, show (p.1 == a) = true by simp [h]]; rfl
  · rw [if_neg h, show (p.1 == a) = false by simp [h]]

theorem get_del (l : Store α) (a b : Nat) : (l.del a).get b = if b = a then none else l.get b := by
  induction l with
  | nil => simp [Store.del, get_nil]
  | cons p l ih =>
    by_cases h : p.1 = a
    · have : Store.del (p :: l) a = Store.del l a := by
        unfold Store.del; rw [List.filter_cons]; simp [h]
      rw [this, ih]
      by_cases hb : b = a
      · rw [if_pos hb, if_pos hb]
      · rw [if_neg hb, if_neg hb, get_cons, if_neg (by rw [h]; exact fun e => hb e.symm)]
    · have : Store.del (p :: l) a = p :: Store.del l a := by
        unfold Store.del; rw [List.filter_cons]; simp [h]
      rw [this, get_cons, ih, get_cons]
      by_cases hb : b = a
      · rw [if_pos hb, if_pos hb, if_neg (by rw [hb]; exact h)]
      · rw [if_neg hb, if_neg hb]

theorem get_put (l : Store α) (a b : Nat) (x : α) : (l.put a x).get b = if b = a then some x else l.get b := by
  unfold Store.put
  rw [get_cons, get_del]
  by_cases h : b = a
  · rw [if_pos h.symm, if_pos h]
  · rw [if_neg (fun e => h e.symm), if_neg h, if_neg h]

theorem get_mem {l : Store α} {a : Nat} {x : α} (h : l.get a = some x) : (a, x) ∈ l := by
  induction l with
  | nil => cases h
  | cons p l ih =>
    rw [get_cons] at h
    by_cases hp : p.1 = a
    · rw [if_pos hp] at h
      cases h
      rw [← hp]
      exact List.mem_cons_self
    · rw [if_neg hp] at h
      exact List.mem_cons_of_mem _ (ih h)

theorem del_absent {l : Store α} {a : Nat} (h : a ∉ l.map Prod.fst) : l.del a = l := by
  unfold Store.del
  rw [List.filter_eq_self]
  intro p hp
  have : p.1 ≠ a := fun e => h (e ▸ List.mem_map_of_mem hp)
  simp [this]

/-- Taking one object out of a store with different addresses. -/
theorem del_perm {l : Store α} {a : Nat} {x : α} (hn : (l.map Prod.fst).Nodup) (h : l.get a = some x) :
    l.Perm ((a, x) :: l.del a) := by
  induction l with
  | nil => cases h
  | cons p l ih =>
    rw [List.map_cons, List.nodup_cons] at hn
    rw [get_cons] at h
    by_cases hp : p.1 = a
    · rw [if_pos hp] at h
      cases h
      have h1 : Store.del (p :: l) a = Store.del l a := by
        unfold Store.del; rw [List.filter_cons]; simp [hp]
      rw [h1, del_absent (by rw [← hp]; exact hn.1), ← hp]
    · rw [if_neg hp] at h
      have h1 : Store.del (p :: l) a = p :: Store.del l a := by
        unfold Store.del; rw [List.filter_cons]; simp [hp]
      rw [h1]
      exact ((ih hn.2 h).cons p).trans (List.Perm.swap ..)

theorem del_keys (l : Store α) (a : Nat) : ((l.del a).map Prod.fst) = (l.map Prod.fst).filter (· != a) := by
  unfold Store.del
  induction l with
  | nil => rfl
  | cons p l ih =>
    rw [List.filter_cons, List.map_cons, List.filter_cons]
    by_cases h : (p.1 != a) = true
    · rw [if_pos h, if_pos h, List.map_cons, ih]
    · rw [if_neg h, if_neg h, ih]

theorem del_nodup {l : Store α} (a : Nat) (hn : (l.map Prod.fst).Nodup) : ((l.del a).map Prod.fst).Nodup := by
  rw [del_keys]
  exact hn.filter _

theorem put_nodup {l : Store α} (a : Nat) (x : α) (hn : (l.map Prod.fst).Nodup) : ((l.put a x).map Prod.fst).Nodup := by
  unfold Store.put
  rw [List.map_cons, List.nodup_cons]
  refine ⟨?_, del_nodup a hn⟩
  rw [del_keys, List.mem_filter]
  simp

theorem mem_put {l : Store α} {a : Nat} {x : α} {p : Nat × α} (h : p ∈ l.put a x) :
    p = (a, x) ∨ (p ∈ l ∧ p.1 ≠ a) := by
  unfold Store.put at h
  rcases List.mem_cons.mp h with h | h
  · exact .inl h
  · unfold Store.del at h
    rw [List.mem_filter] at h
    exact .inr ⟨h.1, by simpa using h.2⟩

theorem mem_del {l : Store α} {a : Nat} {p : Nat × α} (h : p ∈ l.del a) : p ∈ l ∧ p.1 ≠ a := by
  unfold Store.del at h
  rw [List.mem_filter] at h
  exact ⟨h.1, by simpa using h.2⟩

theorem mem_get {l : Store α} (hn : (l.map Prod.fst).Nodup) {p : Nat × α} (h : p ∈ l) : l.get p.1 = some p.2 := by
  induction l with
  | nil => cases h
  | cons q l ih =>
    rw [List.map_cons, List.nodup_cons] at hn
    rw [get_cons]
    rcases List.mem_cons.mp h with rfl | h
    · rw [if_pos rfl]
    · rw [if_neg (fun e : q.1 = p.1 => hn.1 (e ▸ List.mem_map_of_mem h))]
      exact ih hn.2 h

end store

/-! ## Loading does not depend on the heap -/

/-- A recogniser with all addresses set to zero. -/
def forget (s : App.Self G) : App.Self G :=
  ⟨s.fst.map fun p => (0, p.2), s.large.map fun p => (0, p.2), s.delta.map fun p => (0, p.2),
    s.original.map fun p => (0, p.2), s.am.map fun p => (0, p.2), s.fbank.map fun p => (0, p.2),
    s.symbols.map fun p => (0, p.2)⟩

theorem lmOf_forget (mach : Main.Machine G F D) (s : App.Self G) : mach.lmOf (forget s) = mach.lmOf s := by
  obtain ⟨_, large, delta, original, _, _, _⟩ := s
  unfold Main.Machine.lmOf forget
  rcases delta with _ | ⟨_, _⟩ <;> rcases original with _ | ⟨_, _ | _⟩ <;> rcases large with _ | ⟨_, _ | _⟩ <;> rfl

theorem recogniser_forget (mach : Main.Machine G F D) (s : App.Self G) :
    mach.recogniser (forget s) = mach.recogniser s := by
  unfold Main.Machine.recogniser
  rw [lmOf_forget]
  generalize mach.lmOf s = lm
  obtain ⟨fst, _, _, _, am, fbank, symbols⟩ := s
  unfold forget
  rcases fst with _ | ⟨_, _⟩ <;> rcases am with _ | ⟨_, _ | _⟩ <;> rcases symbols with _ | ⟨_, _ | _⟩ <;>
    rcases fbank with _ | ⟨_, _⟩ <;> rcases lm with _ | _ <;> rfl

/-- The same status and the same objects, or the same fault. -/
def Alike (x y : Exec (App.Stage G)) : Prop :=
  (∃ f, x = .error f ∧ y = .error f) ∨
    ∃ c h s h' s', x = .ok (c, h, s) ∧ y = .ok (c, h', s') ∧ forget s = forget s'

theorem alike_ok {c : Option Code} {h h' : App.Heap} {s s' : App.Self G} (hs : forget s = forget s') :
    Alike (.ok (c, h, s)) (.ok (c, h', s')) := .inr ⟨c, h, s, h', s', rfl, rfl, hs⟩

theorem alike_error {f : Fault} : Alike (.error f : Exec (App.Stage G)) (.error f) := .inl ⟨f, rfl, rfl⟩

theorem alike_andThen {x y : Exec (App.Stage G)} {next next' : App.Heap → App.Self G → Exec (App.Stage G)}
    (hx : Alike x y) (hn : ∀ h s h' s', forget s = forget s' → Alike (next h s) (next' h' s')) :
    Alike (App.andThen x next) (App.andThen y next') := by
  rcases hx with ⟨f, rfl, rfl⟩ | ⟨c, h, s, h', s', rfl, rfl, hs⟩
  · exact alike_error
  · cases c with
    | some c => exact alike_ok hs
    | none => exact hn h s h' s' hs

theorem alike_settle {α : Type} (r : Io α) {h h' : App.Heap} {s s' : App.Self G} {f f' : α → App.Self G}
    (hs : forget s = forget s') (hf : ∀ x, forget (f x) = forget (f' x)) :
    Alike (App.settle r h s f) (App.settle r h' s' f') := by
  unfold App.settle
  split
  · exact alike_error
  · exact alike_ok hs
  · exact alike_ok (hf _)

theorem alike_bind {α : Type} (e : Exec α) {f g : α → Exec (App.Stage G)} (h : ∀ x, Alike (f x) (g x)) :
    Alike (e >>= f) (e >>= g) := by
  cases e with
  | error f => exact alike_error
  | ok x => exact h x

/-- Equal up to addresses, member by member. -/
theorem forget_ext {s t : App.Self G} (h : forget s = forget t) :
    (s.fst.map fun p => (0, p.2)) = (t.fst.map fun p => (0, p.2)) ∧
    (s.large.map fun p => (0, p.2)) = (t.large.map fun p => (0, p.2)) ∧
    (s.delta.map fun p => (0, p.2)) = (t.delta.map fun p => (0, p.2)) ∧
    (s.original.map fun p => (0, p.2)) = (t.original.map fun p => (0, p.2)) ∧
    (s.am.map fun p => (0, p.2)) = (t.am.map fun p => (0, p.2)) ∧
    (s.fbank.map fun p => (0, p.2)) = (t.fbank.map fun p => (0, p.2)) ∧
    (s.symbols.map fun p => (0, p.2)) = (t.symbols.map fun p => (0, p.2)) := by
  unfold forget at h
  injection h with h1 h2 h3 h4 h5 h6 h7
  exact ⟨h1, h2, h3, h4, h5, h6, h7⟩

theorem alike_loadAll (w : App.World G) (conf : Config) (h h' : App.Heap) :
    Alike (App.loadAll w conf h) (App.loadAll w conf h') := by
  unfold App.loadAll
  refine alike_andThen (alike_andThen (alike_andThen (alike_andThen ?_ ?_) ?_) ?_) ?_
  · unfold App.readHclg
    refine alike_bind _ fun name => ?_
    split
    · exact alike_ok rfl
    · split
      · exact alike_ok rfl
      · exact alike_ok rfl
  · intro h s h' s' hs
    obtain ⟨h1, h2, h3, h4, h5, h6, h7⟩ := forget_ext hs
    unfold App.readAm
    refine alike_settle _ ?_ fun x => ?_ <;> (unfold forget; simp only; rw [h1, h2, h3, h4, h6, h7]; rfl)
  · intro h s h' s' hs
    obtain ⟨h1, h2, h3, h4, h5, h6, h7⟩ := forget_ext hs
    unfold App.readSyms
    refine alike_bind _ fun name => ?_
    split
    · exact alike_ok hs
    · refine alike_settle _ ?_ fun x => ?_ <;> (unfold forget; simp only; rw [h1, h2, h3, h4, h5, h6]; rfl)
  · intro h s h' s' hs
    unfold App.readDelta
    refine alike_bind _ fun large => ?_
    split
    · exact alike_ok hs
    refine alike_bind _ fun orig => ?_
    split
    · exact alike_ok hs
    refine alike_andThen (alike_andThen ?_ ?_) ?_
    · obtain ⟨h1, h2, h3, h4, h5, h6, h7⟩ := forget_ext hs
      unfold App.readOriginal
      split
      · exact alike_ok hs
      · refine alike_settle _ ?_ fun x => ?_ <;> (unfold forget; simp only; rw [h1, h2, h3, h5, h6, h7]; rfl)
    · intro h s h' s' hs
      obtain ⟨h1, h2, h3, h4, h5, h6, h7⟩ := forget_ext hs
      unfold App.readLarge
      split
      · exact alike_ok hs
      · refine alike_settle _ ?_ fun x => ?_ <;> (unfold forget; simp only; rw [h1, h3, h4, h5, h6, h7]; rfl)
    · intro h s h' s' hs
      obtain ⟨h1, h2, h3, h4, h5, h6, h7⟩ := forget_ext hs
      unfold App.newDelta
      revert h7
      rcases hs1 : s.symbols with _ | ⟨a, _ | t⟩ <;> rcases hs2 : s'.symbols with _ | ⟨b, _ | t'⟩ <;> intro h7
      · exact alike_error
      · cases h7
      · cases h7
      · cases h7
      · exact alike_error
      · cases h7
      · cases h7
      · cases h7
      · have ht : t = t' := by
          simp only [Option.map_some, Option.some.injEq, Prod.mk.injEq, true_and] at h7
          exact h7
        subst ht
        refine alike_ok ?_
        unfold forget
        simp only
        rw [h1, h2, h4, h5, h6]
        rfl
  · intro h s h' s' hs
    obtain ⟨h1, h2, h3, h4, h5, h6, h7⟩ := forget_ext hs
    unfold App.newFbank
    refine alike_ok ?_
    unfold forget
    simp only
    rw [h1, h2, h3, h4, h5, h7]
    rfl

/-- A recogniser that can be loaded can be loaded at any time, with the same content. -/
theorem init_alike {w : App.World G} {name : Str} {h h1 : App.Heap} {a : Nat} {s : App.Self G} {c : Option Code}
    (hx : App.init w name h = .ok (some (a, s), h1, c)) (h' : App.Heap) :
    ∃ t h2, App.init w name h' = .ok (some (h'.next, t), h2, none) ∧ forget s = forget t := by
  unfold App.init at hx ⊢
  simp only at hx ⊢
  split at hx
  · cases hx
  · unfold App.initFailed at hx
    obtain ⟨_, _, hx⟩ := bind_ok hx
    cases hx
  · next conf hc =>
    obtain ⟨⟨c1, h3, s1⟩, e1, hx⟩ := bind_ok hx
    cases c1 with
    | some c1 =>
      unfold App.initFailed at hx
      obtain ⟨_, _, hx⟩ := bind_ok hx
      cases hx
    | none =>
      cases hx
      rcases alike_loadAll w conf h.new.2 h'.new.2 with ⟨f, e2, _⟩ | ⟨c, h4, s2, h5, s3, e2, e3, hs⟩
      · rw [e1] at e2; cases e2
      · rw [e1] at e2
        cases e2
        rw [e3, ok_bind]
        exact ⟨s3, h5, rfl, hs⟩

/-! ## The calls -/

/-- Neither makes nor destroys anything. -/
def Quiet : Call F → Prop
  | .process _ _ _ _ => True
  | .endOfStream _ _ => True
  | .look _ => True
  | .readHeader _ => True
  | .lastError => True
  | _ => False

/-- What a call can do. -/
inductive Effect (mach : Main.Machine G F D) (w : App.World G) (s : Session G F) :
    Call F → Ret F → Session G F → Prop
  | load {name a self h} : App.init w name s.heap = .ok (some (a, self), h, none) →
      Effect mach w s (.sttInit name) (.ptr (some a)) { s with heap := h, stts := s.stts.put a self }
  | noLoad {name h c m} : App.init w name s.heap = .ok (none, h, c) →
      Effect mach w s (.sttInit name) (.ptr none) { s with heap := h, msg := m }
  | unload {p self h} : s.stts.get p = some self → App.destroy s.heap (some (p, self)) = .ok (h, .empty) →
      Effect mach w s (.sttDestroy (some p)) .done { s with heap := h, stts := s.stts.put p .empty }
  | make {p f self r u m h} : s.stts.get p = some self → mach.recogniser self = some r →
      Stt.initApi (some r) f s.msg = .ok (.ready r u, s.msg) → App.uttInit s.heap true = .ok (some m, h) →
      Effect mach w s (.uttInit (some p) f) (.ptr (some m.utt))
        { s with heap := h, utts := s.utts.put m.utt ⟨m, p, u⟩ }
  | noMake {p f h q m} : App.uttInit s.heap false = .ok (q, h) →
      Effect mach w s (.uttInit (some p) f) (.ptr none) { s with heap := h, msg := m }
  | unmake {a x h} : s.utts.get a = some x → App.uttDestroy s.heap x.mem = .ok h →
      Effect mach w s (.uttDestroy (some a)) .done { s with heap := h, utts := s.utts.del a }
  | use {c a x u ret m} : About a c = true → Quiet c → (∀ p, ret ≠ .ptr p) → s.utts.get a = some x →
      Effect mach w s c ret { s with utts := s.utts.put a { x with data := u }, msg := m }
  | see {c ret m} : Quiet c → (∀ p, ret ≠ .ptr p) → Effect mach w s c ret { s with msg := m }

theorem processApi_ready (mem : Stt.Mem F) (r : Stt.Rec F D) (u : Stt.Utt F) (msg : Stt.Msg)
    (data : Option (List UInt8)) (size : Int) :
    Stt.processApi mem (.ready r u) msg data size =
      match u.reader.process r.conv data size with
      | .error (.fault f) => .error f
      | .error (.status c) => .ok (-1, .ready r u, .status c)
      | .ok (xs, reader) => Stt.afterSamples r mem { u with reader := reader } xs >>= fun u' =>
        .ok (xs.length, .ready r u', msg) := rfl

theorem initApi_ready {r r' : Stt.Rec F D} {f : Pcm.Format} {msg msg' : Stt.Msg} {u : Stt.Utt F}
    (h : Stt.initApi (some r) f msg = .ok (.ready r' u, msg')) :
    r' = r ∧ msg' = msg ∧ ∀ m, Stt.initApi (some r) f m = .ok (.ready r u, m) := by
  unfold Stt.initApi at h ⊢
  simp only at h ⊢
  obtain ⟨d, hd, h⟩ := bind_ok h
  rw [hd]
  cases hs : Pcm.Reader.new.setFormat f with
  | error x =>
    rw [hs] at h
    cases x with
    | fault f => cases h
    | status c => cases h
  | ok reader =>
    rw [hs] at h
    cases h
    exact ⟨rfl, rfl, fun m => rfl⟩

theorem step_effect {mach : Main.Machine G F D} {w : App.World G} {s s' : Session G F} {c : Call F} {x : Ret F}
    (h : step mach w s c = .ok (x, s')) : Effect mach w s c x s' := by
  cases c with
  | sttInit name =>
    replace h : sttInit w s name = .ok (x, s') := h
    unfold sttInit at h
    obtain ⟨⟨p, heap, c⟩, hi, h⟩ := bind_ok h
    rcases App.init_after hi with ⟨rfl, ⟨e, rfl⟩, _⟩ | ⟨self, conf, rfl, rfl, _⟩
    · cases h; exact .noLoad hi
    · cases h; exact .load hi
  | sttDestroy p =>
    replace h : sttDestroy s p = .ok (x, s') := h
    unfold sttDestroy at h
    split at h
    · cases h
    · next a =>
      split at h
      · cases h
      · next self hs =>
        obtain ⟨⟨heap, e⟩, hd, h⟩ := bind_ok h
        have he : e = .empty := by
          unfold App.destroy at hd
          simp only at hd
          obtain ⟨_, _, hd⟩ := bind_ok hd
          obtain ⟨_, _, hd⟩ := bind_ok hd
          obtain ⟨_, _, hd⟩ := bind_ok hd
          obtain ⟨_, _, hd⟩ := bind_ok hd
          obtain ⟨_, _, hd⟩ := bind_ok hd
          obtain ⟨_, _, hd⟩ := bind_ok hd
          obtain ⟨_, _, hd⟩ := bind_ok hd
          cases hd
          rfl
        subst he
        cases h
        exact .unload hs hd
  | uttInit p f =>
    replace h : uttInit mach s p f = .ok (x, s') := h
    unfold uttInit at h
    split at h
    · cases h
    · next a =>
      split at h
      · cases h
      · next self hs =>
        obtain ⟨⟨hd, msg⟩, hi, h⟩ := bind_ok h
        cases hr : mach.recogniser self with
        | none => rw [hr] at hi; cases hi
        | some r =>
          rw [hr] at hi
          cases hd with
          | ready r' u =>
            obtain ⟨rfl, rfl, _⟩ := initApi_ready hi
            obtain ⟨⟨m, heap⟩, hm, h⟩ := bind_ok h
            cases m with
            | none => cases h
            | some m => cases h; exact .make hs hr hi hm
          | null =>
            obtain ⟨⟨m, heap⟩, hm, h⟩ := bind_ok h
            cases h; exact .noMake hm
          | noInternal _ _ =>
            obtain ⟨⟨m, heap⟩, hm, h⟩ := bind_ok h
            cases h; exact .noMake hm
          | noRecognizer _ =>
            obtain ⟨⟨m, heap⟩, hm, h⟩ := bind_ok h
            cases h; exact .noMake hm
  | uttDestroy u =>
    replace h : uttDestroy s u = .ok (x, s') := h
    unfold uttDestroy at h
    split at h
    · cases h
    · next a =>
      split at h
      · cases h
      · next y hy =>
        obtain ⟨heap, hd, h⟩ := bind_ok h
        cases h
        exact .unmake hy hd
  | process u mem data size =>
    replace h : process mach s u mem data size = .ok (x, s') := h
    unfold process at h
    split at h
    · cases h; exact .see trivial (fun p => (by intro e; cases e))
    · next a =>
      split at h
      · cases h
      · next y hy =>
        split at h
        · cases h
        · next self hs =>
          split at h
          · unfold processOrphan at h
            split at h
            · cases h
            · cases h; exact .see trivial (fun p => (by intro e; cases e))
            · split at h
              · cases h
                exact .use (a := a) (x := y) (m := s.msg) (beq_self_eq_true a) trivial (fun p => (by intro e; cases e)) hy
              · cases h
          · next r hr =>
            obtain ⟨⟨code, hd, msg⟩, hp, h⟩ := bind_ok h
            cases hd with
            | ready r' d =>
              cases h
              exact .use (a := a) (x := y) (beq_self_eq_true a) trivial (fun p => (by intro e; cases e)) hy
            | null => cases h
            | noInternal _ _ => cases h
            | noRecognizer _ => cases h
  | endOfStream u fill =>
    replace h : endOfStream mach s u fill = .ok (x, s') := h
    unfold endOfStream at h
    split at h
    · cases h
    · next a =>
      split at h
      · cases h
      · next y hy =>
        split at h
        · cases h
        · split at h
          · cases h
          · obtain ⟨⟨hd, msg⟩, hp, h⟩ := bind_ok h
            cases hd with
            | ready r' d =>
              cases h
              exact .use (a := a) (x := y) (beq_self_eq_true a) trivial (fun p => (by intro e; cases e)) hy
            | null => cases h
            | noInternal _ _ => cases h
            | noRecognizer _ => cases h
  | look u =>
    replace h : look s u = .ok (x, s') := h
    unfold look at h
    split at h
    · cases h
    · split at h
      · cases h
      · obtain ⟨hyp, _, h⟩ := bind_ok h
        cases h
        exact .see (m := s.msg) trivial (fun p => (by intro e; cases e))
  | readHeader file =>
    replace h : readHeader s file = .ok (x, s') := h
    unfold readHeader at h
    split at h
    · cases h
    · cases h
      exact .see trivial (fun p => (by intro e; cases e))
    · cases h
      exact .see (m := s.msg) trivial (fun p => (by intro e; cases e))
  | lastError =>
    cases h
    exact .see (m := s.msg) trivial (fun p => (by intro e; cases e))

end Verif.Api
