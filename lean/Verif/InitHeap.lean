import Verif.InitModel

/-!
# Lemmas about the blocks of a recogniser
-/

namespace Verif.App

open Verif Verif.Text

variable {G : Type}

/-- The blocks a structure points to, in the order of `ce_stt_destroy`. -/
def blocks (s : Self G) : List (Option Nat) :=
  [s.fst.addr, s.large.addr, s.delta.addr, s.original.addr, s.am.addr, s.symbols.addr, s.fbank.addr]

/-- The live blocks are those of the structure and `rest`. -/
def Owns (rest : List Nat) (h : Heap) (s : Self G) : Prop := h.live.Perm ((blocks s).flatMap Option.toList ++ rest)

theorem del_perm {h : Heap} {p : Option Nat} {rest : List Nat} (hp : h.live.Perm (p.toList ++ rest)) :
    ∃ h', h.del p = .ok h' ∧ h'.live.Perm rest := by
  cases p with
  | none => exact ⟨h, rfl, hp⟩
  | some a =>
    have hp : h.live.Perm (a :: rest) := hp
    have hm : a ∈ h.live := hp.mem_iff.2 (by simp)
    refine ⟨_, if_pos hm, ?_⟩
    have := hp.erase a
    rwa [List.erase_cons_head] at this

theorem destroy_owns {rest : List Nat} {h : Heap} {s : Self G} (ho : Owns rest h s) (a : Nat) :
    ∃ h', destroy h (some (a, s)) = .ok (h', Self.empty) ∧ h'.live.Perm rest := by
  unfold Owns blocks at ho
  simp only [List.flatMap_cons, List.flatMap_nil, List.append_assoc, List.nil_append] at ho
  obtain ⟨h1, e1, p1⟩ := del_perm ho
  obtain ⟨h2, e2, p2⟩ := del_perm p1
  obtain ⟨h3, e3, p3⟩ := del_perm p2
  obtain ⟨h4, e4, p4⟩ := del_perm p3
  obtain ⟨h5, e5, p5⟩ := del_perm p4
  obtain ⟨h6, e6, p6⟩ := del_perm p5
  obtain ⟨h7, e7, p7⟩ := del_perm p6
  refine ⟨h7, ?_, p7⟩
  unfold destroy
  simp only
  rw [e1, ok_bind, e2, ok_bind, e3, ok_bind, e4, ok_bind, e5, ok_bind, e6, ok_bind, e7, ok_bind]

/-- A new block stored in a field that was null. -/
theorem owns_new {rest : List Nat} {h : Heap} {s s' : Self G} (ho : Owns rest h s)
    (hs : ((blocks s').flatMap Option.toList).Perm (h.next :: (blocks s).flatMap Option.toList)) :
    Owns rest h.new.2 s' := by
  unfold Owns at ho ⊢
  have h1 : h.new.2.live = h.next :: h.live := rfl
  rw [h1]
  exact (ho.cons h.next).trans (hs.append_right rest).symm

theorem settle_cases {α : Type} {r : Io α} {h : Heap} {s : Self G} {f : α → Self G} {c : Option Code} {h' : Heap}
    {s' : Self G} (hx : settle r h s f = .ok (c, h', s')) :
    h' = h ∧ ((∃ x, r = .ok x ∧ c = none ∧ s' = f x) ∨ (∃ e, c = some e ∧ s' = s)) := by
  unfold settle at hx
  split at hx
  · cases hx
  · cases hx; exact ⟨rfl, .inr ⟨_, rfl, rfl⟩⟩
  · cases hx; exact ⟨rfl, .inl ⟨_, rfl, rfl, rfl⟩⟩

theorem andThen_cases {x : Exec (Stage G)} {next : Heap → Self G → Exec (Stage G)} {c : Option Code} {h' : Heap}
    {s' : Self G} (hx : andThen x next = .ok (c, h', s')) :
    (∃ e, c = some e ∧ x = .ok (some e, h', s')) ∨
      ∃ h s, x = .ok (none, h, s) ∧ next h s = .ok (c, h', s') := by
  unfold andThen at hx
  obtain ⟨⟨c1, h1, s1⟩, e1, hx⟩ := bind_ok hx
  cases c1 with
  | some e => cases hx; exact .inl ⟨_, rfl, e1⟩
  | none => exact .inr ⟨h1, s1, e1, hx⟩

/-- What is known after some steps, whatever the status: who owns the blocks, and which pointers are still null. -/
structure After (rest : List Nat) (h : Heap) (s : Self G) : Prop where
  owns : Owns rest h s
  fbank : s.fbank = none

theorem readHclg_after {w : World G} {conf : Config} {rest : List Nat} {h : Heap} (ho : h.live.Perm rest)
    {c : Option Code} {h' : Heap} {s' : Self G} (hx : readHclg w conf h .empty = .ok (c, h', s')) :
    Owns rest h' s' ∧ s' = { (Self.empty : Self G) with fst := s'.fst } ∧ (c = none → ∃ p, s'.fst = some p) := by
  have h0 : Owns rest h (.empty : Self G) := ho
  unfold readHclg at hx
  obtain ⟨name, _, hx⟩ := bind_ok hx
  split at hx
  · cases hx; exact ⟨h0, rfl, fun h => by cases h⟩
  · split at hx
    · cases hx; exact ⟨h0, rfl, fun h => by cases h⟩
    · next g _ =>
      cases hx
      exact ⟨owns_new h0 (.refl _), rfl, fun _ => ⟨_, rfl⟩⟩

theorem readAm_after {w : World G} {conf : Config} {rest : List Nat} {h : Heap} {s : Self G} (ho : Owns rest h s)
    (hs : s = { (Self.empty : Self G) with fst := s.fst }) {c : Option Code} {h' : Heap} {s' : Self G}
    (hx : readAm w conf h s = .ok (c, h', s')) :
    Owns rest h' s' ∧ s' = { (Self.empty : Self G) with fst := s.fst, am := s'.am } ∧
      (c = none → ∃ a d, amRead w conf = .ok d ∧ s'.am = some (a, some d)) := by
  unfold readAm at hx
  have key : ∀ x : Option AmData, Owns rest h.new.2 { s with am := some (h.new.1, x) } := fun x =>
    owns_new ho (by
      rw [hs]
      unfold blocks Self.empty Ptr.addr
      simp only [List.flatMap_cons, List.flatMap_nil, Option.map_none, Option.toList_none, List.nil_append,
        Option.map_some, Option.toList_some, List.append_nil]
      exact List.perm_append_comm (l₂ := [h.next]))
  obtain ⟨rfl, ⟨d, hd, hc, rfl⟩ | ⟨e, hc, rfl⟩⟩ := settle_cases hx
  · exact ⟨key _, by rw [hs], fun _ => ⟨_, _, hd, rfl⟩⟩
  · exact ⟨key _, by rw [hs], fun h => by rw [hc] at h; cases h⟩

theorem readSyms_after {w : World G} {conf : Config} {rest : List Nat} {h : Heap} {s : Self G} (ho : Owns rest h s)
    (hs : s = { (Self.empty : Self G) with fst := s.fst, am := s.am }) {c : Option Code} {h' : Heap} {s' : Self G}
    (hx : readSyms w conf h s = .ok (c, h', s')) :
    Owns rest h' s' ∧ s' = { (Self.empty : Self G) with fst := s.fst, am := s.am, symbols := s'.symbols } ∧
      (c = none → ∃ a t name, conf.getPathOrElse kSymbols [] = .ok name ∧ name ≠ [] ∧
        symbolsRead w name = .ok t ∧ s'.symbols = some (a, some t)) := by
  unfold readSyms at hx
  obtain ⟨name, hn, hx⟩ := bind_ok hx
  split at hx
  · cases hx; exact ⟨ho, by rw [hs], fun h => by cases h⟩
  · next hne =>
    have key : ∀ x : Option Symbols, Owns rest h.new.2 { s with symbols := some (h.new.1, x) } := fun x =>
      owns_new ho (by
        rw [hs]
        unfold blocks Self.empty Ptr.addr
        simp only [List.flatMap_cons, List.flatMap_nil, Option.map_none, Option.toList_none, List.nil_append,
          Option.map_some, Option.toList_some, List.append_nil]
        rw [← List.append_assoc]
        exact List.perm_append_comm (l₂ := [h.next]))
    obtain ⟨rfl, ⟨d, hd, hc, rfl⟩ | ⟨e, hc, rfl⟩⟩ := settle_cases hx
    · exact ⟨key _, by rw [hs], fun _ => ⟨_, _, name, hn, hne, hd, rfl⟩⟩
    · exact ⟨key _, by rw [hs], fun h => by rw [hc] at h; cases h⟩

theorem readOriginal_after {w : World G} {name : Str} {rest : List Nat} {h : Heap} {s : Self G} (ho : Owns rest h s)
    (hs : s = { (Self.empty : Self G) with fst := s.fst, am := s.am, symbols := s.symbols }) {c : Option Code} {h' : Heap}
    {s' : Self G} (hx : readOriginal w name h s = .ok (c, h', s')) :
    Owns rest h' s' ∧ s' = { s with original := s'.original } ∧
      (c = none → ∃ a v bs, w.file name = some bs ∧ originalRead bs = .ok v ∧ s'.original = some (a, some v)) := by
  unfold readOriginal at hx
  split at hx
  · cases hx; exact ⟨ho, rfl, fun h => by cases h⟩
  · next bs hb =>
    have key : ∀ x : Option (List Nat), Owns rest h.new.2 { s with original := some (h.new.1, x) } := fun x =>
      owns_new ho (by
        rw [hs]
        unfold blocks Self.empty Ptr.addr
        simp only [List.flatMap_cons, List.flatMap_nil, Option.map_none, Option.toList_none, List.nil_append,
          Option.map_some, Option.toList_some, List.append_nil]
        exact List.perm_middle)
    obtain ⟨rfl, ⟨d, hd, hc, rfl⟩ | ⟨e, hc, rfl⟩⟩ := settle_cases hx
    · exact ⟨key _, rfl, fun _ => ⟨_, _, bs, hb, hd, rfl⟩⟩
    · exact ⟨key _, rfl, fun h => by rw [hc] at h; cases h⟩

theorem readLarge_after {w : World G} {name : Str} {rest : List Nat} {h : Heap} {s : Self G} (ho : Owns rest h s)
    (hs : s = { (Self.empty : Self G) with fst := s.fst, am := s.am, symbols := s.symbols, original := s.original })
    {c : Option Code} {h' : Heap} {s' : Self G} (hx : readLarge w name h s = .ok (c, h', s')) :
    Owns rest h' s' ∧ s' = { s with large := s'.large } ∧
      (c = none → ∃ a l bs, w.file name = some bs ∧ largeRead bs = .ok l ∧ s'.large = some (a, some l)) := by
  unfold readLarge at hx
  split at hx
  · cases hx; exact ⟨ho, rfl, fun h => by cases h⟩
  · next bs hb =>
    have key : ∀ x : Option Lm, Owns rest h.new.2 { s with large := some (h.new.1, x) } := fun x =>
      owns_new ho (by
        rw [hs]
        unfold blocks Self.empty Ptr.addr
        simp only [List.flatMap_cons, List.flatMap_nil, Option.map_none, Option.toList_none, List.nil_append,
          Option.map_some, Option.toList_some, List.append_nil]
        exact List.perm_middle)
    obtain ⟨rfl, ⟨d, hd, hc, rfl⟩ | ⟨e, hc, rfl⟩⟩ := settle_cases hx
    · exact ⟨key _, rfl, fun _ => ⟨_, _, bs, hb, hd, rfl⟩⟩
    · exact ⟨key _, rfl, fun h => by rw [hc] at h; cases h⟩

theorem newDelta_after {rest : List Nat} {h : Heap} {s : Self G} (ho : Owns rest h s) (hs : s.delta = none)
    {c : Option Code} {h' : Heap} {s' : Self G} (hx : newDelta h s = .ok (c, h', s')) :
    Owns rest h' s' ∧ s' = { s with delta := s'.delta } ∧ c = none ∧
      ∃ a b t, s.symbols = some (a, some t) ∧ s'.delta = some (b, t.bos, t.eos) := by
  unfold newDelta at hx
  split at hx
  · cases hx
  · cases hx
  · next a t hst =>
    cases hx
    refine ⟨owns_new ho ?_, rfl, rfl, a, _, t, hst, rfl⟩
    unfold blocks
    simp only [List.flatMap_cons, List.flatMap_nil, List.append_nil, hs]
    unfold Ptr.addr
    simp only [Option.map_none, Option.toList_none, List.nil_append, Option.map_some, Option.toList_some]
    generalize (Option.map Prod.fst s.fst).toList = a1
    generalize (Option.map Prod.fst s.large).toList = a2
    rw [← List.append_assoc a1, ← List.append_assoc a1]
    exact List.perm_middle

/-- After `ReadDeltaLmFst` there is no large language model, or, if the status is OK, a complete one. -/
theorem readDelta_after {w : World G} {conf : Config} {rest : List Nat} {h : Heap} {s : Self G} (ho : Owns rest h s)
    (hs : s = { (Self.empty : Self G) with fst := s.fst, am := s.am, symbols := s.symbols }) {c : Option Code} {h' : Heap}
    {s' : Self G} (hx : readDelta w conf h s = .ok (c, h', s')) :
    Owns rest h' s' ∧ s'.fst = s.fst ∧ s'.am = s.am ∧ s'.symbols = s.symbols ∧ s'.fbank = none ∧
      (c = none → ∃ large, conf.getPathOrElse kLarge [] = .ok large ∧
        ((large = [] ∧ s' = s) ∨
          ∃ orig bl bo l v a1 a2 a3 a4 t, large ≠ [] ∧ conf.getPathOrElse kOriginal [] = .ok orig ∧ orig ≠ [] ∧
            w.file large = some bl ∧ largeRead bl = .ok l ∧ w.file orig = some bo ∧ originalRead bo = .ok v ∧
            s.symbols = some (a1, some t) ∧ s'.large = some (a2, some l) ∧ s'.original = some (a3, some v) ∧
            s'.delta = some (a4, t.bos, t.eos))) := by
  have hfb : s.fbank = none := by rw [hs]; rfl
  unfold readDelta at hx
  obtain ⟨large, hl, hx⟩ := bind_ok hx
  split at hx
  · next hle =>
    cases hx
    exact ⟨ho, rfl, rfl, rfl, hfb, fun _ => ⟨large, hl, .inl ⟨hle, rfl⟩⟩⟩
  · next hln =>
    obtain ⟨orig, hor, hx⟩ := bind_ok hx
    split at hx
    · cases hx
      exact ⟨ho, rfl, rfl, rfl, hfb, fun h => by cases h⟩
    · next hon =>
      rcases andThen_cases hx with ⟨e, he0, hx⟩ | ⟨h2, s2, hx, hd⟩
      · have hne : c ≠ none := by rw [he0]; intro h; cases h
        rcases andThen_cases hx with ⟨e', _, hx⟩ | ⟨h1, s1, h1x, hx⟩
        · obtain ⟨o1, q1, _⟩ := readOriginal_after ho hs hx
          exact ⟨o1, by rw [q1], by rw [q1], by rw [q1], by rw [q1]; exact hfb, fun h => absurd h hne⟩
        · obtain ⟨o1, q1, _⟩ := readOriginal_after ho hs h1x
          obtain ⟨o2, q2, _⟩ := readLarge_after o1 (by rw [q1, hs]) hx
          refine ⟨o2, by rw [q2, q1], by rw [q2, q1], by rw [q2, q1], by rw [q2, q1]; exact hfb, fun h => absurd h hne⟩
      · rcases andThen_cases hx with ⟨e', he, _⟩ | ⟨h1, s1, h1x, hx⟩
        · cases he
        · obtain ⟨o1, q1, c1⟩ := readOriginal_after ho hs h1x
          obtain ⟨o2, q2, c2⟩ := readLarge_after o1 (by rw [q1, hs]) hx
          have hd0 : s2.delta = none := by rw [q2, q1, hs]; rfl
          obtain ⟨o3, q3, rfl, a, b, t, ht, hdel⟩ := newDelta_after o2 hd0 hd
          obtain ⟨a1, v, bo, hbo, hv, hov⟩ := c1 rfl
          obtain ⟨a2, l, bl, hbl, hlr, hll⟩ := c2 rfl
          have hs2 : s2.symbols = s.symbols := by rw [q2, q1]
          refine ⟨o3, by rw [q3, q2, q1], by rw [q3, q2, q1], by rw [q3, q2, q1], by rw [q3, q2, q1]; exact hfb,
            fun _ => ⟨large, hl, .inr ⟨orig, bl, bo, l, v, a, a2, a1, b, t, hln, hor, hon, hbl, hlr, hbo, hv,
              by rw [← hs2]; exact ht, by rw [q3]; exact hll, ?_, hdel⟩⟩⟩
          rw [q3, q2]
          exact hov

theorem newFbank_after {rest : List Nat} {h : Heap} {s : Self G} (ho : Owns rest h s) (hs : s.fbank = none)
    {c : Option Code} {h' : Heap} {s' : Self G} (hx : newFbank h s = .ok (c, h', s')) :
    Owns rest h' s' ∧ s' = { s with fbank := s'.fbank } ∧ c = none ∧ ∃ p, s'.fbank = some p := by
  unfold newFbank at hx
  cases hx
  refine ⟨owns_new ho ?_, rfl, rfl, _, rfl⟩
  unfold blocks
  simp only [List.flatMap_cons, List.flatMap_nil, List.append_nil, hs]
  unfold Ptr.addr
  simp only [Option.map_none, Option.toList_none, List.append_nil, Option.map_some, Option.toList_some]
  simp only [← List.append_assoc]
  exact List.perm_append_comm (l₂ := [h.next])

/-- Everything in a recogniser is there and comes from its readers. -/
structure Complete (w : World G) (conf : Config) (s : Self G) : Prop where
  fst : ∃ p, s.fst = some p
  am : ∃ a d, amRead w conf = .ok d ∧ s.am = some (a, some d)
  symbols : ∃ a t name, conf.getPathOrElse kSymbols [] = .ok name ∧ name ≠ [] ∧ symbolsRead w name = .ok t ∧
    s.symbols = some (a, some t)
  lm : ∃ large, conf.getPathOrElse kLarge [] = .ok large ∧
    ((large = [] ∧ s.large = none ∧ s.original = none ∧ s.delta = none) ∨
      ∃ orig bl bo l v a1 a2 a3 a4 t, large ≠ [] ∧ conf.getPathOrElse kOriginal [] = .ok orig ∧ orig ≠ [] ∧
        w.file large = some bl ∧ largeRead bl = .ok l ∧ w.file orig = some bo ∧ originalRead bo = .ok v ∧
        s.symbols = some (a1, some t) ∧ s.large = some (a2, some l) ∧ s.original = some (a3, some v) ∧
        s.delta = some (a4, t.bos, t.eos))
  fbank : ∃ p, s.fbank = some p

theorem loadAll_after {w : World G} {conf : Config} {rest : List Nat} {h : Heap} (ho : h.live.Perm rest)
    {c : Option Code} {h' : Heap} {s' : Self G} (hx : loadAll w conf h = .ok (c, h', s')) :
    Owns rest h' s' ∧ (c = none → Complete w conf s') := by
  unfold loadAll at hx
  rcases andThen_cases hx with ⟨e, he0, hx⟩ | ⟨h4, s4, hx4, hx⟩
  · refine ⟨?_, fun h => by rw [he0] at h; cases h⟩
    rcases andThen_cases hx with ⟨e, _, hx⟩ | ⟨h3, s3, hx3, hx⟩
    · rcases andThen_cases hx with ⟨e, _, hx⟩ | ⟨h2, s2, hx2, hx⟩
      · rcases andThen_cases hx with ⟨e, _, hx⟩ | ⟨h1, s1, hx1, hx⟩
        · exact (readHclg_after ho hx).1
        · obtain ⟨o1, q1, _⟩ := readHclg_after ho hx1
          exact (readAm_after o1 q1 hx).1
      · rcases andThen_cases hx2 with ⟨e, he, _⟩ | ⟨h1, s1, hx1, hx2⟩
        · cases he
        · obtain ⟨o1, q1, _⟩ := readHclg_after ho hx1
          obtain ⟨o2, q2, _⟩ := readAm_after o1 q1 hx2
          exact (readSyms_after o2 (by rw [q2]) hx).1
    · rcases andThen_cases hx3 with ⟨e, he, _⟩ | ⟨h2, s2, hx2, hx3⟩
      · cases he
      · rcases andThen_cases hx2 with ⟨e, he, _⟩ | ⟨h1, s1, hx1, hx2⟩
        · cases he
        · obtain ⟨o1, q1, _⟩ := readHclg_after ho hx1
          obtain ⟨o2, q2, _⟩ := readAm_after o1 q1 hx2
          obtain ⟨o3, q3, _⟩ := readSyms_after o2 (by rw [q2]) hx3
          exact (readDelta_after o3 (by rw [q3]) hx).1
  · rcases andThen_cases hx4 with ⟨e, he, _⟩ | ⟨h3, s3, hx3, hx4⟩
    · cases he
    rcases andThen_cases hx3 with ⟨e, he, _⟩ | ⟨h2, s2, hx2, hx3⟩
    · cases he
    rcases andThen_cases hx2 with ⟨e, he, _⟩ | ⟨h1, s1, hx1, hx2⟩
    · cases he
    obtain ⟨o1, q1, c1⟩ := readHclg_after ho hx1
    obtain ⟨o2, q2, c2⟩ := readAm_after o1 q1 hx2
    obtain ⟨o3, q3, c3⟩ := readSyms_after o2 (by rw [q2]) hx3
    obtain ⟨o4, e1, e2, e3, e4, c4⟩ := readDelta_after o3 (by rw [q3]) hx4
    obtain ⟨o5, q5, rfl, hfb⟩ := newFbank_after o4 e4 hx
    refine ⟨o5, fun _ => ⟨?_, ?_, ?_, ?_, hfb⟩⟩
    · obtain ⟨p, hp⟩ := c1 rfl
      refine ⟨p, ?_⟩
      rw [q5]
      show s4.fst = _
      rw [e1, q3]
      show s2.fst = _
      rw [q2]
      exact hp
    · obtain ⟨a, d, hd, hda⟩ := c2 rfl
      refine ⟨a, d, hd, ?_⟩
      rw [q5]
      show s4.am = _
      rw [e2, q3]
      exact hda
    · obtain ⟨a, t, name, hn, hne, ht, hst⟩ := c3 rfl
      refine ⟨a, t, name, hn, hne, ht, ?_⟩
      rw [q5]
      show s4.symbols = _
      rw [e3]
      exact hst
    · obtain ⟨large, hl, hc⟩ := c4 rfl
      refine ⟨large, hl, ?_⟩
      rcases hc with ⟨hle, rfl⟩ | ⟨orig, bl, bo, l, v, a1, a2, a3, a4, t, r1, r2, r3, r4, r5, r6, r7, r8, r9, r10, r11⟩
      · refine .inl ⟨hle, ?_, ?_, ?_⟩
        · rw [q5]; show s4.large = _; rw [q3]; rfl
        · rw [q5]; show s4.original = _; rw [q3]; rfl
        · rw [q5]; show s4.delta = _; rw [q3]; rfl
      · refine .inr ⟨orig, bl, bo, l, v, a1, a2, a3, a4, t, r1, r2, r3, r4, r5, r6, r7, ?_, ?_, ?_, ?_⟩
        · rw [q5]; show s4.symbols = _; rw [e3]; exact r8
        · rw [q5]; exact r9
        · rw [q5]; exact r10
        · rw [q5]; exact r11

/-- `ce_stt_init`: a null pointer with a status and one block more, or a complete recogniser that owns its blocks. -/
theorem init_after {w : World G} {name : Str} {h : Heap} {p : Ptr (Self G)} {h' : Heap} {c : Option Code}
    (hx : init w name h = .ok (p, h', c)) :
    (p = none ∧ (∃ e, c = some e) ∧ h'.live.Perm (h.next :: h.live)) ∨
    (∃ s conf, p = some (h.next, s) ∧ c = none ∧ readConf w name = .ok conf ∧
      Owns (h.next :: h.live) h' s ∧ Complete w conf s) := by
  have hfail : ∀ {e : Code} {h1 : Heap} {s : Self G}, Owns (h.next :: h.live) h1 s →
      initFailed h.next e h1 s = .ok (p, h', c) →
      p = none ∧ (∃ e, c = some e) ∧ h'.live.Perm (h.next :: h.live) := by
    intro e h1 s ho hx
    unfold initFailed at hx
    obtain ⟨h2, e2, p2⟩ := destroy_owns ho h.next
    rw [e2, ok_bind] at hx
    cases hx
    exact ⟨rfl, ⟨_, rfl⟩, p2⟩
  unfold init at hx
  simp only at hx
  split at hx
  · cases hx
  · exact .inl (hfail (s := Self.empty) (h1 := h.new.2) (show List.Perm _ _ from .refl _) hx)
  · next conf hconf =>
    obtain ⟨⟨c1, h1, s1⟩, e1, hx⟩ := bind_ok hx
    obtain ⟨o1, k1⟩ := loadAll_after (rest := h.next :: h.live) (.refl _) e1
    cases c1 with
    | some e => exact .inl (hfail o1 hx)
    | none =>
      cases hx
      exact .inr ⟨s1, conf, rfl, rfl, hconf, o1, k1 rfl⟩

end Verif.App
